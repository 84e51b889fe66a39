import Verif.Model.Args
/-!
# Model of the launch of the workers (tremolo/tremolo.py)

`run` (595-712) up to the start of the first workers: the name of the ASGI application, the addresses, the number of workers and the
options that each of them is given; then what `_worker` (482-484) and `_serve` (227-364) take from the options, and how `_serve` (281-299)
finds the application.

Texts are byte strings as in `Args`. `posixpath` is modelled from its documented source: `abspath`, `normpath`, `split`, `splitext`.
Modules are abstract: what is loaded, built in, or found in a directory under a name is given by a `World`. Not modelled: Windows, the
printed texts, sockets (see `Sockets`), the pipe and the processes (see `Supervisor`).
-/
namespace Verif.Model.Launch
open Verif.Py Verif.Model.App Verif.Model.Args

/-! ## posixpath -/

/-- `posixpath.join(a, b)` (for tremolo.py:290-292, 633-636). -/
def joinPath (a b : Bytes) : Bytes :=
  if startsWith b b!"/" then b
  else if a = [] ∨ endsWith a b!"/" = true then a ++ b
  else a ++ b!"/" ++ b

/-- The loop of `normpath`; `rooted`: `initial_slashes`; `acc`: `new_comps`, reversed (for tremolo.py:290-292, 633-636). -/
def normLoop (rooted : Bool) : List Bytes → List Bytes → List Bytes
  | [], acc => acc
  | comp :: t, acc =>
    if comp = [] ∨ comp = b!"." then normLoop rooted t acc
    else if comp ≠ b!".." ∨ (rooted = false ∧ acc = []) ∨ acc.head? = some b!".." then normLoop rooted t (comp :: acc)
    else normLoop rooted t acc.tail

/-- `posixpath.normpath(path)` (for tremolo.py:290-292, 633-636). -/
def normpath (p : Bytes) : Bytes :=
  if p = [] then b!"."
  else
    let rooted := startsWith p b!"/"
    let slashes := if rooted then (if startsWith p b!"//" && !startsWith p b!"///" then b!"//" else b!"/") else []
    let r := slashes ++ join b!"/" (normLoop rooted (splitByte 47 p.length p) []).reverse
    if r = [] then b!"." else r

/-- `posixpath.abspath(path)` (for tremolo.py:290-292, 633-636). -/
def abspath (cwd p : Bytes) : Bytes := if startsWith p b!"/" then normpath p else normpath (joinPath cwd p)

/-- `posixpath.split(p)` (for tremolo.py:290-292, 633-636). -/
def splitPath (p : Bytes) : Bytes × Bytes :=
  let i := match rfind b!"/" p with
    | some n => n + 1
    | none => 0
  let head := p.take i
  (if head ≠ [] ∧ ¬ head.all (· == 47) = true then (head.reverse.dropWhile (· == 47)).reverse else head, p.drop i)

/-- `posixpath.splitext(p)[0]` for a `p` without a slash: the last dot counts unless there are only dots before it. -/
def stemOf (p : Bytes) : Bytes :=
  match rfind b!"." p with
  | some n => if (p.take n).all (· == 46) then p else p.take n
  | none => p

/-! ## The application -/

/-- `run(app=...)`: left out, a text, or an object (tremolo.py:611-629). -/
inductive AppArg (O : Type)
  | none
  | text (t : Bytes)
  | obj (o : O)

/-- The module `__main__` of the parent: `__file__` and what `dir` lists, in that order (tremolo.py:609-625). -/
structure Main (O : Type) where
  file : Option Bytes
  attrs : List (Bytes × O)

/-- The loop over `dir(__main__)` (616-623). -/
def findAttr {O : Type} (eq : O → O → Bool) (o : O) : List (Bytes × O) → Bytes
  | [] => b!"app"
  | (n, v) :: t => if startsWith n b!"__" = true ∨ eq v o = false then findAttr eq o t else n

/-- `kwargs['app']` (611-629): `some none` for a native server; `none`: RuntimeError. -/
def appText {O : Type} (eq : O → O → Bool) (truthy : O → Bool) (m : Main O) : AppArg O → Option (Option Bytes)
  | .none => some none
  | .text t => some (if t = [] then none else some t)
  | .obj o =>
    if truthy o then m.file.map (fun f => some (f ++ b!":" ++ findAttr eq o m.attrs))
    else some none

/-- Lines 285-292: the directory, the module and the attribute that the text of the application names. `app_dir` is never empty, so
that 294-295 do nothing. -/
def target (cwd app : Bytes) : Bytes × Bytes × Bytes :=
  let app := if (contains b!":\\" app ∧ count1 58 app < 2) ∨ ¬ contains b!":" app then app ++ b!":app" else app
  let (path, attr) := rsplitColon app
  let (dir, base) := splitPath (abspath cwd path)
  (dir, stemOf base, attr)

/-- The modules of a worker: `sys.modules`, the built-in ones, what a directory offers under a name, and what a name with dots stands
for; `path` is `sys.path` (tremolo.py:297-299). -/
structure World (M O : Type) where
  loaded : Dict Bytes M
  builtin : Dict Bytes M
  found : Bytes → Bytes → Option M
  dotted : Bytes → Option M
  path : List Bytes
  attr : M → Bytes → Option O

/-- `import_module(name)` with the given `sys.path` (tremolo.py:297-299). -/
def importModule {M O : Type} (w : World M O) (path : List Bytes) (name : Bytes) : Option M :=
  if contains b!"." name then w.dotted name
  else match Dict.get w.loaded name with
    | some m => some m
    | none => match Dict.get w.builtin name with
      | some m => some m
      | none => path.findSome? (fun d => w.found d name)

/-- How finding the application fails (tremolo.py:297-299). -/
inductive LoadErr | noModule (name : Bytes) | noAttr (name attr : Bytes)
deriving DecidableEq, Repr

/-- Lines 285-299: the application that a worker serves. -/
def loadApp {M O : Type} (w : World M O) (cwd app : Bytes) : Except LoadErr O :=
  let (dir, name, attr) := target cwd app
  match importModule w (dir :: w.path) name with
  | none => .error (.noModule name)
  | some m => match w.attr m attr with
    | none => .error (.noAttr name attr)
    | some o => .ok o

/-! ## The options -/

/-- A value of an option: as from the command line, or the dictionary of `ssl` (tremolo.py:595-597). -/
inductive Val
  | v (o : OVal)
  | ssl (d : Dict Bytes Bytes)
deriving DecidableEq, Repr

/-- The arguments of `run` (595) other than `app`; `port` is an int. -/
structure RunArgs where
  host : Option Bytes := none
  port : Int := 0
  reusePort : Bool := true
  workerNum : Int := 1
  kw : Opts Val := []

/-- How `run` fails before a worker is started (tremolo.py:595-712). -/
inductive RunErr
  | noApp
  /-- `log_level` has no `upper` -/
  | badLevel
  /-- `with host=None, listen() must be called first` -/
  | noPorts
  | workerNum
  /-- `range(worker_num)` of something else than an int -/
  | badNumber
deriving DecidableEq, Repr

/-- What the workers of one address are started with (682-712): `n` of them. -/
structure Start where
  host : Bytes
  port : Int
  opts : Opts Val
  n : Nat
deriving DecidableEq, Repr

/-- `kwargs.get('log_level', 'DEBUG').upper()` (597) -/
def levelOf (kw : Opts Val) : Option Bytes :=
  match Dict.get kw b!"log_level" with
  | none => some b!"DEBUG"
  | some (.v (.str s)) => some (upper s)
  | some _ => none

/-- The value of the option `app` (tremolo.py:611-629). -/
def appVal : Option Bytes → Val
  | some t => .v (.str t)
  | none => .v .none

/-- `kwargs` behind line 656: `reuse_port`, `log_level` and `app` are set. `app_dir` (632-639), used only by reloads, is left out. -/
def kwargsOf (r : RunArgs) (level : Bytes) (app : Option Bytes) : Opts Val :=
  Dict.set (Dict.set (Dict.set r.kw b!"reuse_port" (.v (.bool r.reusePort))) b!"log_level" (.v (.str level))) b!"app" (appVal app)

/-- `options.get('worker_num', worker_num)` and `range` (702). A bool is an int. -/
def countOf (n : Int) (o : Opts Val) : Option Nat :=
  match Dict.get o b!"worker_num" with
  | none => some n.toNat
  | some (.v (.int k)) => some k.toNat
  | some (.v (.bool b)) => some (if b then 1 else 0)
  | some _ => none

/-- One turn of the loop over `self.ports` (682-712). -/
def startOf (host : Bytes) (port n : Int) (kw : Opts Val) (e : Addr × Opts Val) : Option Start :=
  let o := Dict.merge kw e.2
  (countOf n o).map (fun k => { host := e.1.1.getD host, port := e.1.2.getD port, opts := o, n := k })

/-- The workers of all addresses (tremolo.py:684-721). -/
def startAll (host : Bytes) (port n : Int) (kw : Opts Val) : Dict Addr (Opts Val) → Option (List Start)
  | [] => some []
  | e :: t => match startOf host port n kw e, startAll host port n kw t with
    | some s, some l => some (s :: l)
    | _, _ => none

/-- `self.ports` behind lines 658-666. -/
def portsOf (ports : Dict Addr (Opts Val)) (r : RunArgs) (kw : Opts Val) : Dict Addr (Opts Val) :=
  match r.host with
  | none => ports
  | some h => (listen ports (.port r.port) (some h) kw).2

/-- `run` (595-712) with the app object's `self.ports`, on a machine where `cpus` are usable: what is started. -/
def run {O : Type} (eq : O → O → Bool) (truthy : O → Bool) (m : Main O) (cpus : Nat) (ports : Dict Addr (Opts Val)) (app : AppArg O)
    (r : RunArgs) : Except RunErr (List Start) :=
  match levelOf r.kw with
  | none => .error .badLevel
  | some level => match appText eq truthy m app with
    | none => .error .noApp
    | some a =>
      let kw := kwargsOf r level a
      if r.host = none ∧ ports = [] then .error .noPorts
      else
        if r.workerNum < 1 then .error .workerNum
        else match startAll (r.host.getD b!"localhost") r.port (min r.workerNum cpus) kw (portsOf ports r kw) with
          | some l => .ok l
          | none => .error .badNumber

/-! ## The worker -/

/-- An attribute of the module `logging`: a level, or something else (a function, a class, …) (tremolo.py:482-484). -/
inductive LogAttr | level (n : Nat) | other
deriving DecidableEq, Repr

/-- `self.logger.setLevel(getattr(logging, kwargs['log_level'], logging.DEBUG))` (482-484); `none`: setLevel raises. -/
def setLevel (attrs : Dict Bytes LogAttr) (o : Opts Val) : Option Nat :=
  match Dict.get o b!"log_level" with
  | some (.v (.str s)) => match Dict.get attrs s with
    | some (.level n) => some n
    | some .other => none
    | none => some 10
  | _ => none

/-- The module and the name in it from which the event loop is made (493-503); `none`: TypeError. -/
def loopOf (o : Opts Val) : Option (Bytes × Bytes) :=
  match (Dict.get o b!"loop").getD (.v (.str b!"asyncio.")) with
  | .v (.str s) =>
    let s := if contains b!"." s then s else s ++ b!"."
    let n := (rfind b!"." s).getD 0
    let m := s.take n
    let c := s.drop (n + 1)
    some (if m = [] then b!"asyncio" else m, if c = [] then b!"new_event_loop" else c)
  | _ => none

/-- The options that `_serve` reads with `options.get` (229, 260-262, 327-364, 386) with the value that it takes if they are not there. -/
def served : List (Bytes × Val) := [
  (b!"backlog", .v (.int 100)), (b!"keepalive_connections", .v (.int 512)), (b!"debug", .v (.bool false)), (b!"ws", .v (.bool true)),
  (b!"ws_max_payload_size", .v (.int (2 * 1048576))), (b!"download_rate", .v (.int 1048576)), (b!"upload_rate", .v (.int 1048576)),
  (b!"buffer_size", .v (.int (16 * 1024))), (b!"client_max_body_size", .v (.int (2 * 1048576))),
  (b!"client_max_header_size", .v (.int 8192)), (b!"max_queue_size", .v (.int 128)), (b!"request_timeout", .v (.int 30)),
  (b!"keepalive_timeout", .v (.int 30)), (b!"app_handler_timeout", .v (.int 120)), (b!"app_close_timeout", .v (.int 30)),
  (b!"root_path", .v (.str [])), (b!"limit_memory", .v (.int 0))]

/-- The value that a worker serves with (tremolo.py:227-364). -/
def setting (o : Opts Val) (k : Bytes) : Option Val := (Dict.get served k).map (fun d => (Dict.get o k).getD d)

/-- `server_name` (252-255, 311-312) as the `Server` field has it; `none`: not a text. -/
def serverName (o : Opts Val) (asgi : Bool) : Option Bytes :=
  match Dict.get o b!"server_name" with
  | none => some (b!"Tremolo" ++ (if asgi then b!" (ASGI)" else []))
  | some (.v (.str s)) => some (s ++ (if asgi && s ≠ [] then b!" (ASGI)" else []))
  | some _ => none

/-- The certificate and the key that `_serve` loads (240-250): `none` for plain HTTP. -/
def tls (o : Opts Val) : Option (Bytes × Option Bytes) :=
  match Dict.get o b!"ssl" with
  | some (.ssl d) => if d = [] then none else some ((Dict.get d b!"cert").getD [], Dict.get d b!"key")
  | _ => none

/-- The keywords behind those that `run` names (utils.py:54-105, __main__.py:89-99). -/
def kwOf (o : Options) : Opts Val :=
  (o.opts.filter (fun e => !(e.1 == b!"host" || e.1 == b!"port" || e.1 == b!"worker_num"))).map (fun e => (e.1, Val.v e.2)) ++
    [(b!"ssl", .ssl o.ssl)]

/-- `server.run(**options)` (`__main__.py:90-99`) with what `Args.main` gives. `none`: values that the command line does not give, for
which `run` raises. -/
def ofMain (o : Options) : Option RunArgs :=
  match Dict.get o.opts b!"host", Dict.get o.opts b!"port", (Dict.get o.opts b!"worker_num").getD (.int 1) with
  | some (.str h), some (.int p), .int n => some { host := some h, port := p, workerNum := n, kw := kwOf o }
  | some .none, some (.int p), .int n => some { host := none, port := p, workerNum := n, kw := kwOf o }
  | _, _, _ => none

end Verif.Model.Launch
