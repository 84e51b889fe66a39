import Verif.Py.Dict
import Verif.Model.Regex
/-!
# Model of the application object and of request dispatch

`tremolo/tremolo.py` (class `Tremolo`: listen, route, error, add_route, add_middleware, hooks) and `tremolo/http_server.py`
(class `HTTPServer`: middlewares, dispatch, option passing).

`F` is the type of Python functions (only their identity matters here), `V` the type of option values.  Paths are the latin-1
encoded text (tremolo.py:197, 209, 212); a path outside latin-1 raises at registration and is not modelled.
-/
namespace Verif.Model.App
open Verif.Py Verif.Model.Regex

/-- option dictionaries: names are ASCII (tremolo.py:172-183, http_server.py:266-272). -/
abbrev Opts (V : Type) := Dict Bytes V

/-! ## Registration -/

/-- `Tremolo.listen`'s first argument: an int, or anything else (a UNIX socket path) (tremolo.py:71-75). -/
inductive PortArg
  | port (n : Int)
  | path (p : Bytes)
deriving DecidableEq, Repr

/-- a key of `self.ports` (tremolo.py:77-81). -/
abbrev Addr := Option Bytes × Option Int

/-- tremolo.py:72-75. -/
def addrOf : PortArg → Option Bytes → Addr
  | .port n, host => (host, some n)
  | .path p, _ => (some p, none)

/-- `Tremolo.listen` (tremolo.py:71-81): the returned flag and the new `self.ports`. -/
def listen {O : Type} (ports : Dict Addr O) (port : PortArg) (host : Option Bytes) (opts : O) : Bool × Dict Addr O :=
  let a := addrOf port host
  if Dict.mem ports a then (false, ports)
  else
    let ports := Dict.set ports a opts
    (Dict.mem ports a, ports)

/-- An entry `(pattern, func, kwargs)` of a route list; the pattern is still text (tremolo.py:192-217). -/
structure Entry (F V : Type) where
  pat : Bytes
  func : F
  opts : Opts V

/-- The keys of `self.routes` other than 0 and -1: the integer 1 or a byte string. -/
inductive Key
  | index
  | path (b : Bytes)
deriving DecidableEq, Repr

/-- `self.routes` (tremolo.py:40-55): `errs` is `routes[0]`, `rx` is `routes[-1]`, `keyed` holds the other keys. -/
structure Table (F V : Type) where
  errs : List (Nat × F × Opts V)
  keyed : Dict Key (List (Entry F V))
  rx : List (Entry F V)

/-- The pattern of the index route (tremolo.py:50). -/
def indexPat : Bytes := b!"^/+(?:\\?.*)?$"

/-- `Tremolo.__init__` (tremolo.py:40-55), given the four built-in handlers and the options of 404 and of the index. -/
def initTable {F V : Type} (e400 e404 e500 index : F) (o404 oIndex : Opts V) : Table F V :=
  { errs := [(400, e400, []), (404, e404, o404), (500, e500, [])]
    keyed := [(.index, [{ pat := indexPat, func := index, opts := oIndex }])]
    rx := [] }

/-- `Tremolo.error(code)(func)` (tremolo.py:97-112): the loop with `break` at the first entry of that code. -/
def setErr {F V : Type} (code : Nat) (f : F) (o : Opts V) : List (Nat × F × Opts V) → List (Nat × F × Opts V)
  | [] => []
  | h :: t => if code = h.1 then (h.1, f, Dict.merge h.2.2 o) :: t else h :: setErr code f o t
/-- `error(code)` applied to a function (tremolo.py:97-112). -/
def error {F V : Type} (t : Table F V) (code : Nat) (f : F) (o : Opts V) : Table F V :=
  { t with errs := setErr code f o t.errs }

/-- `s.strip('/')` (tremolo.py:200, http_server.py:285). -/
def stripSlash (s : Bytes) : Bytes := stripBy (· == 47) s

/-- The routing key of a stripped, non-empty path: `'{:d}#{:s}'.format(_path.count('/') + 2, _path[:(_path + '/').find('/')])`
(tremolo.py:207-209), and the same with bytes formatting at http_server.py:290-292. -/
def pathKey (p : Bytes) : Key :=
  .path (fmtNat (count1 47 p + 2) ++ b!"#" ++
    (match find b!"/" (p ++ b!"/") with
     | some n => p.take n
     | none => sliceTo p (-1)))

/-- The key of a stripped path (http_server.py:287-292). -/
def keyOf (p : Bytes) : Key := if p = [] then .index else pathKey p

/-- `r'^/+{:s}(?:/+)?(?:\?.*)?$'.format(_path)` (tremolo.py:210-212). -/
def litPat (p : Bytes) : Bytes := b!"^/+" ++ p ++ b!"(?:/+)?(?:\\?.*)?$"

/-- `path.split('?', 1)[0].strip('/')` (tremolo.py:200). -/
def routePath (path : Bytes) : Bytes := stripSlash ((splitByte 63 1 path).headD [])

/-- `Tremolo.add_route` (tremolo.py:192-217) with the options already resolved.  At line 204 `self.routes[1][0][0]` is read:
an empty index list would raise, which never happens (`headD` then stands for nothing reachable; see `C56_shape`). -/
def addRoute {F V : Type} (t : Table F V) (path : Bytes) (f : F) (o : Opts V) : Table F V :=
  if startsWith path b!"^" || endsWith path b!"$" then { t with rx := t.rx ++ [{ pat := path, func := f, opts := o }] }
  else
    let p := routePath path
    if p = [] then
      let pat := match Dict.get t.keyed .index with
        | some (e :: _) => e.pat
        | _ => indexPat
      { t with keyed := Dict.set t.keyed .index [{ pat := pat, func := f, opts := o }] }
    else
      let key := pathKey p
      let e : Entry F V := { pat := litPat p, func := f, opts := o }
      match Dict.get t.keyed key with
      | some l => { t with keyed := Dict.set t.keyed key (l ++ [e]) }
      | none => { t with keyed := Dict.set t.keyed key [e] }

/-- One registration on an app object: `@app.route(path)`, `@app.error(code)` / `@app.route(code)` (tremolo.py:83-112). -/
inductive Reg (F V : Type)
  | route (path : Bytes) (f : F) (o : Opts V)
  | error (code : Nat) (f : F) (o : Opts V)

/-- One registration (tremolo.py:83-112, 192-217). -/
def register {F V : Type} (t : Table F V) : Reg F V → Table F V
  | .route p f o => addRoute t p f o
  | .error c f o => error t c f o

/-- `Tremolo.getoptions(func)` (tremolo.py:172-183): `args` is `co_varnames[:co_argcount]`, `defaults` is `__defaults__`
(`[]` for None); the names from `co_argcount - len(defaults)` on get the defaults in order. -/
def getoptions {V : Type} (args : List Bytes) (defaults : List V) : Opts V :=
  ((args.drop (args.length - defaults.length)).zip defaults).foldl (fun d p => Dict.set d p.1 p.2) []

/-! ## Dispatch -/

/-- `re.compile(pat).search(url)` (tremolo.py:225, http_server.py:296, 314): our own matcher on the fragment it covers, and an
arbitrary engine `rx` for any other pattern. -/
def matchPat (rx : Bytes → Bytes → Bool) (pat url : Bytes) : Bool :=
  match parse pat with
  | some r => search r url
  | none => rx pat url

/-- The handler that `headers_received` runs (http_server.py:277-339). -/
inductive Choice (F V : Type)
  | bad
  | keyed (e : Entry F V)
  | regex (i : Nat) (e : Entry F V)
  | notFound

/-- The `while i > 0: i -= 1 ...` loop (http_server.py:309-314) over `routes[-1]`: `n` entries are left to look at. -/
def lastMatch {F V : Type} (m : Bytes → Bool) (l : List (Entry F V)) : Nat → Option (Nat × Entry F V)
  | 0 => none
  | i + 1 => match l[i]? with
    | some e => if m e.pat then some (i, e) else lastMatch m l i
    | none => none

/-- The path of a URL (http_request.py:54) and the key of a request (http_server.py:285-292). -/
def urlPath (url : Bytes) : Bytes := (partition1 63 url).1
/-- The key under which a request is looked up (http_server.py:285-292). -/
def urlKey (url : Bytes) : Key := keyOf (stripSlash (urlPath url))

/-- The handler that `headers_received` takes for a request; `rx p u` says whether the pattern `p` is found in the URL `u` (http_server.py:277-339). -/
def choose {F V : Type} (rx : Bytes → Bytes → Bool) (t : Table F V) (valid : Bool) (url : Bytes) : Choice F V :=
  if !valid then .bad
  else match Dict.get t.keyed (urlKey url) with
    | some l => match l.find? (fun e => matchPat rx e.pat url) with
      | some e => .keyed e
      | none => .notFound
    | none => match lastMatch (fun p => matchPat rx p url) t.rx t.rx.length with
      | some (i, e) => .regex i e
      | none => .notFound

/-- The change to the table before the handler runs (http_server.py:317-322).  No await happens between line 294 and line 322,
so the key is still missing. -/
def promote {F V : Type} (t : Table F V) (url : Bytes) : Choice F V → Table F V
  | .regex _ e => match Dict.get t.keyed (urlKey url) with
    | some l => { t with keyed := Dict.set t.keyed (urlKey url) (l ++ [e]) }
    | none => { t with keyed := Dict.set t.keyed (urlKey url) [e] }
  | _ => t

/-- `del self._routes[-1][i]` after the handler has returned (http_server.py:332); `none` models IndexError. -/
def delRx {F V : Type} (t : Table F V) (i : Nat) : Option (Table F V) :=
  if i < t.rx.length then some { t with rx := t.rx.eraseIdx i } else none

/-- What can happen to a worker's route table: a request starts being dispatched, or the handler of a regex route chosen with
index `i` returns (normally: line 332 runs; if it raised, line 332 is skipped and the table does not change). -/
inductive Ev
  | start (valid : Bool) (url : Bytes)
  | finish (i : Nat)

/-- One event; an IndexError leaves the table as it is (http_server.py:294-333). -/
def step {F V : Type} (rx : Bytes → Bytes → Bool) (t : Table F V) : Ev → Table F V
  | .start valid url => promote t url (choose rx t valid url)
  | .finish i => (delRx t i).getD t

/-- A request served on its own: dispatch, handler, removal (http_server.py:277-339). -/
def serve {F V : Type} (rx : Bytes → Bytes → Bool) (t : Table F V) (valid : Bool) (url : Bytes) : Choice F V × Table F V :=
  let c := choose rx t valid url
  let t' := promote t url c
  match c with
  | .regex i _ => (c, (delRx t' i).getD t')
  | _ => (c, t')

/-! ## Middlewares and options -/

/-- What a middleware or handler call yields, as far as lines 67-73 and 123-135 of http_server.py look at it. -/
inductive Ret
  | none
  | body
  | other
  | raises
deriving DecidableEq, Repr

/-- Calls in the order they happen (http_server.py:63-65, 98-110, 262-339). -/
inductive Call (F V : Type)
  | middleware (f : F) (o : Opts V)
  | handler (f : F) (o : Opts V)
  | reply                              -- `await self.response.end(data)` by a middleware (line 89)
  | respond                            -- the handler's own data is written (lines 183-258)
  | close                              -- `self.response.close()` for a handler that returned None (line 129)

/-- How a group of calls ended: the options to go on with, a stop, or an exception (http_server.py:67-73, 266-275). -/
inductive Flow (V : Type)
  | next (o : Opts V)
  | stop
  | error

/-- `_handle_middleware` (http_server.py:59-89). -/
def handleMiddleware {F V : Type} (f : F) (o : Opts V) : Ret → List (Call F V) × Flow V
  | .none => ([.middleware f o], .next o)
  | .body => ([.middleware f o, .reply], .stop)
  | .other => ([.middleware f o], .stop)
  | .raises => ([.middleware f o], .error)

/-- The loop over request middlewares (http_server.py:268-275); each middleware comes with the outcome of its call. -/
def requestLoop {F V : Type} : List ((F × Opts V) × Ret) → Opts V → List (Call F V) × Flow V
  | [], o => ([], .next o)
  | (m, r) :: ms, o =>
    match handleMiddleware m.1 (Dict.merge m.2 o) r with
    | (tr, .next o') => let (tr', fl) := requestLoop ms o'; (tr ++ tr', fl)
    | (tr, fl) => (tr, fl)

/-- The loop over response middlewares (http_server.py:171-181, 235-245): `i` counts down. -/
def responseLoop {F V : Type} (ms : List ((F × Opts V) × Ret)) : Nat → Opts V → List (Call F V) × Flow V
  | 0, o => ([], .next o)
  | i + 1, o =>
    match ms[i]? with
    | Option.none => ([], .error)
    | some (m, r) => match handleMiddleware m.1 (Dict.merge m.2 o) r with
      | (tr, .next o') => let (tr', fl) := responseLoop ms i o'; (tr ++ tr', fl)
      | (tr, fl) => (tr, fl)

/-- The defaults filled in at http_server.py:99-101. -/
def withDefaults {V : Type} (rate bufferSize : V) (o : Opts V) : Opts V :=
  let o := Dict.set o b!"rate" ((Dict.get o b!"rate").getD rate)
  Dict.set o b!"buffer_size" ((Dict.get o b!"buffer_size").getD bufferSize)

/-- `_handle_response` (http_server.py:98-260) as a sequence of calls: `r` is the outcome of the handler (`body` also stands
for a generator that yields). -/
def handleResponse {F V : Type} (rate bufferSize : V) (rms : List ((F × Opts V) × Ret)) (f : F) (o : Opts V) (r : Ret) :
    List (Call F V) × Flow V :=
  let o := withDefaults rate bufferSize o
  match r with
  | .none => ([.handler f o, .close], .stop)
  | .other => ([.handler f o], .stop)
  | .raises => ([.handler f o], .error)
  | .body => match responseLoop rms rms.length o with
    | (tr, .next o') => (.handler f o :: tr ++ [.respond], .next o')
    | (tr, fl) => (.handler f o :: tr, fl)

/-- The error entry used at http_server.py:280 and 337; `routes[0]` always has its three entries (`C56_shape`). -/
def errEntry {F V : Type} (t : Table F V) (i : Nat) : Option (F × Opts V) := (t.errs[i]?).map (·.2)

/-- The function and options that go with a choice (http_server.py:279-282, 306, 331, 336-339). -/
def target {F V : Type} (t : Table F V) : Choice F V → Option (F × Opts V)
  | .bad => errEntry t 0
  | .keyed e => some (e.func, e.opts)
  | .regex _ e => some (e.func, e.opts)
  | .notFound => errEntry t 1

/-- `headers_received` (http_server.py:262-339): the calls made for one request. -/
def headersReceived {F V : Type} (rx : Bytes → Bytes → Bool) (t : Table F V) (rate bufferSize : V)
    (qms rms : List ((F × Opts V) × Ret)) (valid : Bool) (url : Bytes) (hret : Ret) : List (Call F V) × Flow V :=
  match requestLoop qms [] with
  | (tr, .next o) =>
    match target t (choose rx t valid url) with
    | Option.none => (tr, .error)
    | some (f, ko) =>
      let (tr', fl) := handleResponse rate bufferSize rms f (Dict.merge ko o) hret
      (tr ++ tr', fl)
  | (tr, fl) => (tr, fl)

/-! ## Hooks -/

/-- The value a hook returns, or that it raised (http_server.py:25-48). -/
inductive HookRet
  | falsy
  | truthy
  | raises
deriving DecidableEq, Repr

/-- `for func in hooks: if await func(...): break` (tremolo.py:271-276; http_server.py:26-28): the hooks called. -/
def runForward {F : Type} : List (F × HookRet) → List F
  | [] => []
  | (f, .falsy) :: t => f :: runForward t
  | (f, _) :: _ => [f]

/-- `i = len(hooks); while i > 0: i -= 1; if await hooks[i](...): break` (tremolo.py:458-468; http_server.py:32-38). -/
def runBackward {F : Type} (hs : List (F × HookRet)) : Nat → List F
  | 0 => []
  | i + 1 => match hs[i]? with
    | some (f, .falsy) => f :: runBackward hs i
    | some (f, _) => [f]
    | none => []

end Verif.Model.App
