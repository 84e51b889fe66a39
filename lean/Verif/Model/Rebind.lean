import Verif.Py.Dict
import Verif.Py.Bytes
/-!
# Reloading in the parent (tremolo/tremolo.py:82-146, 583-593, 632-639, 728-773)

When a worker ends with code 0, the parent runs the modules of the application again (`_reload_module`), takes over all attributes
(`routes`, where the error handlers are too, `middlewares`, `events`) of the application objects that it finds in the main module, and starts a new worker
with them: `routes` and `middlewares` as arguments, `events` with the object whose method the worker runs. They are pickled: a function goes
as the name of its module and its own, provided that this is what is found there.

Programs are reduced to what concerns them: functions, application objects, direct subclasses of the server class, names imported from
other modules, and registrations as route, error handler, middleware or hook. The registrations of an application are one list, in order; C56 and C109 say which
tables they make. One that a later one replaces (the same error code, or the path `/`) stays in the list, and so does one for an error code that has no handler in the table. Functions are module level. `sys.modules` is in the order of insertion, an imported module is entered before it is run, and `importlib.reload` runs the text again in the same namespace, as
the Python documentation has them. Not modelled: what functions do.
-/
namespace Verif.Model.Rebind
open Verif.Py

/-- Objects with their identity (tremolo.py:728-773). -/
inductive Obj
  | fn (mod name : Bytes) (id : Nat)
  | cls (id : Nat)
  /-- an application: its class (0 is `Tremolo`) and itself -/
  | app (cls id : Nat)
deriving DecidableEq, Repr

/-- The lists of middlewares (tremolo.py:56-61). -/
inductive Mw | connect | close | request | response
deriving DecidableEq, Repr

/-- The hooks for a worker (tremolo.py:62-65). -/
inductive Hook | start | stop
deriving DecidableEq, Repr

/-- Where a function is registered: as a route, a middleware, the handler of an error or a hook (tremolo.py:82-146, 185-217). -/
inductive Place
  | path (pat : Bytes)
  | mw (name : Mw)
  | err (code : Nat)
  | hook (name : Hook)
deriving DecidableEq, Repr

/-- Is there a method besides the decorator (`add_route` and `add_middleware`, tremolo.py:185-217)? -/
def Place.added : Place → Bool
  | .path _ | .mw _ => true
  | .err _ | .hook _ => false

/-- A statement of a module (tremolo.py:82-170, 185-217). -/
inductive Stmt
  /-- `def n` under decorators `a.route(pat)`, `a.middleware(name)`, `a.on_request`, `a.error(code)` or `a.on_worker_start`, the innermost first -/
  | defn (n : Bytes) (ds : List (Bytes × Place))
  /-- `class n(Tremolo)` -/
  | subclass (n : Bytes)
  /-- `n = Tremolo()` or `n = c()` -/
  | newApp (n : Bytes) (c : Option Bytes)
  /-- `from m import x as y` -/
  | imp (m x y : Bytes)
  /-- `a.add_route(h, pat)` or `a.add_middleware(h, name)`; there is no such method for the other places: AttributeError -/
  | route (a : Bytes) (at' : Place) (h : Bytes)
deriving DecidableEq, Repr

/-- A module: `__file__` (`none`: there is none, or it is `None`) and its other names (tremolo.py:583-593). -/
structure Mod where
  file : Option Bytes
  attrs : Dict Bytes Obj
deriving DecidableEq, Repr

/-- `mods`: `sys.modules`; `heap`: the registrations of each application object (tremolo.py:583-593, 728-773). -/
structure St where
  mods : Dict Bytes Mod
  heap : Dict Nat (List (Place × Obj))
  next : Nat
deriving DecidableEq, Repr

/-- The files: under which path a module of a name is found, and the texts (tremolo.py:583-593). -/
structure Disk where
  path : Bytes → Option Bytes
  text : Bytes → Option (List Stmt)

/-- `raised`: an exception; `fuel`: imports nested deeper than the model follows (tremolo.py:583-593). -/
inductive Err | raised | fuel
deriving DecidableEq, Repr

/-- `sys.modules[m].x` (tremolo.py:741-750). -/
def attr (s : St) (m x : Bytes) : Option Obj := (Dict.get s.mods m).bind (fun q => Dict.get q.attrs x)

/-- `x = o` in the module `m` (tremolo.py:583-593). -/
def assign (s : St) (m x : Bytes) (o : Obj) : St :=
  match Dict.get s.mods m with
  | some q => { s with mods := Dict.set s.mods m { q with attrs := Dict.set q.attrs x o } }
  | none => s

/-- `a.routes`, `a.middlewares` or `a.events` gets another entry (tremolo.py:97-121, 185-217) -/
def addRoute (s : St) (i : Nat) (pat : Place) (o : Obj) : St :=
  { s with heap := Dict.set s.heap i ((Dict.get s.heap i).getD [] ++ [(pat, o)]) }

/-- The decorators of a function (tremolo.py:82-146): each registers a wrapper, which has the names of the function, and hands it on. -/
def decorate (m n : Bytes) : List (Bytes × Place) → St → Obj → Except Err St
  | [], s, o => .ok (assign s m n o)
  | (a, pat) :: t, s, _ => match attr s m a with
    | some (.app _ i) => decorate m n t { addRoute s i pat (.fn m n s.next) with next := s.next + 1 } (.fn m n s.next)
    | _ => .error .raised

/-- One statement of the module `m` (tremolo.py:82-95, 583-593). -/
def step (imp : Bytes → St → Except Err St) (m : Bytes) (s : St) : Stmt → Except Err St
  | .defn n ds => decorate m n ds { s with next := s.next + 1 } (.fn m n s.next)
  | .subclass n => .ok (assign { s with next := s.next + 1 } m n (.cls s.next))
  | .newApp n c =>
    let make (k : Nat) := .ok (assign { s with next := s.next + 1, heap := Dict.set s.heap s.next [] } m n (.app k s.next))
    match c with
    | none => make 0
    | some c => match attr s m c with
      | some (.cls k) => make k
      | _ => .error .raised
  | .imp q x y => match imp q s with
    | .error e => .error e
    | .ok s' => match attr s' q x with
      | some o => .ok (assign s' m y o)
      | none => .error .raised
  | .route a pat h => match attr s m a, attr s m h with
    | some (.app _ i), some o => if pat.added then .ok (addRoute s i pat o) else .error .raised
    | _, _ => .error .raised

/-- The statements of a module in order (tremolo.py:583-593). -/
def exec (imp : Bytes → St → Except Err St) (m : Bytes) : List Stmt → St → Except Err St
  | [], s => .ok s
  | c :: t, s => match step imp m s c with
    | .error e => .error e
    | .ok s' => exec imp m t s'

/-- `import_module(m)` (tremolo.py:583-593). -/
def load (d : Disk) : Nat → Bytes → St → Except Err St
  | fuel, m, s =>
    if Dict.mem s.mods m then .ok s
    else match fuel with
      | 0 => .error .fuel
      | n + 1 => match d.path m with
        | none => .error .raised
        | some p => match d.text p with
          | none => .error .raised
          | some src => exec (load d n) m src { s with mods := Dict.set s.mods m ⟨some p, []⟩ }

/-- Is the module run again (585-592)? -/
def again (d : Disk) (appDir : Bytes) (s : St) (m : Bytes) : Option (List Stmt) :=
  match Dict.get s.mods m with
  | some ⟨some f, _⟩ =>
    if m ≠ b!"__main__" ∧ m ≠ b!"__mp_main__" ∧ m ≠ b!"tremolo" ∧ startsWith m b!"tremolo." = false ∧ startsWith f appDir = true then d.text f
    else none
  | _ => none

/-- `_reload_module` (583-593); the list: the modules at the start. -/
def reloadAll (d : Disk) (fuel : Nat) (appDir : Bytes) : List Bytes → St → Except Err St
  | [], s => .ok s
  | m :: t, s => match again d appDir s m with
    | none => reloadAll d fuel appDir t s
    | some src => match exec (load d fuel) m src s with
      | .error e => .error e
      | .ok s' => reloadAll d fuel appDir t s'

/-- lexicographic order of names (for tremolo.py:743). -/
def le : Bytes → Bytes → Bool
  | [], _ => true
  | _ :: _, [] => false
  | a :: s, b :: t => a < b || (a == b && le s t)

/-- Insertion into a sorted list (for tremolo.py:743). -/
def insertName (x : Bytes) : List Bytes → List Bytes
  | [] => [x]
  | y :: t => if le x y then x :: y :: t else y :: insertName x t

/-- `dir(module)`: the names, sorted (tremolo.py:743). -/
def dir (q : Mod) : List Bytes := (q.attrs.map (·.1)).foldr insertName []

/-- The server object on which `run` was called: its class, itself, and the application whose registrations are its own (tremolo.py:595, 749-750). -/
structure Self where
  cls : Nat
  id : Nat
  routes : Nat
deriving DecidableEq, Repr

/-- 743-750: whose registrations are taken over; `update` with itself changes nothing. -/
def rebind (me : Self) (q : Mod) : List Bytes → Nat → Nat
  | [], r => r
  | n :: t, r =>
    if startsWith n b!"__" then rebind me q t r
    else match Dict.get q.attrs n with
      | some (.app c i) => rebind me q t (if (me.cls = 0 ∨ c = me.cls) ∧ i ≠ me.id then i else r)
      | _ => rebind me q t r

/-- 733-750, for a server without ASGI application. -/
def onReload (d : Disk) (fuel : Nat) (appDir main : Bytes) (s : St) (me : Self) : Except Err (St × Self) :=
  match reloadAll d fuel appDir (s.mods.map (·.1)) s with
  | .error e => .error e
  | .ok s1 => match load d fuel main s1 with
    | .error e => .error e
    | .ok s2 => .ok (s2, { me with routes := match Dict.get s2.mods main with
        | some q => rebind me q (dir q) me.routes
        | none => me.routes })

/-- A registration as it is pickled: `none` for PicklingError, which ends the parent (tremolo.py:763-773). -/
def pickle (s : St) (r : Place × Obj) : Option (Place × Bytes × Bytes) :=
  match r.2 with
  | .fn m n _ => if attr s m n = some r.2 then some (r.1, m, n) else none
  | _ => none

/-- The registrations that a new worker is given (763-773): place, module and name of the function. -/
def handed (s : St) (me : Self) : Option (List (Place × Bytes × Bytes)) := ((Dict.get s.heap me.routes).getD []).mapM (pickle s)

/-- `python script.py` up to `a.run()`: the interpreter has loaded `base` (tremolo.py:595-639). -/
def boot (d : Disk) (fuel : Nat) (base : Dict Bytes Mod) (script a : Bytes) : Except Err (St × Self) :=
  match d.text script with
  | none => .error .raised
  | some src => match exec (load d fuel) b!"__main__" src { mods := Dict.set base b!"__main__" ⟨some script, []⟩, heap := [], next := 1 } with
    | .error e => .error e
    | .ok s => match attr s b!"__main__" a with
      | some (.app c i) => .ok (s, ⟨c, i, i⟩)
      | _ => .error .raised

/-- Reload after reload, with the files as they are then: what each worker is given; `none`: the parent has ended (tremolo.py:728-773). -/
def reloads (fuel : Nat) (appDir main : Bytes) : List Disk → St → Self → List (Option (List (Place × Bytes × Bytes)))
  | [], _, _ => []
  | d :: t, s, me => match onReload d fuel appDir main s me with
    | .error _ => [none]
    | .ok (s', me') => match handed s' me' with
      | none => [none]
      | some l => some l :: reloads fuel appDir main t s' me'

end Verif.Model.Rebind
