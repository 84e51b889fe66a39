import Verif.Model.App
/-!
# Model of the decorators that register functions

`tremolo/tremolo.py`: `route`, `error`, `event`, `middleware`, `on_*` (82-170), `getoptions` (172-183), `add_middleware` (185-190) and the
start of `add_route` (192-194), with the function objects they are given and make.

Simplifications: a program is a list of top level statements; of a function only its parameters and its identity matter. Parameters before `/`
(which cannot be passed by name) are not modelled. A path is not checked to be latin-1 text (see `Model/App.lean`).
-/
namespace Verif.Model.Register
open Verif.Py Verif.Model.App

/-- The parameters of a Python function: `def f(plain, named=value, *, kwonly, kwonly=value, **rest)` (tremolo.py:172-183). -/
structure Sig (V : Type) where
  plain : List Bytes := []
  named : List (Bytes × V) := []
  kwonly : List (Bytes × Option V) := []
  rest : Bool := true

/-- A callable: a function of the program; a callable without `__code__` (an object with `__call__`, a class, a `functools.partial`); or the
`wrapper` of a decorator (tremolo.py:88-90, 99-101, 116-118, 139-141), which has the parameters `**kwargs`. -/
inductive Fn (V : Type)
  | user (id : Nat) (sig : Sig V)
  | obj (id : Nat)
  | wrap (f : Fn V)

/-- KeyError, ValueError, AttributeError, TypeError (tremolo.py:71-217). -/
inductive Err
  | key
  | value
  | attribute
  | type
deriving DecidableEq, Repr

/-- `Tremolo.getoptions(func)` (tremolo.py:172-183). `functools.wraps` copies neither `__code__` nor `__defaults__`. -/
def options {V : Type} : Fn V → Except Err (Opts V)
  | .user _ s => .ok (getoptions (s.plain ++ s.named.map (·.1)) (s.named.map (·.2)))
  | .obj _ => .error .attribute
  | .wrap _ => .ok (getoptions [] [])

/-- Calling a function with keywords only: the function of the program that runs, its parameters, and what is left for `**rest`. `none` is
TypeError, for a parameter without a value or an unexpected keyword (http_server.py:59-110). -/
def call {V : Type} : Fn V → Dict Bytes V → Option (Nat × Dict Bytes V × Dict Bytes V)
  | .user id s, kw =>
    let ps := s.plain.map (fun n => (n, none)) ++ s.named.map (fun p => (p.1, some p.2)) ++ s.kwonly
    if !s.rest && kw.any (fun p => !ps.any (fun q => q.1 == p.1)) then none
    else if ps.any (fun q => !Dict.mem kw q.1 && q.2.isNone) then none
    else some (id, ps.filterMap (fun q => ((Dict.get kw q.1).or q.2).map (fun v => (q.1, v))), kw.filter (fun p => !ps.any (fun q => q.1 == p.1)))
  | .obj id, kw => some (id, [], kw)
  | .wrap f, kw => call f kw

/-- `self.routes`, `self.middlewares` and `self.events` (tremolo.py:39-65). -/
structure AppSt (V : Type) where
  table : Table (Fn V) V
  mws : Dict Bytes (List (Fn V × Opts V)) := [(b!"connect", []), (b!"close", []), (b!"request", []), (b!"response", [])]
  events : Dict Bytes (List (Fn V)) := [(b!"worker_start", []), (b!"worker_stop", [])]

/-- `kwargs or self.getoptions(func)` (tremolo.py:190), `if not kwargs: kwargs = self.getoptions(func)` (tremolo.py:193-194). -/
def orOptions {V : Type} (kw : Opts V) (f : Fn V) : Except Err (Opts V) := match kw with
  | [] => options f
  | p :: t => .ok (p :: t)

/-- `add_middleware` (tremolo.py:185-190). -/
def addMiddleware {V : Type} (a : AppSt V) (f : Fn V) (name : Bytes) (kw : Opts V) : Except Err (AppSt V) :=
  match Dict.get a.mws name with
  | none => .error .value
  | some l => match orOptions kw f with
    | .error e => .error e
    | .ok o => .ok { a with mws := Dict.set a.mws name (l ++ [(f, o)]) }

/-- `add_route` (tremolo.py:192-217). -/
def addRouteKw {V : Type} (a : AppSt V) (f : Fn V) (path : Bytes) (kw : Opts V) : Except Err (AppSt V) :=
  match orOptions kw f with
  | .error e => .error e
  | .ok o => .ok { a with table := addRoute a.table path f o }

/-- A decorator: `route(path)`, `error(code)` or `route(code)`, `event(name)`, `middleware(name)` (tremolo.py:83-146). -/
inductive Deco
  | route (path : Bytes)
  | error (code : Nat)
  | event (name : Bytes)
  | middleware (name : Bytes)
deriving DecidableEq

/-- Applying a decorator to a function (tremolo.py:87-95, 98-112, 115-123, 138-146): the new application object and what the name of the
function stands for afterwards. -/
def decorate {V : Type} (a : AppSt V) (d : Deco) (f : Fn V) : Except Err (AppSt V × Fn V) :=
  match d with
  | .route path => match options f with
    | .error e => .error e
    | .ok o => (addRouteKw a (.wrap f) path o).map (fun a => (a, .wrap f))
  | .error code =>
    if a.table.errs.any (fun h => h.1 == code) then match options f with
      | .error e => .error e
      | .ok o => .ok ({ a with table := App.error a.table code (.wrap f) o }, .wrap f)
    else .ok (a, .wrap f)
  | .event name => match Dict.get a.events name with
    | none => .error .key
    | some l => .ok ({ a with events := Dict.set a.events name (l ++ [.wrap f]) }, .wrap f)
  | .middleware name => match options f with
    | .error e => .error e
    | .ok o => (addMiddleware a (.wrap f) name o).map (fun a => (a, .wrap f))

/-- `on_worker_start`, `on_worker_stop` (tremolo.py:125-135), `on_connect`, `on_close`, `on_request`, `on_response` (148-170). -/
inductive Hook
  | workerStart
  | workerStop
  | connect
  | close
  | request
  | response
deriving DecidableEq

/-- What an `on_…` method decorates with (tremolo.py:125-170). -/
def hookDeco : Hook → Deco
  | .workerStart => .event b!"worker_start"
  | .workerStop => .event b!"worker_stop"
  | .connect => .middleware b!"connect"
  | .close => .middleware b!"close"
  | .request => .middleware b!"request"
  | .response => .middleware b!"response"

/-- `on_x(*args)` (e.g. tremolo.py:148-152): registers its only argument if it is callable, else gives a decorator. An argument that is not
callable is `none`. -/
def onHook {V : Type} (a : AppSt V) (h : Hook) (args : List (Option (Fn V))) : Except Err ((AppSt V × Fn V) ⊕ Deco) :=
  match args with
  | [some f] => (decorate a (hookDeco h) f).map .inl
  | _ => .ok (.inr (hookDeco h))

/-- What stands after `@app.` above a function: a decorator, `on_x` alone, or `on_x(args)` (tremolo.py:83-170). -/
inductive Use (V : Type)
  | deco (d : Deco)
  | bare (h : Hook)
  | called (h : Hook) (args : List (Option (Fn V)))

/-- `@app.use` above `f`. A wrapper (given by `on_x(g)`) takes no positional argument: TypeError (tremolo.py:83-170). -/
def use {V : Type} (a : AppSt V) (f : Fn V) : Use V → Except Err (AppSt V × Fn V)
  | .deco d => decorate a d f
  | .bare h => match onHook a h [some f] with
    | .error e => .error e
    | .ok (.inl r) => .ok r
    | .ok (.inr _) => .error .type
  | .called h args => match onHook a h args with
    | .error e => .error e
    | .ok (.inl _) => .error .type
    | .ok (.inr d) => decorate a d f

/-- The decorators above one function; the lowest is the first of the list, as Python applies them (tremolo.py:83-170). -/
def uses {V : Type} : AppSt V → Fn V → List (Use V) → Except Err (AppSt V × Fn V)
  | a, f, [] => .ok (a, f)
  | a, f, u :: us => match use a f u with
    | .error e => .error e
    | .ok (a, f) => uses a f us

/-- A statement of the program: a function with its decorators, `app.add_route(f, path, kwargs)`, `app.add_middleware(f, name, kwargs)` (tremolo.py:83-217). -/
inductive Stmt (V : Type)
  | define (f : Fn V) (us : List (Use V))
  | addRoute (f : Fn V) (path : Bytes) (kw : Opts V)
  | addMiddleware (f : Fn V) (name : Bytes) (kw : Opts V)

/-- One statement (tremolo.py:83-217). -/
def exec {V : Type} (a : AppSt V) : Stmt V → Except Err (AppSt V)
  | .define f us => (uses a f us).map (·.1)
  | .addRoute f path kw => addRouteKw a f path kw
  | .addMiddleware f name kw => addMiddleware a f name kw

/-- The program: it ends at the first exception (tremolo.py:83-217). -/
def run {V : Type} : AppSt V → List (Stmt V) → Except Err (AppSt V)
  | a, [] => .ok a
  | a, s :: ss => match exec a s with
    | .error e => .error e
    | .ok a => run a ss

end Verif.Model.Register
