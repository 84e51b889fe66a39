import Verif.Model.Register
/-!
# What a program registers

Read off the text of the program: who is registered where, in which order and with which options. Of the model only the syntax is used.
-/
namespace Verif.Spec.Register
open Verif.Py Verif.Model.App Verif.Model.Register

variable {V : Type}

/-- The function of the program under the wrappers. -/
def root : Fn V → Fn V
  | .wrap f => root f
  | f => f

/-- The options a function states: the values of its parameters that have one and can be passed by position. -/
def stated : Fn V → Bytes → Option V
  | .user _ s, k => (s.named.find? (fun p => p.1 == k)).map (·.2)
  | _, _ => none

/-- Where a decorator registers. -/
def place : Use V → Deco
  | .deco d => d
  | .bare h | .called h _ => match h with
    | .workerStart => .event b!"worker_start"
    | .workerStop => .event b!"worker_stop"
    | .connect => .middleware b!"connect"
    | .close => .middleware b!"close"
    | .request => .middleware b!"request"
    | .response => .middleware b!"response"

/-- A registration: the place, the function, its options. -/
structure Registration (V : Type) where
  place : Deco
  func : Fn V
  opts : Bytes → Option V

/-- The options given by hand, or else the function's. -/
def given (kw : Opts V) (f : Fn V) : Bytes → Option V := if kw = [] then stated f else Dict.get kw

/-- What is meant: every decorator registers the function, with the options it states. -/
def meant : Stmt V → List (Registration V)
  | .define f us => us.map (fun u => ⟨place u, root f, stated (root f)⟩)
  | .addRoute f path kw => [⟨.route path, root f, given kw f⟩]
  | .addMiddleware f name kw => [⟨.middleware name, root f, given kw f⟩]

/-- What happens: only the lowest decorator sees these options. -/
def happens : Stmt V → List (Registration V)
  | .define _ [] => []
  | .define f (u :: us) => ⟨place u, root f, stated f⟩ :: us.map (fun u => ⟨place u, root f, fun _ => none⟩)
  | s => meant s

/-- No function that states options has two decorators, and none is decorated again later. -/
def Once : Stmt V → Prop
  | .define f us => us = [] ∨ (stated (root f) = fun _ => none) ∨ (us.length = 1 ∧ root f = f)
  | _ => True

/-- Where middlewares and events can be registered. -/
def Known : Deco → Prop
  | .route _ | .error _ => True
  | .event n => n = b!"worker_start" ∨ n = b!"worker_stop"
  | .middleware n => n = b!"connect" ∨ n = b!"close" ∨ n = b!"request" ∨ n = b!"response"

/-- The options of a function can be read (it is not an object without `__code__`). -/
def Readable : Fn V → Prop
  | .obj _ => False
  | _ => True

/-- The statements that raise no exception. -/
def Accepted : Stmt V → Prop
  | .define f us => (∀ u ∈ us, Known (place u) ∧ ∀ h g, u ≠ .called h [some g]) ∧
    (∀ u, us.head? = some u → Readable f ∨ (∃ n, place u = .event n) ∨ ∃ c, place u = .error c ∧ c ≠ 400 ∧ c ≠ 404 ∧ c ≠ 500)
  | .addRoute f _ kw => kw ≠ [] ∨ Readable f
  | .addMiddleware f n kw => Known (.middleware n) ∧ (kw ≠ [] ∨ Readable f)

end Verif.Spec.Register
