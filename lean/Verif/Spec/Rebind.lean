import Verif.Model.Rebind
import Verif.Py.Util
/-!
# Which routes, error handlers, middlewares and hooks a program text defines

Read off the text of the main module: its registrations (routes, error handlers, middlewares and hooks) in order, and for each the function that its handler's name stands for.
-/
namespace Verif.Spec.Rebind
open Verif.Py Verif.Model.Rebind

/-- The registrations of a text: place and name of the function. -/
def routes : List Stmt → List (Place × Bytes)
  | [] => []
  | .route _ p h :: t => (p, h) :: routes t
  | .defn n ds :: t => ds.map (fun e => (e.2, n)) ++ routes t
  | _ :: t => routes t

/-- The names that a text binds, in order. -/
def bound : List Stmt → List Bytes
  | [] => []
  | .defn n _ :: t => n :: bound t
  | .subclass n :: t => n :: bound t
  | .newApp n _ :: t => n :: bound t
  | .imp _ _ y :: t => y :: bound t
  | .route _ _ _ :: t => bound t

/-- In a text of the module `main`, `h` stands for the function `n` of the module `m`. -/
def Denotes (main : Bytes) (src : List Stmt) (h m n : Bytes) : Prop := (∃ ds, .defn h ds ∈ src) ∧ m = main ∧ n = h ∨ .imp m n h ∈ src

/-- The registrations that a text defines. -/
def Table (main : Bytes) (src : List Stmt) (l : List (Place × Bytes × Bytes)) : Prop :=
  All2 (fun r e => e.1 = r.1 ∧ Denotes main src r.2 e.2.1 e.2.2) (routes src) l

end Verif.Spec.Rebind
