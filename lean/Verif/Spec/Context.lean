import Verif.Model.Context
/-!
# What is expected of a context: the words of C114

Nothing here looks into a context; all is said about the operations done so far.
-/
namespace Verif.Spec.Context
open Verif.Py Verif.Model.App Verif.Model.Context

variable {V : Type}

/-- The operation stores `v` under the name `n`. -/
def Assigns (op : Op V) (n : Bytes) (v : V) : Prop := op = .setattr n v ∨ op = .setitem n v

/-- The operation stores under the name, or takes the name away. -/
def Touches (op : Op V) (n : Bytes) : Prop := (∃ v, Assigns op n v) ∨ op = .delattr n

/-- `v` is what was last stored under `n`, and was not taken away since. -/
def Stored (ops : List (Op V)) (n : Bytes) (v : V) : Prop :=
  ∃ pre op post, ops = pre ++ op :: post ∧ Assigns op n v ∧ ∀ x ∈ post, ¬ Touches x n

/-- The operations done for connection `c`. -/
def opsOf (c : Nat) : List (Ev V) → List (Op V)
  | [] => []
  | .on d op :: t => if d = c then op :: opsOf c t else opsOf c t
  | _ :: t => opsOf c t

/-- The operations done on the context of the worker, by whatever connection. -/
def workerOps : List (Ev V) → List (Op V)
  | [] => []
  | .worker op :: t => op :: workerOps t
  | _ :: t => workerOps t

/-- The option dictionaries handed over so far, oldest first. -/
def given : List (Op V) → List (Opts V)
  | [] => []
  | .update o :: t => o :: given t
  | _ :: t => given t

/-- The connection was accepted in this history and `post` is what came after. -/
def Since (c : Nat) (evs post : List (Ev V)) : Prop := ∃ pre, evs = pre ++ .accept c :: post ∧ Ev.accept c ∉ post

end Verif.Spec.Context
