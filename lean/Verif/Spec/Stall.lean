import Verif.Model.Stall
/-!
# Waiting for body data: what is claimed
-/
namespace Verif.Spec.Stall
open Verif.Py Verif.Model.Stall

/-- The items that were put, as long as the connection is there. -/
def itemsPut : List Ev → List Item
  | [] => []
  | .put x :: t => x :: itemsPut t
  | .lose :: _ => []
  | _ :: t => itemsPut t

/-- What a read gives for the items that it took: one item and what that is, or TimeoutError and at most one item, which is lost. -/
inductive Gives : Got → List Item → Prop
  | piece (d : Bytes) : Gives (.piece d) [some d]
  | eof : Gives .eof [none]
  | timeout : Gives .timeout []
  | lost (x : Item) : Gives .timeout [x]

/-- Nothing is left to do for the event loop before time goes on: the handler does not read, or it waits for an item, and not too long. -/
def Quiet (K : Nat) (s : St) : Prop :=
  s.rd = .idle ∨ ∃ t p k f o, s.rd = .inner t p k ∧ s.q.calls[k]? = some (.own f) ∧ s.q.futs[f]? = some (o, .pending) ∧ s.now < t + K

/-- A loop that keeps up: time goes on only when nothing is left to do. -/
def Prompt (K : Nat) (es : List Ev) : Prop := ∀ pre post, es = pre ++ .tick :: post → Quiet K (run K pre)

end Verif.Spec.Stall
