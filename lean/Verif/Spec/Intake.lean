import Verif.Model.Conn
/-!
# What a connection holds of what its client has sent
-/
namespace Verif.Spec.Intake
open Verif.Py Verif.Model.Conn

/-- Items of the receive queue that carry bytes. -/
def pieces (s : St) : Nat := s.q0.countP (fun x => !(x.getD []).isEmpty)

/-- A task that has bytes to queue, or sleeps behind the last. -/
def _root_.Verif.Model.Conn.HTask.busy : HTask → Bool
  | .new _ _ | .feeding _ _ _ => true
  | _ => false

def _root_.Verif.Model.Conn.RTask.busy : RTask → Bool
  | .waiting _ _ | .feeding _ => true
  | .done => false

/-- Segments handed to tasks that have not finished queueing them. -/
def unqueued (s : St) : Nat := s.heads.countP (·.busy) + s.recvs.countP (·.busy)

/-- The bytes such a task has yet to queue. -/
def _root_.Verif.Model.Conn.HTask.bytes : HTask → Nat
  | .new d _ => d.length
  | .feeding f _ _ => f.rest.length
  | _ => 0

def _root_.Verif.Model.Conn.RTask.bytes : RTask → Nat
  | .waiting d _ => d.length
  | .feeding f => f.rest.length
  | .done => 0

/-- Bytes with the tasks, in the receive queue and in the buffer for a head. -/
def taskBytes (s : St) : Nat := (s.heads.map (·.bytes)).sum + (s.recvs.map (·.bytes)).sum
def queueBytes (s : St) : Nat := (s.q0.map (fun x => (x.getD []).length)).sum
def bytes (s : St) : Nat := taskBytes s + queueBytes s + (s.hb.getD []).length

/-- How often the send task took the end of a response. -/
def ends (s : St) : Nat := s.sent.count none

/-- The segments that arrive have at most `n` bytes. -/
def Short (n : Nat) (es : List Ev) : Prop := ∀ d, Ev.data d ∈ es → d.length ≤ n

/-- When the send task takes the end of a response, all that was received before is queued. -/
def Calm (c : Cfg) : St → List Ev → Prop
  | _, [] => True
  | s, e :: es => (e = .send → s.q1.head? = some none → unqueued s = 0) ∧ Calm c (step c s e) es

instance decCalm (c : Cfg) : ∀ s es, Decidable (Calm c s es)
  | _, [] => inferInstanceAs (Decidable True)
  | s, e :: es => @instDecidableAnd _ _ _ (decCalm c (step c s e) es)

end Verif.Spec.Intake
