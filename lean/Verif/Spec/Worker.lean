import Verif.Model.Worker
/-!
# What it means that connections are kept apart
-/
namespace Verif.Spec.Worker
open Verif.Model Verif.Model.Worker

variable {α : Type}

/-- Connection `c` was given `x`, which a task of connection `x.1` had put: by `get` or by `get_nowait`, from `queue[0]`
or `queue[1]` of some descriptor. What `_send_data` of `c` is given it writes to the transport of `c`. -/
def Given (s : St α) (c : Nat) (x : Nat × α) : Prop :=
  (∃ (fd : Nat) (side : Bool) (t : Nat) (b : Bool), (s.objs fd side).q.calls[t]? = some (Queue.Call.done (Queue.Res.got x)) ∧ (s.objs fd side).owner[t]? = some (c, b)) ∨
  ∃ side, (c, side, x) ∈ s.got

/-- The connection still has the queues of the descriptor. -/
def Attached (s : St α) (fd c : Nat) : Prop := ∃ k, s.conns[c]? = some k ∧ k.attached = true ∧ k.fd = fd

/-- Only tasks that `connection_lost` cancels use the queues over an `await`. -/
def Tied (es : List (Ev α)) : Prop := ∀ e ∈ es, (∀ c side, e ≠ .hold c side false) ∧ ∀ c side, e ≠ .get c side false

/-- The socket of some connection has the descriptor. -/
def InUse (s : St α) (fd : Nat) : Prop := ∃ k ∈ s.conns, k.isOpen = true ∧ k.fd = fd

/-- No descriptor is given out again before the connection that had it last is cleaned up. -/
def Clean (closeMw : Bool) (es : List (Ev α)) : Prop :=
  ∀ pre fd post, es = pre ++ .made fd :: post → ¬ InUse (run closeMw {} pre) fd → ∀ c, ¬ Attached (run closeMw {} pre) fd c

/-- What an event puts to a queue, and for which connection. -/
def putBy (s : St α) : Ev α → List (Nat × Bool × α)
  | .put c side x =>
    match s.conns[c]? with
    | some k => if k.attached && k.live then [(c, side, x)] else []
    | none => []
  | .putHeld h x =>
    match s.holds[h]? with
    | some h => if h.alive then [(h.conn, h.side, x)] else []
    | none => []
  | _ => []

/-- Everything that was put, in order. -/
def puts (closeMw : Bool) : St α → List (Ev α) → List (Nat × Bool × α)
  | _, [] => []
  | s, e :: es => putBy s e ++ puts closeMw (step closeMw s e) es

/-- What connection `c` has put to its `queue[side]`. -/
def putsOf (closeMw : Bool) (es : List (Ev α)) (c : Nat) (side : Bool) : List α :=
  ((puts closeMw {} es).filter fun p => p.1 == c && p.2.1 == side).map (·.2.2)

end Verif.Spec.Worker
