import Verif.Model.Lifespan
/-!
# What a history of the application says about start-up

`Ev` and `Msg` are the vocabulary of the model; nothing else of it is used.
-/
namespace Verif.Spec.Lifespan
open Verif.Model.Lifespan (Ev Msg Exc Ending)

/-- The application says that it is ready. -/
def completes : Ev → Bool
  | .send .startupComplete | .send .shutdownComplete => true
  | _ => false

/-- Something that ends the waiting: the application is ready or has ended, or the time is over. -/
def decisive : Ev → Bool
  | .finish _ | .timer => true
  | e => completes e

/-- The application ends. -/
def ending : Ev → Option Ending
  | .finish o => some o
  | _ => none

inductive Verdict
  /-- nothing has been decided yet -/
  | waiting
  | proceed
  | fail (text : String)
  /-- start-up ends with CancelledError -/
  | cancelled
deriving DecidableEq, Repr

/-- An application that was ready before anything else is taken; otherwise the way in which it ended counts. -/
def verdict (h : List Ev) : Verdict :=
  match h.find? decisive with
  | none => .waiting
  | some e =>
    if completes e then .proceed
    else match h.findSome? ending with
      | some (.raised (.lifespan t)) => .fail t
      | some .cancelled => .cancelled
      | _ => .proceed

/-- The application reports that start-up failed, with this text. -/
def reports (t : String) : Ev → Prop
  | .send (.startupFailed none) => t = "lifespan.startup.failed"
  | .send (.startupFailed (some m)) => t = "lifespan.startup.failed: " ++ m
  | _ => False

/-- The application does not make up LifespanErrors: one that it ends with was raised by its last `send`,
which reported that start-up failed; and it does not end by cancellation. -/
def Honest (h : List Ev) : Prop :=
  (∀ t, .finish (.raised (.lifespan t)) ∈ h → ∃ e ∈ h, reports t e) ∧ .finish .cancelled ∉ h

/-- What `send` raises on account of the message alone. -/
def raises : Ev → Option Exc
  | .send (.startupFailed none) => some (.lifespan "lifespan.startup.failed")
  | .send (.startupFailed (some m)) => some (.lifespan ("lifespan.startup.failed: " ++ m))
  | .send (.shutdownFailed none) => some (.lifespan "lifespan.shutdown.failed")
  | .send (.shutdownFailed (some m)) => some (.lifespan ("lifespan.shutdown.failed: " ++ m))
  | .send (.other _) => some .unsupported
  | _ => none

end Verif.Spec.Lifespan
