import Verif.Model.Connections
/-!
# Specification vocabulary for C36

A set of keys with, for each key, the moment (index in the history) at which it last became present.  It is computed
from the history alone (`BornAt`), not from the model's list order.
-/
namespace Verif.Spec.Connections
open Model.Connections

variable {κ ν : Type} [DecidableEq κ]

/-- keys of the table, as a membership predicate -/
def Present (t : Table κ ν) (k : κ) : Prop := ∃ v, (k, v) ∈ t.items

/-- `bornAt t₀ ops k n`: in the run of `ops` from `t₀`, key `k` is present at the end and it has been present
continuously since exactly after operation number `n` (0-based), which made it present. -/
def BornAt (t₀ : Table κ ν) (ops : List (Op κ ν)) (k : κ) (n : Nat) : Prop :=
  n < ops.length ∧ ¬ Present (run t₀ (ops.take n)) k ∧
    ∀ m, n < m → m ≤ ops.length → Present (run t₀ (ops.take m)) k


end Verif.Spec.Connections
