import Verif.Spec.Head
/-!
# A byte stream as a sequence of heads
-/
namespace Verif.Spec.Stream
open Verif.Py

/-- `raw` ends with its first blank line. -/
def Minimal (raw : Bytes) : Prop := ∃ m, Spec.Head.FirstBlank raw m ∧ raw.length = m + 4

/-- `Heads s l rest`: the heads that `s` starts with are those of `l`, and `rest` is what follows them. Each is what comes up
to and including the first blank line of the bytes behind the previous one. -/
inductive Heads : Bytes → List Bytes → Bytes → Prop
  | nil (s : Bytes) : Heads s [] s
  | cons {s raw t rest : Bytes} {l : List Bytes} {m : Nat} (h : Spec.Head.FirstBlank s m) (hr : s = raw ++ t) (hl : raw.length = m + 4)
      (ht : Heads t l rest) : Heads s (raw :: l) rest

/-- The heads are determined by the stream. -/
theorem Heads.unique {s : Bytes} {l l' : List Bytes} {r r' : Bytes} (h : Heads s l r) (h' : Heads s l' r') (hn : l.length = l'.length) : l = l' ∧ r = r' := by
  induction h generalizing l' r' with
  | nil s =>
    cases h' with
    | nil => exact ⟨rfl, rfl⟩
    | cons _ _ _ _ => simp at hn
  | cons hb hr hl _ ih =>
    cases h' with
    | nil => simp at hn
    | cons hb' hr' hl' ht' =>
      have hm : ∀ {s : Bytes} {m m' : Nat}, Spec.Head.FirstBlank s m → Spec.Head.FirstBlank s m' → m ≤ m' := by
        rintro s m m' ⟨_, h⟩ ⟨⟨a, b, e, ha⟩, _⟩; rw [← ha]; exact h a b e
      have e := Nat.le_antisymm (hm hb hb') (hm hb' hb)
      obtain ⟨e1, e2⟩ := List.append_inj (hr.symm.trans hr') (by omega)
      subst e1 e2
      obtain ⟨a, b⟩ := ih ht' (by simpa using hn)
      exact ⟨by rw [a], b⟩

/-- A sequence of heads, each ending with its first blank line, is read back. -/
theorem heads_flatten {l : List Bytes} (h : ∀ raw ∈ l, Minimal raw) (rest : Bytes) : Heads (l.flatten ++ rest) l rest := by
  induction l with
  | nil => exact .nil rest
  | cons raw l ih =>
    obtain ⟨m, ⟨⟨a, b, e, ha⟩, hmin⟩, hl⟩ := h raw (by simp)
    have hc : CRLF2.length = 4 := rfl
    refine .cons (m := m) (t := l.flatten ++ rest) ⟨⟨a, b ++ (l.flatten ++ rest), by rw [List.flatten_cons, e]; simp [List.append_assoc], ha⟩, ?_⟩ (by simp) hl
      (ih (fun r hr => h r (by simp [hr])))
    intro a' b' e'
    by_cases hlt : m ≤ a'.length
    · exact hlt
    · exfalso
      have e2 : raw ++ (l.flatten ++ rest) = (a' ++ CRLF2) ++ b' := by rw [← e']; simp
      have h1 := congrArg (List.take raw.length) e2
      rw [List.take_left' rfl, List.take_append, List.take_of_length_le (l := a' ++ CRLF2) (by simp [hc]; omega)] at h1
      exact hlt (hmin a' _ h1)

end Verif.Spec.Stream
