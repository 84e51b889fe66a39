import Verif.Proofs.Numeral
import Verif.Spec.Body
/-!
# Numerals in responses
-/
namespace Verif.Proofs.Response
open Verif.Py Verif.Proofs.Numeral Verif.Spec.Body

theorem digit_not_space : ∀ {c : UInt8}, (48 ≤ c ∧ c ≤ 57) ∨ c = 45 → isSpace c = false :=
  fun {c} h => forall_u8 (P := fun c => (48 ≤ c ∧ c ≤ 57) ∨ c = 45 → isSpace c = false) (by decide +kernel) c h

/-- `int(b'%d' % n) == n`. -/
theorem intDec_fmtInt (n : Int) : intDec (fmtInt n) = some n := by
  have sp : ∀ x ∈ fmtInt n, isSpace x = false := by
    intro x hx
    unfold fmtInt at hx
    split at hx
    · rcases List.mem_cons.1 hx with h | h
      · exact digit_not_space (.inr h)
      · exact digit_not_space (.inl (fmtNat_digits _ _ h))
    · exact digit_not_space (.inl (fmtNat_digits _ _ hx))
  unfold intDec
  rw [strip_eq_self sp]
  unfold fmtInt
  by_cases h : n < 0
  · rw [if_pos h]
    simp [decBody_fmtNat]; omega
  · rw [if_neg h]
    rcases e : fmtNat n.natAbs with _ | ⟨c, t⟩
    · exact absurd e (fmtNat_ne_nil _)
    · have hd := fmtNat_digits n.natAbs c (by rw [e]; simp)
      have n1 : c ≠ 43 := by rintro rfl; exact absurd hd (by decide)
      have n2 : c ≠ 45 := by rintro rfl; exact absurd hd (by decide)
      simp only [n1, n2, if_false]
      rw [← e, decBody_fmtNat]
      simp; omega

theorem fmtHex_small {n : Nat} (h : n < 16) : fmtHex n = [digitB n] := by
  unfold fmtHex
  rw [toDigitsAux]
  rw [Nat.div_eq_of_lt h, Nat.mod_eq_of_lt h]; simp

theorem fmtHex_step {n : Nat} (h : 16 ≤ n) : fmtHex n = fmtHex (n / 16) ++ [digitB (n % 16)] := by
  unfold fmtHex
  rw [toDigitsAux]
  rw [if_neg (by omega), toDigitsAux_append, toDigitsAux_fuel (by omega) n (n / 16 + 1) (n / 16) [] (by omega) (by omega)]

theorem digitB_hex : ∀ d, d < 16 → isHex (digitB d) ∧ hexVal (digitB d) = d := by
  intro d hd
  have : ∀ d : Fin 16, ((48 ≤ digitB d.1 ∧ digitB d.1 ≤ 57) ∨ (97 ≤ digitB d.1 ∧ digitB d.1 ≤ 102) ∨ (65 ≤ digitB d.1 ∧ digitB d.1 ≤ 70)) ∧ hexVal (digitB d.1) = d.1 := by
    decide +kernel
  exact this ⟨d, hd⟩

/-- `b'%X' % n` is a hexadecimal numeral of `n`. -/
theorem fmtHex_spec (n : Nat) : fmtHex n ≠ [] ∧ (∀ c ∈ fmtHex n, isHex c) ∧ hexNum (fmtHex n) = n := by
  induction n using Nat.strongRecOn with
  | ind n ih =>
    by_cases h : n < 16
    · rw [fmtHex_small h]
      exact ⟨by simp, by simpa using (digitB_hex n h).1, by simp [hexNum, (digitB_hex n h).2]⟩
    · have hm := digitB_hex (n % 16) (Nat.mod_lt _ (by omega))
      obtain ⟨h1, h2, h3⟩ := ih (n / 16) (by omega)
      rw [fmtHex_step (by omega)]
      refine ⟨by simp, fun c hc => ?_, ?_⟩
      · rcases List.mem_append.1 hc with hc | hc
        · exact h2 c hc
        · simp at hc; subst hc; exact hm.1
      · unfold hexNum at h3 ⊢
        rw [List.foldl_append, h3]
        simp [hm.2]; omega

end Verif.Proofs.Response
