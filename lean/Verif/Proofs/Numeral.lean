import Verif.Py.Lemmas
import Verif.Py.Util
import Verif.Spec.Head
/-!
# Decimal numerals: `b'%d' % n` is the canonical numeral of `n`
-/
namespace Verif.Proofs.Numeral
open Verif.Py Verif.Spec.Head

theorem toDigitsAux_append (b : Nat) : ∀ (fuel n : Nat) (acc : Bytes),
    toDigitsAux b fuel n acc = toDigitsAux b fuel n [] ++ acc := by
  intro fuel
  induction fuel with
  | zero => intro n acc; simp [toDigitsAux]
  | succ f ih =>
    intro n acc
    simp only [toDigitsAux]
    split
    · simp
    · rw [ih, ih _ [digitB (n % b)]]; simp

theorem toDigitsAux_fuel {b : Nat} (hb : 2 ≤ b) : ∀ (f f' n : Nat) (acc : Bytes), n < f → n < f' →
    toDigitsAux b f n acc = toDigitsAux b f' n acc := by
  intro f
  induction f with
  | zero => intro f' n acc h; omega
  | succ f ih =>
    intro f' n acc h h'
    cases f' with
    | zero => omega
    | succ f' =>
      simp only [toDigitsAux]
      split
      · rfl
      · rename_i hd
        have : n / b < n := Nat.div_lt_self (by
          rcases Nat.eq_zero_or_pos n with h0 | h0
          · subst h0; simp at hd
          · exact h0) (by omega)
        exact ih _ _ _ (by omega) (by omega)

theorem head?_app {w t : Bytes} (h : w ≠ []) : (w ++ t).head? = w.head? := by
  cases w with
  | nil => exact absurd rfl h
  | cons a w => rfl

theorem fmtNat_small {n : Nat} (h : n < 10) : fmtNat n = [digitB n] := by
  unfold fmtNat
  rw [toDigitsAux]
  rw [Nat.div_eq_of_lt h, Nat.mod_eq_of_lt h]; simp

theorem fmtNat_step {n : Nat} (h : 10 ≤ n) : fmtNat n = fmtNat (n / 10) ++ [digitB (n % 10)] := by
  unfold fmtNat
  rw [toDigitsAux]
  rw [if_neg (by omega), toDigitsAux_append, toDigitsAux_fuel (by omega) n (n / 10 + 1) (n / 10) [] (by omega) (by omega)]

theorem digitB_eq {d : Nat} (h : d < 10) : digitB d = UInt8.ofNat (48 + d) := by simp [digitB, h]

theorem digitB_toNat {d : Nat} (h : d < 10) : (digitB d).toNat - 48 = d := by
  rw [digitB_eq h]
  simp
  omega

theorem digitB_of {c : UInt8} (h : 48 ≤ c ∧ c ≤ 57) : digitB (c.toNat - 48) = c :=
  forall_u8 (P := fun c => 48 ≤ c ∧ c ≤ 57 → digitB (c.toNat - 48) = c) (by decide +kernel) c h

theorem digit_lt {c : UInt8} (h : 48 ≤ c ∧ c ≤ 57) : c.toNat - 48 < 10 :=
  forall_u8 (P := fun c => 48 ≤ c ∧ c ≤ 57 → c.toNat - 48 < 10) (by decide +kernel) c h

theorem fmtNat_head (n : Nat) : (fmtNat n).head? = some 48 → n = 0 := by
  induction n using Nat.strongRecOn with
  | _ n ih =>
    intro h
    by_cases hn : n < 10
    · rw [fmtNat_small hn] at h
      simp at h
      have := digitB_toNat hn
      rw [h] at this
      simp at this; exact this.symm
    · rw [fmtNat_step (by omega)] at h
      have hne := fmtNat_ne_nil (n / 10)
      rw [head?_app hne] at h
      have := ih (n / 10) (by omega) h
      omega

theorem canonical_fmtNat (n : Nat) : Canonical (fmtNat n) := by
  refine ⟨fmtNat_ne_nil n, fmtNat_digits n, fun h => ?_⟩
  rw [fmtNat_head n h]; decide

theorem valueOf_snoc (v : Bytes) (c : UInt8) : valueOf (v ++ [c]) = 10 * valueOf v + (c.toNat - 48) := by
  simp [valueOf]

theorem fmtNat_valueOf {v : Bytes} (h : Canonical v) : fmtNat (valueOf v) = v := by
  induction v using snocInd with
  | h0 => exact absurd rfl h.1
  | h1 w c ih =>
    obtain ⟨_, hd, hz⟩ := h
    have hc := hd c (by simp)
    have hlt := digit_lt hc
    rw [valueOf_snoc]
    by_cases hw : w = []
    · subst hw
      simp only [valueOf, List.foldl_nil, Nat.mul_zero, Nat.zero_add, List.nil_append]
      rw [fmtNat_small hlt, digitB_of hc]
    · have hh : (w ++ [c]).head? = w.head? := head?_app hw
      have hz' : w.head? ≠ some 48 := by
        intro e
        have := hz (hh.trans e)
        cases w with
        | nil => exact hw rfl
        | cons a t => simp at this
      have hcan : Canonical w := ⟨hw, fun x hx => hd x (by simp [hx]), fun e => absurd e hz'⟩
      have ihw := ih hcan
      have hpos : valueOf w ≠ 0 := by
        intro e
        rw [e] at ihw
        apply hz'
        rw [← ihw]; decide
      rw [fmtNat_step (by omega), show (10 * valueOf w + (c.toNat - 48)) / 10 = valueOf w by omega,
        show (10 * valueOf w + (c.toNat - 48)) % 10 = c.toNat - 48 by omega, ihw, digitB_of hc]

theorem valueOf_fmtNat (n : Nat) : valueOf (fmtNat n) = n := by
  have := fmtNat_valueOf (canonical_fmtNat n)
  exact fmtNat_inj this

theorem canonical_iff {v : Bytes} : Canonical v ↔ ∃ n, v = fmtNat n :=
  ⟨fun h => ⟨_, (fmtNat_valueOf h).symm⟩, by rintro ⟨n, rfl⟩; exact canonical_fmtNat n⟩

theorem fmtInt_natCast (n : Nat) : fmtInt (n : Int) = fmtNat n := by
  unfold fmtInt; rw [if_neg (by omega)]; simp

/-- `int(b'+' + v)` is never negative. -/
theorem intDec_plus_nonneg {v : Bytes} {i : Int} (h : intDec (43 :: v) = some i) : ∃ n : Nat, i = n := by
  unfold intDec at h
  have e : strip (43 :: v) = 43 :: rstrip v ∨ strip (43 :: v) = [43] := by
    unfold strip
    have : lstrip (43 :: v) = 43 :: v := by
      unfold lstrip; rw [List.dropWhile_cons_of_neg]; decide
    rw [this]
    unfold rstrip
    rw [List.reverse_cons]
    by_cases hv : v.reverse.dropWhile isSpace = []
    · right
      rw [List.dropWhile_append]
      simp [hv, isSpace]
    · left
      rw [List.dropWhile_append]
      have : (List.dropWhile isSpace v.reverse).isEmpty = false := by simpa using hv
      rw [this]
      simp
  rcases e with e | e <;> rw [e] at h <;> simp only [if_pos] at h <;>
  · rw [Option.map_eq_some_iff] at h
    obtain ⟨n, _, rfl⟩ := h
    exact ⟨n, rfl⟩

end Verif.Proofs.Numeral
