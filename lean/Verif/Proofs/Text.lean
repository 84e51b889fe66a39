import Verif.Model.Text
import Verif.Spec.Text
import Verif.Py.Lemmas
import Verif.Proofs.HttpParser
namespace Verif.Proofs.Text
open Verif Py Model.Text Spec.Text

/-! ### HTML -/

def esc (c : UInt8) : Bytes :=
  if c = 38 then b!"&amp;" else if c = 60 then b!"&lt;" else if c = 62 then b!"&gt;" else if c = 34 then b!"&quot;" else [c]

theorem htmlEscape_eq (d : Bytes) : htmlEscape d = d.flatMap esc := by
  unfold htmlEscape replace1
  simp only [List.flatMap_assoc]
  congr 1
  funext c
  revert c
  apply forall_u8
  decide +kernel

theorem unescape_cons {c : UInt8} (h : c ≠ 38) (t : Bytes) : unescape (c :: t) = c :: unescape t := by
  rw [unescape.eq_def]
  split <;> simp_all

theorem unescape_esc (c : UInt8) (t : Bytes) : unescape (esc c ++ t) = c :: unescape t := by
  unfold esc
  split
  · rename_i h; subst h; rfl
  · split
    · rename_i h; subst h; rfl
    · split
      · rename_i h; subst h; rfl
      · split
        · rename_i h; subst h; rfl
        · rename_i h _ _ _; exact unescape_cons h t

theorem esc_mem (c : UInt8) : 60 ∉ esc c ∧ 62 ∉ esc c ∧ 34 ∉ esc c := by
  revert c; apply forall_u8; decide +kernel

theorem esc_amp (c : UInt8) : 38 ∈ esc c → (∃ e ∈ entities, e.1 = esc c) ∧ (∀ a t, esc c = a ++ 38 :: t → a = []) := by
  intro h
  have h1 : (38 ∈ esc c → (∃ e ∈ entities, e.1 = esc c)) ∧ (38 ∈ esc c → 38 ∉ (esc c).tail) := by
    revert c; apply forall_u8; decide +kernel
  refine ⟨h1.1 h, ?_⟩
  intro a t e
  cases a with
  | nil => rfl
  | cons x a =>
    have := h1.2 h
    rw [e] at this
    simp at this

/-! ### Percent-encoding -/

theorem unquote_cons {c : UInt8} (h : c ≠ 37) (t : Bytes) : unquote (c :: t) = c :: unquote t := by
  rw [unquote.eq_def]
  split <;> simp_all

theorem unquote_pct (c : UInt8) (t : Bytes) : unquote (pct c ++ t) = c :: unquote t := by
  have h : (isHexC (digitB (c.toNat / 16)) && isHexC (digitB (c.toNat % 16))) = true ∧
      UInt8.ofNat (16 * hexv (digitB (c.toNat / 16)) + hexv (digitB (c.toNat % 16))) = c := by
    revert c; apply forall_u8; decide +kernel
  simp only [pct, List.cons_append, List.nil_append, unquote, h.1, h.2, if_true]

theorem quoteSafe_ne {c : UInt8} (h : quoteSafe c = true) : c ≠ 37 := by
  intro e; subst e; revert h; decide

/-- Characters that may occur in a quoted string. -/
def quotedChar (c : UInt8) : Prop :=
  (65 ≤ c ∧ c ≤ 90) ∨ (97 ≤ c ∧ c ≤ 122) ∨ (48 ≤ c ∧ c ≤ 57) ∨ c ∈ b!"_.-~/%"
instance (c : UInt8) : Decidable (quotedChar c) := by unfold quotedChar; infer_instance

theorem quote_chars (s : Bytes) : ∀ c ∈ quote s, quotedChar c := by
  have h1 : ∀ c : UInt8, ∀ x ∈ (if quoteSafe c then [c] else pct c), quotedChar x := by
    apply forall_u8; decide +kernel
  intro c hc
  simp only [quote, List.mem_flatMap] at hc
  obtain ⟨x, _, hx⟩ := hc
  exact h1 x c hx

theorem quotedChar_not {c : UInt8} (h : quotedChar c) :
    c ≠ 59 ∧ c ≠ 44 ∧ c ≠ 32 ∧ c ≠ 13 ∧ c ≠ 10 ∧ c ≠ 34 ∧ c ≠ 39 := by
  revert c; apply forall_u8; decide +kernel

/-! ### The event stream -/

theorem esLines_cons {c : UInt8} (h1 : c ≠ 10) (h2 : c ≠ 13) (acc t : Bytes) : esLines acc (c :: t) = esLines (acc ++ [c]) t := by
  rw [esLines.eq_def]
  split <;> simp_all

theorem esLines_line {line : Bytes} (h1 : (10 : UInt8) ∉ line) (h2 : (13 : UInt8) ∉ line) (rest : Bytes) :
    ∀ acc, esLines acc (line ++ 10 :: rest) = (acc ++ line) :: esLines [] rest := by
  induction line with
  | nil => intro acc; simp [esLines]
  | cons c t ih =>
    intro acc
    simp only [List.mem_cons, not_or] at h1 h2
    rw [List.cons_append, esLines_cons (Ne.symm h1.1) (Ne.symm h2.1), ih h1.2 h2.2]
    simp

theorem replace1_notMem {c : UInt8} {r s : Bytes} (h : c ∉ s) : replace1 c r s = s := by
  unfold replace1
  induction s with
  | nil => rfl
  | cons x t ih =>
    simp only [List.mem_cons, not_or] at h
    rw [List.flatMap_cons, ih h.2, if_neg (Ne.symm h.1)]; rfl

theorem esSplit_field {name v : Bytes} (h : (58 : UInt8) ∉ name) : esSplit (name ++ 58 :: 32 :: v) = (name, v) := by
  have : partition1 58 (name ++ 58 :: 32 :: v) = (name, true, 32 :: v) := by
    induction name with
    | nil => simp [partition1]
    | cons x t ih =>
      simp only [List.mem_cons, not_or] at h
      simp [partition1, Ne.symm h.1, ih h.2]
  unfold esSplit; rw [this]; simp

theorem esLine_field {s : ES} {name v : Bytes} (hn : (58 : UInt8) ∉ name) (h0 : name ≠ []) :
    esLine s (name ++ 58 :: 32 :: v) = esField s name v := by
  unfold esLine
  rw [if_neg (by simp), if_neg]
  · rw [esSplit_field hn]
  · cases name with
    | nil => exact absurd rfl h0
    | cons x t => simp at hn ⊢; exact fun e => hn.1 e.symm

/-- A field line in front of a stream. -/
theorem esParse_field {s : ES} {name v rest : Bytes} (hn : (58 : UInt8) ∉ name ∧ (10 : UInt8) ∉ name ∧ (13 : UInt8) ∉ name) (h0 : name ≠ [])
    (h1 : (10 : UInt8) ∉ v) (h2 : (13 : UInt8) ∉ v) :
    esParse s (name ++ b!": " ++ v ++ 10 :: rest) = esParse (esField s name v) rest := by
  unfold esParse
  have e : name ++ b!": " ++ v = name ++ 58 :: 32 :: v := by simp
  rw [e, esLines_line (by simp [hn.2.1, h1]) (by simp [hn.2.2, h2])]
  simp only [List.nil_append, List.foldl_cons]
  rw [esLine_field hn.1 h0]

theorem esParse_data : ∀ (d cur rest : Bytes) (s : ES), (13 : UInt8) ∉ d → (10 : UInt8) ∉ cur → (13 : UInt8) ∉ cur →
    esParse s (b!"data: " ++ cur ++ replace1 10 b!"\ndata: " d ++ 10 :: rest) =
      esParse { s with data := s.data ++ cur ++ d ++ [10] } rest := by
  intro d
  induction d with
  | nil =>
    intro cur rest s _ h1 h2
    have := esParse_field (s := s) (name := b!"data") (v := cur) (rest := rest) (by decide) (by simp) h1 h2
    simp only [replace1, List.flatMap_nil, List.append_nil]
    rw [show b!"data: " ++ cur ++ 10 :: rest = b!"data" ++ b!": " ++ cur ++ 10 :: rest by simp, this]
    simp [esField]
  | cons c d ih =>
    intro cur rest s h h1 h2
    simp only [List.mem_cons, not_or] at h
    by_cases hc : c = 10
    · subst hc
      have e : b!"data: " ++ cur ++ replace1 10 b!"\ndata: " (10 :: d) ++ 10 :: rest =
          b!"data" ++ b!": " ++ cur ++ 10 :: (b!"data: " ++ [] ++ replace1 10 b!"\ndata: " d ++ 10 :: rest) := by
        simp [replace1]
      rw [e, esParse_field (by decide) (by simp) h1 h2, ih [] rest _ h.2 (by simp) (by simp)]
      simp [esField]
    · have e : b!"data: " ++ cur ++ replace1 10 b!"\ndata: " (c :: d) ++ 10 :: rest =
          b!"data: " ++ (cur ++ [c]) ++ replace1 10 b!"\ndata: " d ++ 10 :: rest := by
        simp [replace1, hc]
      rw [e, ih (cur ++ [c]) rest s h.2 (by simp [h1]; exact fun e => hc e.symm) (by simp [h2]; exact h.1)]
      simp

theorem fmtNat_isDigits (n : Nat) : isDigits (fmtNat n) = true := by
  have := fmtNat_ne_nil n
  have h2 := fmtNat_digits n
  simp [isDigits, this]
  exact h2

theorem digitsAux_decNum : ∀ (s : Bytes) (acc n : Nat) (p : Bool), (∀ c ∈ s, 48 ≤ c ∧ c ≤ 57) →
    digitsAux decDigit? 10 acc p s = some n → s.foldl (fun a c => 10 * a + (c.toNat - 48)) acc = n := by
  intro s
  induction s with
  | nil => intro acc n p _ h; cases p <;> simp [digitsAux] at h; exact h
  | cons c t ih =>
    intro acc n p hd h
    have hc := hd c (by simp)
    simp only [digitsAux, decDigit?, hc, and_self, if_true] at h
    have := ih _ n true (fun c hc => hd c (by simp [hc])) h
    rw [List.foldl_cons, Nat.mul_comm]
    exact this

theorem decNum_fmtNat (n : Nat) : decNum (fmtNat n) = n :=
  digitsAux_decNum _ 0 n false (fmtNat_digits n) (decBody_fmtNat n)

theorem fmtNat_not (n : Nat) : (10 : UInt8) ∉ fmtNat n ∧ (13 : UInt8) ∉ fmtNat n := by
  constructor
  · intro h; have := fmtNat_digits n _ h; revert this; decide
  · intro h; have := fmtNat_digits n _ h; revert this; decide

end Verif.Proofs.Text
