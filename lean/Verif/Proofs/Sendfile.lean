import Verif.Model.Sendfile
import Verif.Spec.Sendfile
import Verif.Proofs.Numeral
import Verif.Proofs.HttpParser
import Verif.Proofs.ResponseSays
/-!
# Range parsing and file reading
-/
namespace Verif.Proofs.Sendfile
open Verif.Py Verif.Model.Response Verif.Model.HttpParser Verif.Model.Sendfile Verif.Spec.Sendfile
open Verif.Spec.Head (valueOf)

/-! ## Numbers -/

theorem decBody_digits {d : Bytes} (h : Digits d) : decBody d = some (valueOf d) := by
  have key : ∀ (d : Bytes) (acc : Nat) (p : Bool), (∀ c ∈ d, 48 ≤ c ∧ c ≤ 57) → (p = true ∨ d ≠ []) →
      digitsAux decDigit? 10 acc p d = some (d.foldl (fun a c => 10 * a + (c.toNat - 48)) acc) := by
    intro d
    induction d with
    | nil => intro acc p _ hp; simp at hp; simp [digitsAux, hp]
    | cons c t ih =>
      intro acc p hd _
      have hc := hd c (by simp)
      simp only [digitsAux, decDigit?, if_pos hc, List.foldl_cons]
      rw [ih _ _ (fun x hx => hd x (by simp [hx])) (.inl rfl), Nat.mul_comm]
  exact key d 0 false h.2 (.inr h.1)

theorem digit_facts : ∀ {c : UInt8}, 48 ≤ c ∧ c ≤ 57 → isSpace c = false ∧ c ≠ 43 ∧ c ≠ 45 ∧ c ≠ 44 ∧ c ≠ 98 := by
  intro c
  exact forall_u8 (P := fun c => 48 ≤ c ∧ c ≤ 57 → isSpace c = false ∧ c ≠ 43 ∧ c ≠ 45 ∧ c ≠ 44 ∧ c ≠ 98) (by decide +kernel) c

theorem strip_digits {d : Bytes} (h : Digits d) : strip d = d := strip_eq_self (fun x hx => (digit_facts (h.2 x hx)).1)

theorem intDec_digits {d : Bytes} (h : Digits d) : intDec d = some (valueOf d : Int) := by
  unfold intDec
  rw [strip_digits h]
  obtain ⟨hne, hd⟩ := h
  cases d with
  | nil => exact absurd rfl hne
  | cons c t =>
    have hc := digit_facts (hd c (by simp))
    simp only [if_neg hc.2.1, if_neg hc.2.2.1, decBody_digits ⟨hne, hd⟩]
    rfl

theorem intDec_neg_digits {d : Bytes} (h : Digits d) : intDec (45 :: d) = some (-(valueOf d : Int)) := by
  unfold intDec
  have : strip (45 :: d) = 45 :: d := strip_eq_self (by
    intro x hx
    rcases List.mem_cons.1 hx with rfl | hx
    · decide
    · exact (digit_facts (h.2 x hx)).1)
  rw [this]
  simp only [show (45 : UInt8) ≠ 43 by decide, if_false, if_true, decBody_digits h]
  rfl

/-! ## White space -/

theorem dropWhile_blank {w t : Bytes} (h : Blank w) (ht : ∀ c, t.head? = some c → isSpace c = false) : (w ++ t).dropWhile isSpace = t := by
  induction w with
  | nil =>
    cases t with
    | nil => rfl
    | cons c t => simp [List.dropWhile, ht c rfl]
  | cons c w ih => simp [List.dropWhile, h c (by simp), ih (fun x hx => h x (by simp [hx]))]

theorem strip_pad {w x w' : Bytes} (h : Blank w) (h' : Blank w') (hne : x ≠ []) (h1 : ∀ c, x.head? = some c → isSpace c = false)
    (h2 : ∀ c, x.getLast? = some c → isSpace c = false) : strip (w ++ x ++ w') = x := by
  unfold strip lstrip rstrip
  rw [List.append_assoc, dropWhile_blank h, List.reverse_append, dropWhile_blank, List.reverse_reverse]
  · intro c hc; exact h' c (by simpa using hc)
  · intro c hc; rw [List.head?_reverse] at hc; exact h2 c hc
  · intro c hc
    cases x with
    | nil => exact absurd rfl hne
    | cons y t => exact h1 c hc

theorem getLast?_mem {l : Bytes} {c} (h : l.getLast? = some c) : c ∈ l := List.mem_of_getLast? h

theorem range_bytes {r : Range} (h : r.Ok) : r.text ≠ [] ∧ ∀ c ∈ r.text, c = 45 ∨ (48 ≤ c ∧ c ≤ 57) := by
  cases r with
  | between a b =>
    refine ⟨by simp [Range.text], fun c hc => ?_⟩
    simp only [Range.text, List.mem_append, List.mem_singleton] at hc
    rcases hc with (hc | hc) | hc
    · exact .inr (h.1.2 c hc)
    · exact .inl hc
    · exact .inr (h.2.2 c hc)
  | fromOn a =>
    refine ⟨by simp [Range.text], fun c hc => ?_⟩
    simp only [Range.text, List.mem_append, List.mem_singleton] at hc
    rcases hc with hc | hc
    · exact .inr (h.2 c hc)
    · exact .inl hc
  | suffix n =>
    refine ⟨by simp [Range.text], fun c hc => ?_⟩
    simp only [Range.text, List.mem_append, List.mem_singleton] at hc
    rcases hc with hc | hc
    · exact .inl hc
    · exact .inr (h.2 c hc)

theorem range_space {r : Range} (h : r.Ok) : ∀ c ∈ r.text, isSpace c = false ∧ c ≠ 44 ∧ c ≠ 98 := by
  intro c hc
  rcases (range_bytes h).2 c hc with rfl | hd
  · decide
  · have := digit_facts hd; exact ⟨this.1, this.2.2.2.1, this.2.2.2.2⟩

theorem strip_elem {e : Elem} (h : e.Ok) : strip e.text = e.range.text := by
  refine strip_pad h.1 h.2.2 (range_bytes h.2.1).1 (fun c hc => ?_) (fun c hc => ?_)
  · exact (range_space h.2.1 c (List.mem_of_mem_head? hc)).1
  · exact (range_space h.2.1 c (getLast?_mem hc)).1

theorem blank_facts : ∀ {c : UInt8}, isSpace c = true → c ≠ 44 ∧ c ≠ 98 := by
  intro c
  exact forall_u8 (P := fun c => isSpace c = true → c ≠ 44 ∧ c ≠ 98) (by decide +kernel) c

theorem elem_bytes {e : Elem} (h : e.Ok) : ∀ c ∈ e.text, c ≠ 44 ∧ c ≠ 98 := by
  intro c hc
  simp only [Elem.text, List.mem_append] at hc
  rcases hc with (hc | hc) | hc
  · exact blank_facts (h.1 c hc)
  · exact (range_space h.2.1 c hc).2
  · exact blank_facts (h.2.2 c hc)

/-! ## One element -/

/-- What `parseRange` gives for a well-formed range. -/
def result (size : Nat) (p : Nat × Nat) : Int × Int × Int := ((p.1 : Int), (p.2 : Int), (p.2 : Int) - p.1 + 1)

theorem startsWith_dash (s : Bytes) : startsWith s b!"-" = decide (s.head? = some 45) := by
  cases s with
  | nil => rfl
  | cons c t =>
    simp only [startsWith, List.isPrefixOf, List.head?_cons, Option.some.injEq]
    by_cases h : c = 45
    · subst h; rfl
    · simp [h]; exact fun e => absurd e.symm h

theorem endsWith_dash (s : Bytes) : endsWith s b!"-" = decide (s.getLast? = some 45) := by
  have := startsWith_dash s.reverse
  rw [List.head?_reverse] at this
  exact this

theorem digits_head {d t : Bytes} (h : Digits d) : (d ++ t).head? ≠ some 45 := by
  obtain ⟨hne, hd⟩ := h
  cases d with
  | nil => exact absurd rfl hne
  | cons c r =>
    simp only [List.cons_append, List.head?_cons, ne_eq, Option.some.injEq]
    exact (digit_facts (hd c (by simp))).2.2.1

theorem digits_last {d t : Bytes} (h : Digits d) : (t ++ d).getLast? ≠ some 45 := by
  obtain ⟨hne, hd⟩ := h
  intro hc
  rw [List.getLast?_append] at hc
  cases hl : d.getLast? with
  | none => exact hne (List.getLast?_eq_none_iff.1 hl)
  | some x =>
    rw [hl] at hc
    simp only [Option.some_or, Option.some.injEq] at hc
    exact (digit_facts (hd x (getLast?_mem hl))).2.2.1 hc

theorem digits_noDash {d : Bytes} (h : Digits d) : (45 : UInt8) ∉ d := fun hm => (digit_facts (h.2 45 hm)).2.2.1 rfl

theorem parse_between {a b : Bytes} (ha : Digits a) (hb : Digits b) (fs : Int) : parseRange fs (Range.between a b).text =
    let e : Int := if valueOf b = 0 then valueOf a else valueOf b
    if (valueOf a : Int) > e ∨ e ≥ fs then .error notSatisfiable else .ok ((valueOf a : Int), e, e - valueOf a + 1) := by
  unfold parseRange
  have h1 : startsWith (Range.between a b).text b!"-" = false := by
    rw [startsWith_dash]; simp only [Range.text, List.append_assoc, decide_eq_false_iff_not]; exact digits_head ha
  have h2 : endsWith (Range.between a b).text b!"-" = false := by
    rw [endsWith_dash]; exact decide_eq_false (digits_last hb)
  have h3 : splitByte 45 1 (Range.between a b).text = [a, b] := by
    have := Proofs.HttpParser.splitByte_cons (u := b) (digits_noDash ha) 0
    rw [Proofs.HttpParser.splitByte_zero] at this
    simpa [Range.text] using this
  rw [h1, h2, h3]
  simp only [Bool.false_eq_true, if_false, intDec_digits ha, intDec_digits hb]
  have : ((valueOf b : Int) = 0) ↔ valueOf b = 0 := by omega
  simp only [this]

theorem parse_from {a : Bytes} (ha : Digits a) (fs : Int) : parseRange fs (Range.fromOn a).text =
    if (valueOf a : Int) ≥ fs then .error notSatisfiable else .ok ((valueOf a : Int), fs - 1, fs - valueOf a) := by
  unfold parseRange
  have h1 : startsWith (Range.fromOn a).text b!"-" = false := by
    rw [startsWith_dash]; exact decide_eq_false (digits_head ha)
  have h2 : endsWith (Range.fromOn a).text b!"-" = true := by
    rw [endsWith_dash]; simp [Range.text]
  have h3 : (Range.fromOn a).text.dropLast = a := by simp [Range.text]
  rw [h1, h2, h3]
  simp only [Bool.false_eq_true, if_false, if_true, intDec_digits ha]

theorem parse_suffix {n : Bytes} (hn : Digits n) (fs : Int) : parseRange fs (Range.suffix n).text =
    if fs - valueOf n < 0 then .error notSatisfiable else .ok (fs - valueOf n, fs - 1, valueOf n) := by
  unfold parseRange
  have h1 : startsWith (Range.suffix n).text b!"-" = true := by rw [startsWith_dash]; simp [Range.text]
  have h3 : (Range.suffix n).text = 45 :: n := rfl
  rw [h1, h3]
  simp only [if_true, intDec_neg_digits hn]
  have e : fs + -(valueOf n : Int) = fs - valueOf n := by omega
  rw [e]
  have e2 : fs - (fs - valueOf n) = (valueOf n : Int) := by omega
  rw [e2]

theorem parse_within {r : Range} (h : r.Ok) {size : Nat} {p} (hp : r.within size = some p) : parseRange size r.text = .ok (result size p) ∧ p.1 ≤ p.2 ∧ p.2 < size := by
  cases r with
  | between a b =>
    simp only [Range.within] at hp
    split at hp
    · next hc =>
      cases hp
      rw [parse_between h.1 h.2]
      dsimp only
      by_cases hb : valueOf b = 0
      · have ha : valueOf a = 0 := by omega
        rw [if_pos hb, if_neg (by omega)]
        refine ⟨?_, hc⟩
        simp [result, ha, hb]
      · rw [if_neg hb, if_neg (by omega)]
        exact ⟨rfl, hc⟩
    · cases hp
  | fromOn a =>
    simp only [Range.within] at hp
    split at hp
    · next hc =>
      cases hp
      rw [parse_from h, if_neg (by omega)]
      refine ⟨?_, by dsimp only; omega, by dsimp only; omega⟩
      simp only [result, Except.ok.injEq, Prod.mk.injEq, true_and]
      omega
    · cases hp
  | suffix n =>
    simp only [Range.within] at hp
    split at hp
    · next hc =>
      cases hp
      rw [parse_suffix h, if_neg (by omega)]
      refine ⟨?_, by dsimp only; omega, by dsimp only; omega⟩
      simp only [result, Except.ok.injEq, Prod.mk.injEq]
      omega
    · cases hp

theorem parse_beyond {r : Range} (h : r.Ok) {size : Nat} (hp : r.within size = none) (ho : ¬ r.Odd) : parseRange size r.text = .error notSatisfiable := by
  cases r with
  | between a b =>
    simp only [Range.within] at hp
    simp only [Range.Odd] at ho
    split at hp
    · cases hp
    · next hc =>
      rw [parse_between h.1 h.2]
      dsimp only
      rw [if_pos]
      split <;> omega
  | fromOn a =>
    simp only [Range.within] at hp
    split at hp
    · cases hp
    · next hc => rw [parse_from h, if_pos (by omega)]
  | suffix n =>
    simp only [Range.within] at hp
    simp only [Range.Odd] at ho
    split at hp
    · cases hp
    · next hc => rw [parse_suffix h, if_pos (by omega)]

/-! ## The header -/

theorem replace_absent {t : Bytes} (h : (98 : UInt8) ∉ t) : replace b!"bytes=" [] t = t := by
  unfold replace
  induction t with
  | nil => rfl
  | cons c t ih =>
    simp only [List.mem_cons, not_or] at h
    have : List.isPrefixOf b!"bytes=" (c :: t) = false := by
      show ((98 : UInt8) == c && _) = false
      rw [beq_false_of_ne h.1]; rfl
    unfold replaceAux
    rw [if_neg (by rw [this]; simp), ih h.2]

theorem replace_bytes (t : Bytes) : replace b!"bytes=" [] (b!"bytes=" ++ t) = replace b!"bytes=" [] t := by
  show replaceAux b!"bytes=" [] 0 (98 :: 121 :: 116 :: 101 :: 115 :: 61 :: t) = replaceAux b!"bytes=" [] 0 t
  rw [replaceAux, if_pos (by simp [List.isPrefixOf])]
  rfl

theorem mem_join {sep : Bytes} {l : List Bytes} {c : UInt8} (h : c ∈ join sep l) : c ∈ sep ∨ ∃ x ∈ l, c ∈ x := by
  induction l with
  | nil => cases h
  | cons a t ih =>
    cases t with
    | nil => exact .inr ⟨a, by simp, h⟩
    | cons b t =>
      simp only [join, List.mem_append] at h
      rcases h with (h | h) | h
      · exact .inr ⟨a, by simp, h⟩
      · exact .inl h
      · rcases ih h with h | ⟨x, hx, hc⟩
        · exact .inl h
        · exact .inr ⟨x, by simp only [List.mem_cons] at hx ⊢; exact .inr hx, hc⟩

theorem split_join (parts : List Bytes) (hne : parts ≠ []) (hc : ∀ p ∈ parts, (44 : UInt8) ∉ p) :
    ∀ n, parts.length ≤ n + 1 → splitByte 44 n (join [44] parts) = parts := by
  induction parts with
  | nil => exact absurd rfl hne
  | cons p parts ih =>
    intro n hn
    have hp : (44 : UInt8) ∉ p := hc p (by simp)
    cases parts with
    | nil => exact Proofs.HttpParser.splitByte_notMem hp n
    | cons q parts =>
      obtain ⟨m, rfl⟩ : ∃ m, n = m + 1 := ⟨n - 1, by simp at hn; omega⟩
      have ih := ih (by simp) (fun x hx => hc x (by simp [hx])) m (by simp at hn ⊢; omega)
      have e : join [44] (p :: q :: parts) = p ++ 44 :: join [44] (q :: parts) := by simp [join]
      rw [e, Proofs.HttpParser.splitByte_cons hp, ih]

/-- The elements that the code sees are those of the header. -/
theorem header_split {es : List Elem} (hne : es ≠ []) (hok : ∀ e ∈ es, e.Ok) (hl : es.length ≤ 101) :
    splitByte 44 100 (replace b!"bytes=" [] (headerText es)) = es.map Elem.text := by
  unfold headerText
  rw [replace_bytes, replace_absent]
  · refine split_join _ (by simpa using hne) (fun p hp => ?_) 100 (by simpa using hl)
    obtain ⟨e, he, rfl⟩ := List.mem_map.1 hp
    exact fun hm => (elem_bytes (hok e he) 44 hm).1 rfl
  · intro hm
    rcases mem_join hm with h | ⟨x, hx, hc⟩
    · revert h; decide
    · obtain ⟨e, he, rfl⟩ := List.mem_map.1 hx
      exact (elem_bytes (hok e he) 98 hc).2 rfl

theorem parseRanges_header {es : List Elem} (hne : es ≠ []) (hok : ∀ e ∈ es, e.Ok) (hl : es.length ≤ 101) (fs : Int) :
    parseRanges fs (.one (headerText es)) = parseList fs (es.map Elem.text) := by
  have : startsWith (headerText es) b!"bytes=" = true := by
    unfold startsWith headerText
    exact List.isPrefixOf_iff_prefix.2 ⟨_, rfl⟩
  unfold parseRanges
  rw [show rangeText (.one (headerText es)) = .ok (headerText es) by simp only [rangeText, this, if_true]]
  dsimp only
  rw [header_split hne hok hl]

theorem parseList_append (fs : Int) (a b : List Bytes) : parseList fs (a ++ b) =
    match parseList fs a with
    | .error e => .error e
    | .ok xs => match parseList fs b with
      | .error e => .error e
      | .ok ys => .ok (xs ++ ys) := by
  induction a with
  | nil => simp only [List.nil_append, parseList]; cases parseList fs b <;> rfl
  | cons v t ih =>
    simp only [List.cons_append, parseList]
    cases parseRange fs (strip v) with
    | error e => rfl
    | ok x =>
      dsimp only
      rw [ih]
      cases parseList fs t with
      | error e => rfl
      | ok xs =>
        dsimp only
        cases parseList fs b <;> rfl

theorem parseList_within {size : Nat} : ∀ {es : List Elem} {ps : List (Nat × Nat)}, (∀ e ∈ es, e.Ok) →
    es.map (fun e => e.range.within size) = ps.map some →
    parseList size (es.map Elem.text) = .ok (ps.map (result size)) ∧ ∀ p ∈ ps, p.1 ≤ p.2 ∧ p.2 < size
  | [], ps, _, h => by
    cases ps with
    | nil => exact ⟨rfl, by simp⟩
    | cons p t => simp at h
  | e :: es, ps, hok, h => by
    cases ps with
    | nil => simp at h
    | cons p ps =>
      simp only [List.map_cons, List.cons.injEq] at h
      obtain ⟨h1, h2⟩ := h
      have ih := parseList_within (fun x hx => hok x (by simp [hx])) h2
      have hp := parse_within (hok e (by simp)).2.1 h1
      refine ⟨?_, ?_⟩
      · simp only [List.map_cons, parseList, strip_elem (hok e (by simp)), hp.1, ih.1]
      · intro q hq
        rcases List.mem_cons.1 hq with rfl | hq
        · exact hp.2
        · exact ih.2 q hq

/-! ## Soundness for every header value -/

/-- Every element that is accepted lies within the file, or is empty at its end. -/
def Sound (size : Nat) (r : Int × Int × Int) : Prop :=
  0 ≤ r.1 ∧ r.2.1 < size ∧ r.2.2 = r.2.1 - r.1 + 1 ∧ (r.1 ≤ r.2.1 ∨ (r.1 = size ∧ r.2.2 = 0))

theorem decBody_nonneg_of_intDec {v : Bytes} {n : Int} (h : intDec v = some n) : 0 ≤ n ∨ (45 : UInt8) ∈ (strip v).head? := by
  unfold intDec at h
  split at h
  · cases h
  · next c t hs =>
    rw [hs]
    split at h
    · obtain ⟨x, _, rfl⟩ := Option.map_eq_some_iff.1 h; exact .inl (Int.natCast_nonneg x)
    · split at h
      · next hc => exact .inr (by simp [hc])
      · obtain ⟨x, _, rfl⟩ := Option.map_eq_some_iff.1 h; exact .inl (Int.natCast_nonneg x)

theorem intDec_neg_form {v : Bytes} {n : Int} (h : intDec v = some n) (hs : (strip v).head? = some 45) : n ≤ 0 := by
  unfold intDec at h
  split at h
  · cases h
  · next c t hs' =>
    rw [hs'] at hs
    simp only [List.head?_cons, Option.some.injEq] at hs
    subst hs
    simp only [show (45 : UInt8) ≠ 43 by decide, if_false, if_true] at h
    obtain ⟨x, _, rfl⟩ := Option.map_eq_some_iff.1 h
    exact Int.neg_nonpos_of_nonneg (Int.natCast_nonneg x)

theorem lstrip_head (s : Bytes) : ∀ c, (lstrip s).head? = some c → isSpace c = false := by
  intro c hc
  unfold lstrip at hc
  have := List.head?_dropWhile_not isSpace s
  rw [hc] at this
  simpa using this

theorem rstrip_prefix (s : Bytes) : rstrip s <+: s := by
  unfold rstrip
  have := List.dropWhile_suffix (l := s.reverse) isSpace
  have := List.reverse_prefix.2 this
  simpa using this

theorem strip_head {s : Bytes} {c} (h : (strip s).head? = some c) : (lstrip s).head? = some c := by
  unfold strip at h
  obtain ⟨t, ht⟩ := rstrip_prefix (lstrip s)
  rw [← ht]
  cases hr : rstrip (lstrip s) with
  | nil => rw [hr] at h; cases h
  | cons x y => rw [hr] at h; simpa using h

/-- The first byte of a text that starts with a byte other than white space survives stripping. -/
theorem strip_first {s : Bytes} {x : UInt8} (hx : s.head? = some x) (h : isSpace x = false) {c} (hc : (strip s).head? = some c) : c = x := by
  have := strip_head hc
  cases s with
  | nil => cases hx
  | cons y t =>
    simp only [List.head?_cons, Option.some.injEq] at hx
    subst hx
    simp only [lstrip, List.dropWhile_cons, h] at this
    simpa using this.symm

theorem strip_noDash {s : Bytes} (h : (45 : UInt8) ∉ s) : (strip s).head? ≠ some 45 := by
  intro hc
  have := strip_head hc
  have hm : (45 : UInt8) ∈ lstrip s := List.mem_of_mem_head? this
  exact h ((List.dropWhile_suffix _).subset hm)

theorem splitByte_two {c : UInt8} {s a b : Bytes} (h : splitByte c 1 s = [a, b]) : c ∉ a ∧ s = a ++ c :: b := by
  by_cases hc : c ∈ s
  · obtain ⟨m, u, rfl, hm⟩ := Proofs.HttpParser.mem_split_first hc
    rw [Proofs.HttpParser.splitByte_cons hm 0, Proofs.HttpParser.splitByte_zero] at h
    cases h
    exact ⟨hm, rfl⟩
  · rw [Proofs.HttpParser.splitByte_notMem hc] at h
    cases h

theorem parseRange_sound {size : Nat} {v : Bytes} (hv : ∀ c, v.head? = some c → isSpace c = false) {r} (h : parseRange size v = .ok r) : Sound size r := by
  unfold parseRange at h
  split at h
  · next hd =>
    rw [startsWith_dash, decide_eq_true_iff] at hd
    split at h
    · cases h
    · next n hn =>
      dsimp only at h
      split at h
      · cases h
      · next hlt =>
        cases h
        have hs : (strip v).head? = some 45 ∨ (strip v) = [] := by
          cases hsv : (strip v).head? with
          | none => exact .inr (List.head?_eq_none_iff.1 hsv)
          | some c => rw [strip_first hd (hv 45 hd) hsv]; exact .inl rfl
        have hn0 : n ≤ 0 := by
          rcases hs with hs | hs
          · exact intDec_neg_form hn hs
          · unfold intDec at hn; rw [hs] at hn; cases hn
        unfold Sound
        dsimp only
        omega
  · next hd =>
    rw [startsWith_dash, decide_eq_true_iff] at hd
    split at h
    · next hl =>
      rw [endsWith_dash, decide_eq_true_iff] at hl
      split at h
      · cases h
      · next n hn =>
        split at h
        · cases h
        · cases h
          have hn0 : 0 ≤ n := by
            rcases decBody_nonneg_of_intDec hn with h0 | h0
            · exact h0
            · exfalso
              have h0 : (strip v.dropLast).head? = some 45 := by simpa using h0
              cases hvd : v.dropLast with
              | nil => rw [hvd] at h0; cases h0
              | cons x t =>
                have hx : v.head? = some x := by
                  cases v with
                  | nil => cases hvd
                  | cons y z =>
                    cases z with
                    | nil => cases hvd
                    | cons => simp only [List.dropLast_cons_cons, List.cons.injEq] at hvd; rw [hvd.1]; rfl
                have := strip_first (s := v.dropLast) (by rw [hvd]; rfl) (hv x hx) h0
                exact hd (by rw [hx, this])
          unfold Sound
          dsimp only
          omega
    · split at h
      · next a b hsp =>
        obtain ⟨ha, hvab⟩ := splitByte_two hsp
        split at h
        · next start e hs he =>
          dsimp only at h
          generalize hee : (if e = 0 then start else e) = e' at h
          split at h
          · cases h
          · cases h
            have hn0 : 0 ≤ start := by
              rcases decBody_nonneg_of_intDec hs with h0 | h0
              · exact h0
              · exact absurd (by simpa using h0) (strip_noDash ha)
            unfold Sound
            dsimp only
            omega
        · cases h
      · cases h

theorem strip_hv (v : Bytes) : ∀ c, (strip v).head? = some c → isSpace c = false := fun c hc => lstrip_head v c (strip_head hc)

theorem parseList_sound {size : Nat} : ∀ {vs : List Bytes} {rs}, parseList size vs = .ok rs → rs.length = vs.length ∧ ∀ r ∈ rs, Sound size r
  | [], rs, h => by cases h; simp
  | v :: vs, rs, h => by
    unfold parseList at h
    split at h
    · cases h
    · next x hx =>
      split at h
      · cases h
      · next xs hxs =>
        cases h
        have ih := parseList_sound hxs
        refine ⟨by simp [ih.1], ?_⟩
        intro r hr
        rcases List.mem_cons.1 hr with rfl | hr
        · exact parseRange_sound (strip_hv v) hx
        · exact ih.2 r hr

theorem parseRange_error {fs : Int} {v : Bytes} {e} (h : parseRange fs v = .error e) : e = badRange ∨ e = notSatisfiable := by
  unfold parseRange at h
  dsimp only at h
  repeat' split at h
  all_goals first | (cases h; exact .inl rfl) | (cases h; exact .inr rfl) | cases h

theorem parseList_error {fs : Int} : ∀ {vs : List Bytes} {e}, parseList fs vs = .error e → e = badRange ∨ e = notSatisfiable
  | [], e, h => by cases h
  | v :: vs, e, h => by
    unfold parseList at h
    split at h
    · next x hx => cases h; exact parseRange_error hx
    · split at h
      · next y hy => cases h; exact parseList_error hy
      · cases h

/-! ## Reading -/

theorem readAll_flatten {bs : Nat} (hb : 0 < bs) (d : Bytes) : (readAll bs d).flatten = d := by
  generalize hn : d.length = n
  induction n using Nat.strongRecOn generalizing d with
  | _ n ih =>
    rw [readAll]
    split
    · next h =>
      have : d = [] := by
        cases d with
        | nil => rfl
        | cons x t => cases bs with
          | zero => cases hb
          | succ k => simp at h
      subst this; rfl
    · next h =>
      have hd : d ≠ [] := fun e => h (by simp [e])
      have hp : 0 < d.length := List.length_pos_iff.2 hd
      rw [List.flatten_cons, ih (d.drop bs).length (by simp; omega) (d.drop bs) rfl, List.take_append_drop]

theorem readAll_ne (bs : Nat) (d : Bytes) : ∃ x t, readAll bs d = x :: t := by
  rw [readAll]; split <;> exact ⟨_, _, rfl⟩

theorem readN_flatten {bs : Nat} (hb : 0 < bs) (n : Nat) (d : Bytes) : (readN bs n d).flatten = d.take n := by
  induction n using Nat.strongRecOn generalizing d with
  | _ n ih =>
    rw [readN]
    split
    · next h =>
      have : n = 0 := by omega
      subst this; simp
    · next h =>
      dsimp only
      by_cases hle : n ≤ bs
      · have e : (min (n : Int) bs).toNat = n := by omega
        rw [e, List.flatten_cons]
        rw [readN, dif_pos (by omega)]
        simp
      · have e : (min (n : Int) bs).toNat = bs := by omega
        have e2 : ((n : Int) - bs) = ((n - bs : Nat) : Int) := by omega
        rw [e, e2, List.flatten_cons, ih (n - bs) (by omega)]
        have := List.take_add (l := d) (i := bs) (j := n - bs)
        rw [show bs + (n - bs) = n by omega] at this
        rw [this]

theorem readN_nonempty {bs : Nat} (n : Nat) (d : Bytes) (hd : n ≤ d.length) : ∀ x ∈ readN bs n d, x ≠ [] := by
  induction n using Nat.strongRecOn generalizing d with
  | _ n ih =>
    rw [readN]
    split
    · simp
    · next h =>
      have hn : 0 < n := by omega
      have hb : 0 < bs := by omega
      intro x hx
      rcases List.mem_cons.1 hx with rfl | hx
      · intro e
        have := congrArg List.length e
        simp only [List.length_take, List.length_nil] at this
        omega
      · by_cases hle : n ≤ bs
        · rw [readN, dif_pos (by omega)] at hx
          cases hx
        · have e : (min (n : Int) bs).toNat = bs := by omega
          have e2 : ((n : Int) - bs) = ((n - bs : Nat) : Int) := by omega
          rw [e, e2] at hx
          exact ih (n - bs) (by omega) (d.drop bs) (by simp; omega) x hx

theorem readN_cons {bs : Nat} (hb : 0 < bs) {n : Nat} (hn : 0 < n) (d : Bytes) : ∃ x t, readN bs n d = x :: t := by
  rw [readN, dif_neg (by omega)]
  exact ⟨_, _, rfl⟩

/-! ## Several Range headers -/

theorem replace_skip {t : Bytes} (h : (98 : UInt8) ∉ t) (u : Bytes) : replace b!"bytes=" [] (t ++ u) = t ++ replace b!"bytes=" [] u := by
  induction t with
  | nil => rfl
  | cons c t ih =>
    simp only [List.mem_cons, not_or] at h
    have : List.isPrefixOf b!"bytes=" (c :: (t ++ u)) = false := by
      show ((98 : UInt8) == c && _) = false
      rw [beq_false_of_ne h.1]; rfl
    have ih := ih h.2
    unfold replace at ih ⊢
    rw [List.cons_append, replaceAux, if_neg (by rw [this]; simp), ih, List.cons_append]

theorem texts_clean {es : List Elem} (hok : ∀ e ∈ es, e.Ok) : (98 : UInt8) ∉ join [44] (es.map Elem.text) := by
  intro hm
  rcases mem_join hm with h | ⟨x, hx, hc⟩
  · revert h; decide
  · obtain ⟨e, he, rfl⟩ := List.mem_map.1 hx
    exact (elem_bytes (hok e he) 98 hc).2 rfl

theorem replace_groups : ∀ {gs : List (List Elem)}, (∀ g ∈ gs, ∀ e ∈ g, e.Ok) →
    replace b!"bytes=" [] (join [44] (gs.map headerText)) = join [44] (gs.map (fun g => join [44] (g.map Elem.text)))
  | [], _ => rfl
  | [g], h => by
    show replace b!"bytes=" [] (headerText g) = _
    unfold headerText
    rw [replace_bytes, replace_absent (texts_clean (h g (by simp)))]
    rfl
  | g :: g' :: gs, h => by
    have ih := replace_groups (gs := g' :: gs) (fun x hx => h x (by simp only [List.mem_cons] at hx ⊢; exact .inr hx))
    have e : join [44] ((g :: g' :: gs).map headerText) = b!"bytes=" ++ (join [44] (g.map Elem.text) ++ ([44] ++ join [44] ((g' :: gs).map headerText))) := by
      simp only [List.map_cons, join]
      rw [show headerText g = b!"bytes=" ++ join [44] (g.map Elem.text) from rfl]
      simp only [List.append_assoc]
    rw [e, replace_bytes, replace_skip (texts_clean (h g (by simp))), replace_skip (by decide), ih]
    simp only [List.map_cons, join, List.append_assoc]

theorem join_append {a b : List Bytes} (ha : a ≠ []) (hb : b ≠ []) : join [44] (a ++ b) = join [44] a ++ [44] ++ join [44] b := by
  induction a with
  | nil => exact absurd rfl ha
  | cons x t ih =>
    cases t with
    | nil =>
      cases b with
      | nil => exact absurd rfl hb
      | cons y b => simp [join]
    | cons z t =>
      have := ih (by simp)
      simp only [List.cons_append, join] at this ⊢
      rw [this]
      simp only [List.append_assoc]

theorem join_groups : ∀ {gs : List (List Elem)}, (∀ g ∈ gs, g ≠ []) →
    join [44] (gs.map (fun g => join [44] (g.map Elem.text))) = join [44] (gs.flatten.map Elem.text)
  | [], _ => rfl
  | [g], _ => by simp [join]
  | g :: g' :: gs, h => by
    have ih := join_groups (gs := g' :: gs) (fun x hx => h x (by simp only [List.mem_cons] at hx ⊢; exact .inr hx))
    have hg := h g (by simp)
    have hg' := h g' (by simp)
    simp only [List.map_cons, List.flatten_cons, List.map_append, join] at ih ⊢
    rw [join_append (by simpa using hg) (by simp [hg']), ih]

theorem parseRanges_groups {gs : List (List Elem)} (h1 : gs ≠ []) (hne : ∀ g ∈ gs, g ≠ []) (hok : ∀ g ∈ gs, ∀ e ∈ g, e.Ok) (hl : gs.flatten.length ≤ 101)
    (fs : Int) : parseRanges fs (.many (gs.map headerText)) = parseList fs (gs.flatten.map Elem.text) := by
  have : (gs.map headerText).all (startsWith · b!"bytes=") = true := by
    rw [List.all_eq_true]
    intro x hx
    obtain ⟨g, _, rfl⟩ := List.mem_map.1 hx
    unfold startsWith headerText
    exact List.isPrefixOf_iff_prefix.2 ⟨_, rfl⟩
  unfold parseRanges
  rw [show rangeText (.many (gs.map headerText)) = .ok (join b!"," (gs.map headerText)) by simp only [rangeText, this, if_true]]
  dsimp only
  rw [show b!"," = [44] from rfl, replace_groups hok, join_groups hne, split_join]
  · obtain ⟨g, gs', rfl⟩ := List.exists_cons_of_ne_nil h1
    have := hne g (by simp)
    simp [this]
  · intro p hp
    obtain ⟨e, he, rfl⟩ := List.mem_map.1 hp
    obtain ⟨g, hg, he⟩ := List.mem_flatten.1 he
    exact fun hm => (elem_bytes (hok g hg e he) 44 hm).1 rfl
  · rw [List.length_map]; exact hl

/-! ## Texts that are not ranges -/

/-- The bytes that a number accepted by `int()` may contain. -/
def Numeric (c : UInt8) : Prop := isSpace c = true ∨ c = 43 ∨ c = 45 ∨ (48 ≤ c ∧ c ≤ 57) ∨ c = 95

theorem digitsAux_chars : ∀ (d : Bytes) {acc p n}, digitsAux decDigit? 10 acc p d = some n → ∀ c ∈ d, Numeric c
  | [], _, _, _, _, c, hc => by cases hc
  | x :: t, acc, p, n, h, c, hc => by
    unfold digitsAux at h
    rcases List.mem_cons.1 hc with rfl | hc
    · unfold decDigit? at h
      by_cases hd : 48 ≤ c ∧ c ≤ 57
      · exact .inr (.inr (.inr (.inl hd)))
      · rw [if_neg hd] at h
        dsimp only at h
        split at h
        · next hu => exact .inr (.inr (.inr (.inr hu.1)))
        · cases h
    · split at h
      · exact digitsAux_chars t h c hc
      · split at h
        · exact digitsAux_chars t h c hc
        · cases h

theorem mem_lstrip {c : UInt8} : ∀ {s : Bytes}, c ∈ s → isSpace c = false → c ∈ lstrip s
  | x :: t, h, hs => by
    unfold lstrip
    rw [List.dropWhile_cons]
    split
    · next hx =>
      rcases List.mem_cons.1 h with rfl | h
      · rw [hs] at hx; cases hx
      · exact mem_lstrip h hs
    · exact h

theorem mem_strip {c : UInt8} {s : Bytes} (h : c ∈ s) (hs : isSpace c = false) : c ∈ strip s := by
  unfold strip rstrip
  rw [List.mem_reverse]
  exact mem_lstrip (s := (lstrip s).reverse) (List.mem_reverse.2 (mem_lstrip h hs)) hs

theorem intDec_chars {v : Bytes} {n} (h : intDec v = some n) : ∀ c ∈ v, Numeric c := by
  intro c hc
  by_cases hs : isSpace c = true
  · exact .inl hs
  · have hm := mem_strip hc (by simpa using hs)
    unfold intDec at h
    split at h
    · cases h
    · next x t hx =>
      rw [hx] at hm
      split at h
      · next hp =>
        obtain ⟨y, hy, _⟩ := Option.map_eq_some_iff.1 h
        rcases List.mem_cons.1 hm with rfl | hm
        · exact .inr (.inl hp)
        · exact digitsAux_chars t hy c hm
      · split at h
        · next hp =>
          obtain ⟨y, hy, _⟩ := Option.map_eq_some_iff.1 h
          rcases List.mem_cons.1 hm with rfl | hm
          · exact .inr (.inr (.inl hp))
          · exact digitsAux_chars t hy c hm
        · obtain ⟨y, hy, _⟩ := Option.map_eq_some_iff.1 h
          exact digitsAux_chars _ hy c hm

theorem parseRange_badByte {fs : Int} {v : Bytes} {c : UInt8} (hc : c ∈ v) (hn : ¬ Numeric c) : parseRange fs v = .error badRange := by
  unfold parseRange
  split
  · split
    · rfl
    · next n h => exact absurd (intDec_chars h c hc) hn
  · split
    · next hl =>
      split
      · rfl
      · next n h =>
        rw [endsWith_dash, decide_eq_true_iff] at hl
        have : c ∈ v.dropLast := by
          obtain ⟨u, rfl⟩ := List.getLast?_eq_some_iff.1 hl
          rw [List.dropLast_concat]
          rcases List.mem_append.1 hc with h | h
          · exact h
          · exact absurd (.inr (.inr (.inl (List.mem_singleton.1 h)))) hn
        exact absurd (intDec_chars h c this) hn
    · split
      · next a b hsp =>
        obtain ⟨_, rfl⟩ := splitByte_two hsp
        split
        · next x y hx hy =>
          exfalso
          rcases List.mem_append.1 hc with h | h
          · exact hn (intDec_chars hx c h)
          · rcases List.mem_cons.1 h with rfl | h
            · exact hn (.inr (.inr (.inl rfl)))
            · exact hn (intDec_chars hy c h)
        · rfl
      · rfl

theorem parseRange_noDash {fs : Int} {v : Bytes} (h : (45 : UInt8) ∉ v) : parseRange fs v = .error badRange := by
  unfold parseRange
  have h1 : startsWith v b!"-" = false := by
    rw [startsWith_dash]; exact decide_eq_false (fun hc => h (List.mem_of_mem_head? hc))
  have h2 : endsWith v b!"-" = false := by
    rw [endsWith_dash]; exact decide_eq_false (fun hc => h (List.mem_of_getLast? hc))
  rw [h1, h2, Proofs.HttpParser.splitByte_notMem h]
  rfl

theorem mem_of_strip {c : UInt8} {s : Bytes} (h : c ∈ strip s) : c ∈ s := by
  unfold strip rstrip at h
  have h := (List.dropWhile_suffix _).subset (List.mem_reverse.1 h)
  exact (List.dropWhile_suffix _).subset (List.mem_reverse.1 h)

theorem numeric_false {c : UInt8} (h : ¬ Numeric c) : isSpace c = false := by
  cases hs : isSpace c with
  | false => rfl
  | true => exact absurd (.inl hs) h

end Verif.Proofs.Sendfile
