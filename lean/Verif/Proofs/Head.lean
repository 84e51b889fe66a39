import Verif.Model.Head
import Verif.Spec.Head
import Verif.Py.Util
import Verif.Proofs.HttpParser
import Verif.Proofs.Numeral
/-!
# Lemmas for the head phase
-/
namespace Verif.Proofs.Head
open Verif.Py Verif.Model.HttpParser Verif.Model.Head Verif.Spec.Head Verif.Proofs.HttpParser

theorem firstBlank_iff {s : Bytes} {n : Nat} : FirstBlank s n ↔ find CRLF2 s = some n := by
  rw [find_eq_some_iff]
  constructor
  · rintro ⟨⟨a, b, rfl, rfl⟩, h⟩
    refine ⟨by simp, by simp, ?_⟩
    intro m hm hp
    obtain ⟨t, ht⟩ := hp
    have := h ((a ++ CRLF2 ++ b).take m) t
      (by rw [List.append_assoc _ CRLF2 t, ht, List.take_append_drop])
    simp only [List.length_take] at this
    omega
  · rintro ⟨h1, ⟨t, ht⟩, h3⟩
    refine ⟨⟨s.take n, t, by rw [List.append_assoc, ht, List.take_append_drop], by simp; omega⟩, ?_⟩
    rintro a b rfl
    apply Nat.le_of_not_lt
    intro hlt
    exact h3 _ hlt (by simp)

theorem noBlank_iff {s : Bytes} : NoBlank s ↔ find CRLF2 s = none := by
  rw [find_eq_none_iff']
  unfold NoBlank
  constructor
  · rintro h ⟨a, b, rfl⟩; exact h a b rfl
  · rintro h a b rfl; exact h ⟨a, b, rfl⟩

/-- The three ways a connection can be after receiving `segs`. -/
inductive Outcome (max : Nat) (segs : List Bytes) (c : Conn) : Prop
  | collecting (h1 : c.hb = some segs.flatten) (h2 : c.aborted = false)
      (h3 : c.outs = segs.map (fun _ => .wait)) (h4 : NoBlank segs.flatten) (h5 : segs.flatten.length ≤ max)
  | started (pre : List Bytes) (s : Bytes) (post : List Bytes) (n : Nat) (h : segs = pre ++ s :: post)
      (h1 : c.hb = none) (h2 : c.aborted = false)
      (h3 : c.outs = pre.map (fun _ => .wait) ++ .start (pre ++ [s]).flatten (n + 2) :: post.map .body)
      (h4 : NoBlank pre.flatten) (h5 : pre.flatten.length ≤ max) (h6 : FirstBlank (pre ++ [s]).flatten n) (h7 : n + 2 ≤ max)
  | aborted (pre : List Bytes) (s : Bytes) (post : List Bytes) (h : segs = pre ++ s :: post)
      (h2 : c.aborted = true) (h3 : c.outs = pre.map (fun _ => .wait) ++ [.abort])
      (h4 : NoBlank pre.flatten) (h5 : pre.flatten.length ≤ max)
      (h6 : (∃ n, FirstBlank (pre ++ [s]).flatten n ∧ max < n + 2) ∨
        (NoBlank (pre ++ [s]).flatten ∧ max < (pre ++ [s]).flatten.length))

theorem recvAll_snoc (max : Nat) (segs : List Bytes) (s : Bytes) :
    recvAll max (segs ++ [s]) = recv max (recvAll max segs) s := by simp [recvAll]

theorem outcome (max : Nat) (segs : List Bytes) (hne : ∀ s ∈ segs, s ≠ []) : Outcome max segs (recvAll max segs) := by
  induction segs using snocInd with
  | h0 => exact .collecting rfl rfl rfl (by rw [noBlank_iff]; decide) (by simp)
  | h1 segs s ih =>
    have hs : s ≠ [] := hne s (by simp)
    rw [recvAll_snoc]
    generalize hc : recvAll max segs = c at ih
    rcases ih (fun x hx => hne x (by simp [hx])) with ⟨h1, h2, h3, h4, h5⟩ | ⟨pre, x, post, n, h, h1, h2, h3, h4, h5, h6, h7⟩ |
      ⟨pre, x, post, h, h2, h3, h4, h5, h6⟩
    · have ef : (segs ++ [s]).flatten = segs.flatten ++ s := by simp
      unfold recv
      rw [h2, h1, if_neg Bool.false_ne_true]
      simp only [dataReceived, if_neg hs]
      cases hf : find CRLF2 (segs.flatten ++ s) with
      | some n =>
        simp only
        have hfb : FirstBlank (segs ++ [s]).flatten n := by rw [firstBlank_iff, ef, hf]
        by_cases hn : n + 2 ≤ max
        · rw [if_pos ⟨by omega, hn⟩]
          exact .started segs s [] n rfl rfl rfl (by simp [h3]) h4 h5 hfb hn
        · rw [if_neg (by omega), if_pos (by omega)]
          exact .aborted segs s [] rfl rfl (by simp [h3]) h4 h5 (.inl ⟨n, hfb, by omega⟩)
      | none =>
        simp only
        have hnb : NoBlank (segs ++ [s]).flatten := by rw [noBlank_iff, ef, hf]
        rw [if_neg (by omega)]
        by_cases hm : max < 1
        · rw [if_pos (by omega)]
          refine .aborted segs s [] rfl rfl (by simp [h3]) h4 h5 (.inr ⟨hnb, ?_⟩)
          have := List.length_pos_iff.2 hs
          rw [ef, List.length_append]; omega
        rw [if_neg (by omega)]
        by_cases hl : (segs.flatten ++ s).length ≤ max
        · rw [if_neg (fun h => h ⟨trivial, hl⟩)]
          exact .collecting (by rw [ef]) rfl (by simp [h3]) hnb (by rw [ef]; exact hl)
        · rw [if_pos (by simp only [true_and]; exact hl)]
          exact .aborted segs s [] rfl rfl (by simp [h3]) h4 h5 (.inr ⟨hnb, by rw [ef]; omega⟩)
    · unfold recv
      rw [h2, h1, if_neg Bool.false_ne_true]
      simp only [dataReceived, if_neg hs]
      exact .started pre x (post ++ [s]) n (by simp [h]) rfl rfl (by simp [h3]) h4 h5 h6 h7
    · unfold recv
      rw [h2, if_pos rfl]
      exact .aborted pre x (post ++ [s]) (by simp [h]) h2 h3 h4 h5 h6

/-! ## The dictionary of an arbitrary head -/

/-- Keys the parser itself writes. -/
def pseudo : List Bytes := [kMethod, kUrl, kVersion, kStatus, kMessage, kLine, kHost]

theorem hget_startLine (l : Bytes) (p : Parsed) {k : Bytes} (hk : k ∉ pseudo) :
    hget (startLine l p).headers k = hget p.headers k := by
  simp only [pseudo, List.mem_cons, List.not_mem_nil, or_false, not_or] at hk
  obtain ⟨k1, k2, k3, k4, k5, k6, k7⟩ := hk
  have e1 := Ne.symm k1; have e2 := Ne.symm k2; have e3 := Ne.symm k3; have e4 := Ne.symm k4
  have e5 := Ne.symm k5; have e6 := Ne.symm k6
  have hresp : hget (respLine l p).headers k = hget p.headers k := by
    unfold respLine
    simp only
    split
    · split <;> simp only [hget_hset_ne _ _ e3, hget_hset_ne _ _ e4, hget_hset_ne _ _ e5]
    · simp only [hget_hset_ne _ _ e3, hget_hset_ne _ _ e4, hget_hset_ne _ _ e5]
  have hreq : ∀ n, hget (reqLine l n p).headers k = hget p.headers k := by
    intro n
    unfold reqLine
    simp only
    split <;> simp only [hget_hset_ne _ _ e3, hget_hset_ne _ _ e1, hget_hset_ne _ _ e2]
  unfold startLine
  simp only [hget_hset_ne _ _ e6]
  split
  · exact hresp
  · split
    · exact hreq _
    · rfl
  · rfl

theorem list_startLine (l : Bytes) (p : Parsed) : (startLine l p).list = p.list := by
  unfold startLine respLine reqLine
  simp only
  split
  · split
    · split <;> rfl
    · rfl
  · split
    · split <;> rfl
    · rfl
  · rfl

theorem hget_finish (p : Parsed) {k : Bytes} (hk : k ∉ pseudo) : hget (finish p).headers k = hget p.headers k := by
  unfold finish; split
  · rw [hget_hset_ne]; intro h; apply hk; simp [pseudo, h]
  · rfl

theorem list_finish (p : Parsed) : (finish p).list = p.list := by unfold finish; split <;> rfl

/-- `d[k]` as a function of the field values. -/
def dictVal (vs : List Bytes) : Option HVal := match vs with | [] => none | [v] => some (.one v) | vs => some (.many vs)

theorem loop_dict {ex : List Bytes} {mls : Nat} {k : Bytes} (hk : k ∉ pseudo) (hex : k ∉ ex) :
    ∀ (lines : List Bytes) (first : Bool) (left : Nat) (p : Parsed),
    hget p.headers k = (Spec.HttpParser.valuesOf p.list k).foldl addVal none →
    hget (parseLoop ex mls first left p lines).headers k =
      (Spec.HttpParser.valuesOf (parseLoop ex mls first left p lines).list k).foldl addVal none := by
  intro lines
  induction lines with
  | nil => intro first left p h; rw [parseLoop, hget_finish _ hk, list_finish]; exact h
  | cons l ls ih =>
    intro first left p h
    rw [parseLoop]
    split
    · exact h
    · split
      · apply ih
        rw [hget_startLine _ _ hk, list_startLine]; exact h
      · split
        · rename_i name value _
          apply ih
          simp only
          rw [hget_addField]
          by_cases e : name = k
          · subst e
            rw [if_pos rfl, if_neg hex, h]
            simp [Spec.HttpParser.valuesOf]
          · rw [if_neg e, h]
            split
            · rfl
            · simp [Spec.HttpParser.valuesOf, e]
        · rw [hget_finish _ hk, list_finish]; exact h

/-- The dictionary entry of an ordinary field name is determined by the values of that name in the field list. -/
theorem parse_dict (data : Bytes) (hs : Nat) {ex : List Bytes} {mx mls : Nat} {k : Bytes} (hk : k ∉ pseudo) (hex : k ∉ ex) :
    hget (parse data hs ex mx mls).headers k =
      dictVal (Spec.HttpParser.valuesOf (parse data hs ex mx mls).list k) := by
  unfold parse
  rw [loop_dict hk hex _ _ _ _ (by simp [Spec.HttpParser.valuesOf, hget_nil])]
  rw [fold_none]; rfl

/-! ## Connection options -/

def splitC : Bytes → List Bytes
  | [] => [[]]
  | c :: t =>
    if c = 44 then [] :: splitC t
    else match splitC t with
      | [] => [[c]]
      | o :: os => (c :: o) :: os

theorem lowerB_comma (c : UInt8) : (lowerB c = 44) = (c = 44) :=
  forall_u8 (P := fun c => (lowerB c = 44) = (c = 44)) (fun n => propext (by revert n; decide +kernel)) c

theorem options_eq (v : Bytes) : options v = splitC (lower (replace1 32 [] v)) := by
  induction v with
  | nil => rfl
  | cons c t ih =>
    unfold options
    by_cases h1 : c = 44
    · subst h1
      rw [if_pos rfl, ih]
      simp [replace1, lower, splitC, lowerB]
    · rw [if_neg h1]
      by_cases h2 : c = 32
      · subst h2
        rw [if_pos rfl, ih]
        simp [replace1]
      · rw [if_neg h2]
        have e : lower (replace1 32 [] (c :: t)) = lowerB c :: lower (replace1 32 [] t) := by
          simp [replace1, lower, h2]
        rw [e, splitC, if_neg (by rw [lowerB_comma]; exact h1), ih]
        cases splitC (lower (replace1 32 [] t)) <;> rfl

theorem splitC_notMem {s : Bytes} (h : (44 : UInt8) ∉ s) : splitC s = [s] := by
  induction s with
  | nil => rfl
  | cons c t ih =>
    simp at h
    rw [splitC, if_neg (Ne.symm h.1), ih h.2]

theorem splitC_cons {m u : Bytes} (h : (44 : UInt8) ∉ m) : splitC (m ++ 44 :: u) = m :: splitC u := by
  induction m with
  | nil => simp [splitC]
  | cons c t ih =>
    simp at h
    rw [List.cons_append, splitC, if_neg (Ne.symm h.1), ih h.2]

theorem comma_step {x m t : Bytes} (hx : (44 : UInt8) ∉ x) (hm : (44 : UInt8) ∉ m) :
    (44 :: (x ++ [44])) <:+: (44 :: (m ++ 44 :: t)) ↔ x = m ∨ (44 :: (x ++ [44])) <:+: (44 :: t) := by
  rw [List.infix_cons_iff]
  constructor
  · rintro (h | h)
    · left
      rw [List.cons_prefix_cons] at h
      obtain ⟨r, hr⟩ := h.2
      have : x ++ 44 :: r = m ++ 44 :: t := by rw [← hr]; simp
      clear hr h
      induction x generalizing m with
      | nil =>
        cases m with
        | nil => rfl
        | cons a m => simp at this; exact absurd this.1 (by intro h; apply hm; simp [h])
      | cons a x ih =>
        cases m with
        | nil => simp at this; exact absurd this.1.symm (by intro h; apply hx; simp [h])
        | cons b m =>
          simp at this
          rw [this.1, ih (by simp at hx; exact hx.2) (by simp at hm; exact hm.2) this.2]
    · right
      induction m with
      | nil => exact h
      | cons a m ih =>
        simp at hm
        rw [List.cons_append, List.infix_cons_iff] at h
        rcases h with h | h
        · rw [List.cons_prefix_cons] at h; exact absurd h.1 hm.1
        · exact ih hm.2 h
  · rintro (rfl | h)
    · left; rw [List.cons_prefix_cons]; exact ⟨rfl, ⟨t, by simp⟩⟩
    · right; exact h.trans (List.suffix_append m _).isInfix

theorem comma_mem {x : Bytes} (hx : (44 : UInt8) ∉ x) : ∀ (n : Nat) (s : Bytes), s.length ≤ n →
    ((44 :: (x ++ [44])) <:+: (44 :: (s ++ [44])) ↔ x ∈ splitC s) := by
  intro n
  induction n with
  | zero =>
    intro s hs
    have : s = [] := List.eq_nil_of_length_eq_zero (by omega)
    subst this
    rw [show ([] ++ [44] : Bytes) = [] ++ 44 :: [] from rfl, comma_step hx (by simp)]
    simp only [splitC, List.mem_singleton]
    constructor
    · rintro (h | h)
      · exact h
      · have := h.length_le; simp at this
    · exact .inl
  | succ n ih =>
    intro s hs
    by_cases hc : (44 : UInt8) ∈ s
    · obtain ⟨m, u, rfl, hm⟩ := mem_split_first hc
      rw [splitC_cons hm, List.append_assoc, List.cons_append, comma_step hx hm, ih u (by simp at hs; omega), List.mem_cons]
    · rw [show s ++ [44] = s ++ 44 :: [] from rfl, comma_step hx hc, splitC_notMem hc]
      simp only [List.mem_singleton]
      constructor
      · rintro (h | h)
        · exact h
        · have := h.length_le; simp at this
      · exact .inl

theorem close_iff (v : Bytes) : contains b!",close," (b!"," ++ lower (replace1 32 [] v) ++ b!",") = true ↔
    b!"close" ∈ options v := by
  rw [contains_iff, options_eq, ← comma_mem (by decide) _ _ (Nat.le_refl _)]
  rfl

end Verif.Proofs.Head
