import Verif.Model.HttpParser
import Verif.Spec.HttpParser
import Verif.Py.Lemmas
/-! Helper lemmas for the head parser. -/
namespace Verif.Proofs.HttpParser
open Verif.Py Verif.Model.HttpParser Verif.Spec.HttpParser

/-! ### Lines -/

theorem crlfLinesAux_unfold : ∀ (s acc : Bytes), crlfLinesAux acc s =
    match find CRLF s with
    | none => []
    | some e => (acc.reverse ++ s.take e) :: crlfLinesAux [] (s.drop (e + 2)) := by
  intro s
  induction s with
  | nil => intro acc; simp [crlfLinesAux, find]
  | cons c t ih =>
    intro acc
    cases t with
    | nil => simp [crlfLinesAux, find, List.isPrefixOf]
    | cons d t =>
      rw [crlfLinesAux, find]
      by_cases h : c = 13 ∧ d = 10
      · obtain ⟨rfl, rfl⟩ := h
        simp [List.isPrefixOf]
      · have h' : List.isPrefixOf CRLF (c :: d :: t) = false := by
          simp [List.isPrefixOf]; intro hc hd; exact h ⟨hc.symm, hd.symm⟩
        simp only [h, h', if_false]
        rw [ih]
        cases hf : find CRLF (d :: t) with
        | none => simp
        | some e => simp

/-- The equation that ties `crlfLines` to the `find` loop of the source. -/
theorem crlfLines_unfold (s : Bytes) : crlfLines s =
    match find CRLF s with
    | none => []
    | some e => s.take e :: crlfLines (s.drop (e + 2)) := by
  unfold crlfLines; rw [crlfLinesAux_unfold]; simp

theorem crlfLines_cons {l r : Bytes} (h : (10 : UInt8) ∉ l) : crlfLines (l ++ CRLF ++ r) = l :: crlfLines r := by
  rw [crlfLines_unfold, find_crlf_append h]
  have h1 : (l ++ CRLF ++ r).take l.length = l := by simp
  have h2 : (l ++ CRLF ++ r).drop (l.length + 2) = r := by apply List.drop_left'; simp
  simp only [h1, h2]

theorem crlfLines_nil {s : Bytes} (h : ¬ CRLF <:+: s) : crlfLines s = [] := by
  rw [crlfLines_unfold, find_eq_none_iff'.2 h]

theorem crlfLines_headLines {head : Bytes} {ls : List Bytes} (h : HeadLines head ls) : crlfLines head = ls := by
  obtain ⟨tail, rfl, hl, ht⟩ := h
  induction ls with
  | nil => simpa using crlfLines_nil ht
  | cons l ls ih =>
    have := crlfLines_cons (l := l) (r := (ls.map (· ++ CRLF)).flatten ++ tail) (hl l (by simp))
    simp only [List.map_cons, List.flatten_cons, List.append_assoc] at this ⊢
    rw [this, ih (fun l h => hl l (by simp [h]))]

theorem headLines_of {n : Nat} : ∀ {head : Bytes}, head.length ≤ n → (∀ l ∈ crlfLines head, (10 : UInt8) ∉ l) →
    HeadLines head (crlfLines head) := by
  induction n with
  | zero =>
    intro head hn _
    have : head = [] := List.eq_nil_of_length_eq_zero (by omega)
    subst this
    exact ⟨[], by simp [crlfLines, crlfLinesAux], by simp [crlfLines, crlfLinesAux], by decide⟩
  | succ n ih =>
    intro head hn hl
    rw [crlfLines_unfold] at hl ⊢
    cases hf : find CRLF head with
    | none => exact ⟨head, by simp, by simp, find_eq_none_iff'.1 hf⟩
    | some e =>
      rw [hf] at hl
      simp only at hl ⊢
      have hlen := find_some_length hf
      obtain ⟨tail, h1, h2, h3⟩ := ih (head := head.drop (e + 2)) (by simp at hlen ⊢; omega)
        (fun l h => hl l (by simp [h]))
      refine ⟨tail, ?_, fun l h => ?_, h3⟩
      · have hs := find_split hf
        simp only [List.map_cons, List.flatten_cons, List.append_assoc]
        rw [← h1]
        simpa using hs
      · rcases List.mem_cons.1 h with rfl | h
        · exact hl _ (by simp)
        · exact h2 _ h

/-! ### `rfind`, `split` -/

theorem rfind_some {pat : Bytes} (hp : pat ≠ []) : ∀ {s : Bytes} {n : Nat}, rfind pat s = some n →
    pat <+: s.drop n ∧ ∀ m, n < m → ¬ pat <+: s.drop m
  | [], n, h => by simp [rfind, hp] at h
  | c :: t, n, h => by
    rw [rfind] at h
    cases hr : rfind pat t with
    | some k =>
      rw [hr] at h; simp at h; subst h
      obtain ⟨h1, h2⟩ := rfind_some hp hr
      refine ⟨by simpa using h1, fun m hm => ?_⟩
      obtain ⟨m, rfl⟩ : ∃ k, m = k + 1 := ⟨m - 1, by omega⟩
      simpa using h2 m (by omega)
    | none =>
      rw [hr] at h
      simp only at h
      split at h
      · rename_i hpre
        simp at h; subst h
        refine ⟨by simpa using isPrefixOf_iff.1 hpre, fun m hm => ?_⟩
        obtain ⟨m, rfl⟩ : ∃ k, m = k + 1 := ⟨m - 1, by omega⟩
        simpa using rfind_none_aux hp hr m
      · cases h
where
  rfind_none_aux {pat : Bytes} (hp : pat ≠ []) : ∀ {s : Bytes}, rfind pat s = none → ∀ m, ¬ pat <+: s.drop m
  | [], _, m => by simpa using hp
  | c :: t, h, m => by
    rw [rfind] at h
    cases hr : rfind pat t with
    | some k => rw [hr] at h; simp at h
    | none =>
      rw [hr] at h
      simp only at h
      split at h
      · cases h
      · rename_i hn
        cases m with
        | zero => intro hc; exact hn (isPrefixOf_iff.2 (by simpa using hc))
        | succ m => simpa using rfind_none_aux hp hr m

theorem rfind_none {pat : Bytes} (hp : pat ≠ []) {s : Bytes} (h : rfind pat s = none) (m : Nat) : ¬ pat <+: s.drop m :=
  rfind_some.rfind_none_aux hp h m

theorem rfind_eq {pat : Bytes} (hp : pat ≠ []) {s : Bytes} {n : Nat} (h1 : pat <+: s.drop n)
    (h2 : ∀ m, n < m → ¬ pat <+: s.drop m) : rfind pat s = some n := by
  cases h : rfind pat s with
  | none => exact absurd h1 (rfind_none hp h n)
  | some k =>
    obtain ⟨a, b⟩ := rfind_some hp h
    rcases Nat.lt_trichotomy n k with hl | he | hg
    · exact absurd a (h2 k hl)
    · rw [he]
    · exact absurd h1 (b n hg)

/-- `HTTP/` does not overlap itself, so the last occurrence is the one before a version without `HTTP/`. -/
theorem rfind_http {a v : Bytes} (hv : ¬ b!"HTTP/" <:+: v) : rfind b!"HTTP/" (a ++ b!"HTTP/" ++ v) = some a.length := by
  apply rfind_eq (by simp)
  · simp
  · intro m hm hpre
    obtain ⟨k, rfl⟩ : ∃ k, m = a.length + k := ⟨m - a.length, by omega⟩
    rw [List.append_assoc, List.drop_length_add_append] at hpre
    have hk : 0 < k := by omega
    rcases k with _ | _ | _ | _ | _ | k
    · omega
    · simp at hpre
    · simp at hpre
    · simp at hpre
    · simp at hpre
    · simp at hpre
      exact hv (hpre.isInfix.trans (List.drop_suffix k v).isInfix)

theorem splitByte_zero (c : UInt8) (s : Bytes) : splitByte c 0 s = [s] := by cases s <;> simp [splitByte]

theorem splitByte_notMem {c : UInt8} {s : Bytes} (h : c ∉ s) (n : Nat) : splitByte c n s = [s] := by
  cases n with
  | zero => exact splitByte_zero c s
  | succ n =>
    induction s with
    | nil => simp [splitByte]
    | cons x t ih =>
      have hx : x ≠ c := fun e => h (by simp [e])
      simp [splitByte, hx, ih (fun h' => h (by simp [h']))]

theorem splitByte_cons {c : UInt8} {m u : Bytes} (h : c ∉ m) (n : Nat) :
    splitByte c (n + 1) (m ++ c :: u) = m :: splitByte c n u := by
  induction m with
  | nil => simp [splitByte]
  | cons x t ih =>
    have hx : x ≠ c := fun e => h (by simp [e])
    simp [splitByte, hx, ih (fun h' => h (by simp [h']))]

theorem mem_split_first {c : UInt8} {s : Bytes} (h : c ∈ s) : ∃ m u, s = m ++ c :: u ∧ c ∉ m := by
  induction s with
  | nil => cases h
  | cons x t ih =>
    by_cases hx : x = c
    · exact ⟨[], t, by simp [hx], by simp⟩
    · obtain ⟨m, u, rfl, hm⟩ := ih (by simpa [Ne.symm hx] using h)
      exact ⟨x :: m, u, by simp, by simp [hm, Ne.symm hx]⟩

/-! ### Start line -/

theorem startLine_req {l m u v : Bytes} (h : IsRequestLine l m u v) (p : Parsed) :
    startLine l p = { p with
      isRequest := true, validReq := true,
      headers := hset (hset (hset (hset p.headers kMethod (.one m)) kUrl (.one u)) kVersion (.one v)) kLine (.one l) } := by
  obtain ⟨rfl, hm, hv⟩ := h
  have e : m ++ b!" " ++ u ++ b!" HTTP/" ++ v = (m ++ 32 :: (u ++ [32])) ++ b!"HTTP/" ++ v := by simp
  unfold startLine
  rw [e, rfind_http hv]
  have hlen : (m ++ 32 :: (u ++ [32])).length = m.length + u.length + 2 := by simp; omega
  rw [hlen]
  simp only
  have h1 : ((m ++ 32 :: (u ++ [32])) ++ b!"HTTP/" ++ v)[m.length + u.length + 2 - 1]? = some 32 := by
    rw [List.append_assoc, List.getElem?_append_left (by simp; omega), List.getElem?_append_right (by omega)]
    have : m.length + u.length + 2 - 1 - m.length = u.length + 1 := by omega
    rw [this]; simp
  rw [if_pos ⟨by omega, h1⟩]
  unfold reqLine
  have h2 : ((m ++ 32 :: (u ++ [32])) ++ b!"HTTP/" ++ v).take (m.length + u.length + 2 - 1) = m ++ 32 :: u := by
    have : (m ++ 32 :: (u ++ [32])) ++ b!"HTTP/" ++ v = (m ++ 32 :: u) ++ (32 :: (b!"HTTP/" ++ v)) := by simp
    rw [this, List.take_append_of_le_length (by simp; omega), List.take_of_length_le (by simp; omega)]
  have h3 : ((m ++ 32 :: (u ++ [32])) ++ b!"HTTP/" ++ v).drop (m.length + u.length + 2 + 5) = v := by
    apply List.drop_left'; simp; omega
  rw [h2, h3, splitByte_cons hm 0, splitByte_zero]

theorem startLine_notReq {l : Bytes} (h : ¬ ∃ m u v, IsRequestLine l m u v) (p : Parsed) (hp : p.validReq = false) :
    (startLine l p).validReq = false := by
  unfold startLine
  simp only
  split
  · unfold respLine; simp only; split
    · split <;> simp [hp]
    · simp [hp]
  · rename_i n hn0 hf
    split
    · rename_i hc
      obtain ⟨h1, h2⟩ := hc
      unfold reqLine
      simp only
      split
      · rename_i m u hs
        exfalso; apply h
        obtain ⟨⟨v, hv⟩, hlast⟩ := rfind_some (by simp) hf
        have hsp : (32 : UInt8) ∈ l.take (n - 1) := by
          apply Classical.byContradiction; intro hno
          rw [splitByte_notMem hno] at hs; simp at hs
        obtain ⟨m', u', e, hm'⟩ := mem_split_first hsp
        refine ⟨m', u', v, ?_, hm', ?_⟩
        · have hsplit : l = l.take (n - 1) ++ (32 :: l.drop n) := by
            have hlt : n - 1 < l.length := by
              rcases List.getElem?_eq_some_iff.1 h2 with ⟨hh, _⟩; exact hh
            have := List.drop_eq_getElem_cons hlt
            have e2 : l[n - 1] = 32 := by
              rcases List.getElem?_eq_some_iff.1 h2 with ⟨_, hh⟩; exact hh
            rw [e2, show n - 1 + 1 = n by omega] at this
            rw [← this, List.take_append_drop]
          rw [hsplit, e, ← hv]; simp
        · intro hin
          obtain ⟨a, b, hab⟩ := hin
          apply hlast (n + 5 + a.length) (by omega)
          rw [← List.drop_drop, ← List.drop_drop, ← hv, ← hab]
          simp
      · simp [hp]
    · simp [hp]
  · simp [hp]

/-! ### Field lines -/

theorem splitField_ok {l n v : Bytes} (h : IsFieldLine l n v) :
    splitField l = some (lower n, if startsWith v [32] then v.drop 1 else v) := by
  obtain ⟨rfl, hne, hc, hl⟩ := h
  obtain ⟨a, t, rfl⟩ := List.exists_cons_of_ne_nil hne
  simp only [List.tail_cons] at hc
  unfold splitField
  have hf : findFrom [58] (a :: t ++ b!":" ++ v) 1 = some (t.length + 1) := by
    unfold findFrom
    rw [if_neg (by simp)]
    have : (a :: t ++ b!":" ++ v).drop 1 = t ++ 58 :: v := by simp
    rw [this, find_byte_append hc]; rfl
  rw [hf]
  simp only [Nat.add_sub_cancel]
  have h1 : (a :: t ++ b!":" ++ v)[t.length]? = (a :: t).getLast? := by
    rw [List.getLast?_eq_getElem?, List.append_assoc, List.getElem?_append_left (by simp)]; simp
  rw [h1, if_pos hl]
  have h2 : (a :: t ++ b!":" ++ v).drop (t.length + 1 + 1) = v := by apply List.drop_left'; simp
  have h3 : (a :: t ++ b!":" ++ v).take (t.length + 1) = a :: t := by
    rw [List.append_assoc]; apply List.take_left'; simp
  rw [h2, h3]

theorem splitField_some {l : Bytes} {q : Bytes × Bytes} (h : splitField l = some q) : ∃ n v, IsFieldLine l n v ∧
    q = (lower n, if startsWith v [32] then v.drop 1 else v) := by
  unfold splitField at h
  cases hf : findFrom [58] l 1 with
  | none => rw [hf] at h; cases h
  | some c =>
    rw [hf] at h
    simp only at h
    split at h
    · rename_i hlast
      simp only [Option.some.injEq] at h
      unfold findFrom at hf
      split at hf
      · cases hf
      · rename_i hlen
        obtain ⟨a, t, rfl⟩ := List.exists_cons_of_ne_nil (l := l) (by intro e; subst e; simp at hlen)
        simp only [List.drop_succ_cons, List.drop_zero, Option.map_eq_some_iff] at hf
        obtain ⟨k, hk, rfl⟩ := hf
        obtain ⟨hno, e⟩ := find_byte_some hk
        have hkl : k ≤ t.length := by have := find_some_length hk; simp at this; omega
        refine ⟨a :: t.take k, t.drop (k + 1), ⟨?_, by simp, by simpa using hno, ?_⟩, ?_⟩
        · simpa using e
        · simp only [Nat.add_sub_cancel] at hlast
          have : (a :: t.take k).getLast? = (a :: t)[k]? := by
            rw [List.getLast?_eq_getElem?]
            simp [Nat.min_eq_left hkl]
            cases k with
            | zero => simp
            | succ k => simp
          rw [this]; exact hlast
        · rw [← h]; simp
    · cases h

/-! ### The loop -/

/-- Line limits. -/
def LineOk (mls : Nat) (l : Bytes) : Prop := l.length ≤ mls ∧ (10 : UInt8) ∉ l

/-- Effect of a list of fields on the parser object. -/
def applyFields (ex : List Bytes) (p : Parsed) (ps : List (Bytes × Bytes)) : Parsed :=
  { p with
    headers := ps.foldl (fun h q => addField h q.1 q.2) p.headers
    list := p.list ++ ps.filter (fun q => ¬ q.1 ∈ ex) }

theorem applyFields_cons (ex : List Bytes) (p : Parsed) (q : Bytes × Bytes) (ps : List (Bytes × Bytes)) :
    applyFields ex p (q :: ps) = applyFields ex { p with
            headers := addField p.headers q.1 q.2
            list := if q.1 ∈ ex then p.list else p.list ++ [q] } ps := by
  unfold applyFields
  by_cases h : q.1 ∈ ex <;> simp [h]

theorem loop_ok {ex : List Bytes} {mls : Nat} : ∀ {lines : List Bytes} {ps : List (Bytes × Bytes)} {left : Nat} {p : Parsed},
    lines.length ≤ left → (∀ l ∈ lines, LineOk mls l) → lines.map splitField = ps.map some →
    parseLoop ex mls false left p lines = finish (applyFields ex p ps) := by
  intro lines
  induction lines with
  | nil =>
    intro ps left p _ _ hs
    cases ps with
    | nil => simp [parseLoop, applyFields]
    | cons => simp at hs
  | cons l ls ih =>
    intro ps left p hl hok hs
    cases ps with
    | nil => simp at hs
    | cons q ps =>
      simp only [List.map_cons, List.cons.injEq] at hs
      obtain ⟨h1, h2⟩ := hok l (by simp)
      simp only [List.length_cons] at hl
      rw [parseLoop, if_neg (by
        intro hc; rcases hc with hc | hc | hc
        · omega
        · omega
        · exact h2 (contains_singleton.1 hc))]
      simp only [Bool.false_eq_true, if_false, hs.1]
      rw [ih (by omega) (fun l h => hok l (by simp [h])) hs.2, applyFields_cons]

theorem finish_valid (p : Parsed) : (finish p).validReq = (p.validReq &&
    !(p.isRequest && !hmem p.headers kHost && (hget p.headers kVersion == some (.one b!"1.1")))) := by
  unfold finish
  by_cases h : p.isRequest && !hmem p.headers kHost
  · rw [if_pos h, h]; simp
  · rw [if_neg h]; simp only [Bool.not_eq_true] at h; rw [h]; simp

theorem loop_valid {ex : List Bytes} {mls : Nat} : ∀ {lines : List Bytes} {left : Nat} {p : Parsed},
    (parseLoop ex mls false left p lines).validReq = true →
    p.validReq = true ∧ lines.length ≤ left ∧ (∀ l ∈ lines, LineOk mls l) ∧
      ∃ ps : List (Bytes × Bytes), lines.map splitField = ps.map some := by
  intro lines
  induction lines with
  | nil =>
    intro left p h
    rw [parseLoop, finish_valid] at h
    simp only [Bool.and_eq_true] at h
    exact ⟨h.1, by simp, by simp, [], rfl⟩
  | cons l ls ih =>
    intro left p h
    rw [parseLoop] at h
    split at h
    · simp at h
    · rename_i hn
      simp only [Bool.false_eq_true, if_false] at h
      split at h
      · rename_i n v hs
        obtain ⟨a, b, c, ps, d⟩ := ih h
        simp only [not_or, Nat.not_lt] at hn
        refine ⟨a, by simp; omega, ?_, (n, v) :: ps, by simp [hs, d]⟩
        intro l' hl'
        rcases List.mem_cons.1 hl' with rfl | hl'
        · exact ⟨by omega, fun hc => hn.2.2 (contains_singleton.2 hc)⟩
        · exact c l' hl'
      · rw [finish_valid] at h; simp at h

/-! ### The dictionary -/

theorem hget_nil (k : Bytes) : hget [] k = none := rfl

theorem hget_hset (d : HDict) (k k' : Bytes) (v : HVal) : hget (hset d k v) k' = if k = k' then some v else hget d k' := by
  induction d with
  | nil => by_cases h : k = k' <;> simp [hset, hget, h]
  | cons q t ih =>
    obtain ⟨a, w⟩ := q
    unfold hset
    by_cases e : a = k
    · subst e
      by_cases h : a = k' <;> simp [hget, h]
    · simp only [e, if_false]
      unfold hget at ih ⊢
      by_cases h : a = k'
      · subst h
        simp [Ne.symm e]
      · simp [h, ih]

theorem hget_hset_self (d : HDict) (k : Bytes) (v : HVal) : hget (hset d k v) k = some v := by simp [hget_hset]
theorem hget_hset_ne (d : HDict) {k k' : Bytes} (v : HVal) (h : k ≠ k') : hget (hset d k v) k' = hget d k' := by
  simp [hget_hset, h]

/-- value of a key after adding further values -/
def addVal : Option HVal → Bytes → Option HVal
  | none, v => some (.one v)
  | some (.one w), v => some (.many [w, v])
  | some (.many ws), v => some (.many (ws ++ [v]))
  | some (.num _), v => some (.many [[], v])

theorem hget_addField (d : HDict) (n v k : Bytes) :
    hget (addField d n v) k = if n = k then addVal (hget d n) v else hget d k := by
  unfold addField
  cases h : hget d n with
  | none => simp [hget_hset, addVal]
  | some w => cases w <;> simp [hget_hset, addVal]

theorem hget_fold (ps : List (Bytes × Bytes)) (d : HDict) (k : Bytes) :
    hget (ps.foldl (fun h q => addField h q.1 q.2) d) k = (valuesOf ps k).foldl addVal (hget d k) := by
  induction ps generalizing d with
  | nil => simp [valuesOf]
  | cons q ps ih =>
    rw [List.foldl_cons, ih, hget_addField]
    by_cases h : q.1 = k
    · simp [valuesOf, h]
    · simp [valuesOf, h]

theorem fold_many (vs ws : List Bytes) : vs.foldl addVal (some (.many ws)) = some (.many (ws ++ vs)) := by
  induction vs generalizing ws with
  | nil => simp
  | cons v vs ih => simp [addVal, ih]

/-- The value an application reads for a name with the given occurrences. -/
theorem fold_none (vs : List Bytes) : vs.foldl addVal none =
    match vs with | [] => none | [v] => some (.one v) | vs => some (.many vs) := by
  match vs with
  | [] => rfl
  | [v] => rfl
  | v :: w :: vs => simp [addVal, fold_many]

theorem valuesOf_eq_nil {ps : List (Bytes × Bytes)} {k : Bytes} : valuesOf ps k = [] ↔ ∀ q ∈ ps, q.1 ≠ k := by
  simp [valuesOf, List.filter_eq_nil_iff]

theorem fold_isSome (vs : List Bytes) (o : Option HVal) : (vs.foldl addVal o).isSome = (o.isSome || !vs.isEmpty) := by
  induction vs generalizing o with
  | nil => simp
  | cons v vs ih =>
    rw [List.foldl_cons, ih]
    have : (addVal o v).isSome = true := by rcases o with _ | _ | _ | _ <;> rfl
    simp [this]

end Verif.Proofs.HttpParser
