import Verif.Model.Files
import Verif.Spec.Files
import Verif.Props.HttpParser
/-!
# Lemmas on `files`
-/
namespace Verif.Proofs.Files
open Verif.Py Verif.Model.BodyStream Verif.Model.HttpParser Verif.Model.Files Verif.Spec.HttpParser Verif.Spec.Files
open Verif.Proofs.HttpParser

/-! ### The loop and its fuel -/

theorem loop_mono (b : Bytes) : ∀ (fuel k limit : Nat) (want : Option Nat) (r : Reader) (l : Loc),
    (loop b fuel limit want r l).2.1 ≠ .fuel → loop b (fuel + k) limit want r l = loop b fuel limit want r l := by
  intro fuel
  induction fuel with
  | zero => intro k limit want r l h; exact absurd rfl h
  | succ fuel ih =>
    intro k limit want r l h
    rw [show fuel + 1 + k = (fuel + k) + 1 by omega]
    unfold loop at h ⊢
    split
    · rfl
    · next hc =>
      rw [if_neg hc] at h
      cases hp : pass b r l with
      | stop e r => rfl
      | cont r l => rw [hp] at h; dsimp only at h ⊢; exact ih _ _ _ _ _ h
      | yield i d r r' l' =>
        rw [hp] at h
        dsimp only at h ⊢
        split
        · rfl
        · next hw => rw [if_neg hw] at h; dsimp only at h; rw [ih _ _ _ _ _ h]

/-- How many passes at most until the next read or part. -/
def rank (l : Loc) : Nat :=
  if l.paused then (if l.header then 4 else 5)
  else if l.hs1 || l.neg then (if l.header then 1 else 0)
  else if l.header then 2 else 3

theorem rank_le (l : Loc) : rank l ≤ 5 := by
  unfold rank; repeat' split
  all_goals omega

theorem fetch_cases {r : Reader} {l : Loc} {x : Bytes × Reader} (h : Model.Files.fetch r l = .ok x) :
    (l.paused = true ∧ x = ([], r)) ∨ (l.paused = false ∧ ∃ d p, r.gen.pieces = d :: p ∧ x = (d, { r with gen := ⟨p, r.gen.out⟩ })) ∨
    (l.paused = false ∧ r.gen = ⟨[], .done⟩ ∧ l.hs1 = false ∧ l.neg = false ∧ x = ([], { r with eof := true })) := by
  unfold Model.Files.fetch at h
  split at h
  · next hp => cases h; exact .inl ⟨hp, rfl⟩
  · next hp =>
    have hp : l.paused = false := by simpa using hp
    split at h
    · next d p o hg => cases h; exact .inr (.inl ⟨hp, d, p, by rw [hg], by rw [hg]⟩)
    · next hg =>
      split at h
      · cases h
      · next hf =>
        cases h
        simp only [Bool.or_eq_true, not_or, Bool.not_eq_true] at hf
        exact .inr (.inr ⟨hp, hg, hf.1, hf.2, rfl⟩)
    · cases h

theorem loop_terminates (b : Bytes) : ∀ (fuel limit : Nat) (want : Option Nat) (r : Reader) (l : Loc),
    6 * limit + 6 * r.gen.pieces.length + rank l < fuel → (loop b fuel limit want r l).2.1 ≠ .fuel := by
  intro fuel
  induction fuel with
  | zero => intro limit want r l h; omega
  | succ fuel ih =>
    intro limit want r l h
    unfold loop
    split
    · simp
    · next hc =>
      have hlim : 0 < limit := by omega
      unfold pass
      cases hf : Model.Files.fetch r l with
      | error e => 
        dsimp only
        unfold Model.Files.fetch at hf
        repeat' split at hf
        all_goals (cases hf; try simp)
      | ok x =>
        obtain ⟨data, r1⟩ := x
        dsimp only
        have key : ∀ l' : Loc, ∀ r2 : Reader, r2.gen = r1.gen → (l'.paused = l.paused ∨ l'.paused = false) →
            ((l'.header = true ∧ l.header = false ∧ l'.hs1 = false ∧ l'.neg = l.neg) ∨
              (l'.header = l.header ∧ l'.paused = false ∧ (l'.hs1 || l'.neg) = true)) →
            6 * limit + 6 * r2.gen.pieces.length + rank l' < fuel := by
          intro l' r2 h1 h2 h3
          rw [h1]
          have := rank_le l'
          rcases fetch_cases hf with ⟨a, e⟩ | ⟨a, d, p, e1, e⟩ | ⟨a, e1, f1, f2, e⟩
          · cases e
            have : rank l' < rank l := by
              unfold rank
              rcases h3 with ⟨x1, x2, x3, x4⟩ | ⟨x1, x2, x3⟩
              · rw [a, x1, x2, x3, x4]; simp; cases l.neg <;> repeat' split
                all_goals first | omega | simp_all
              · rw [a, x1, x2, x3]; simp; split <;> omega
            omega
          · cases e
            rw [e1] at h
            simp only [List.length_cons] at h
            dsimp only
            omega
          · cases e
            have : rank l' < rank l := by
              unfold rank
              rcases h3 with ⟨x1, x2, x3, x4⟩ | ⟨x1, x2, x3⟩
              · have hp : l'.paused = false := by rcases h2 with h2 | h2 <;> simp [h2, a]
                rw [a, x1, x2, x3, x4, hp, f1, f2]; simp
              · rw [a, x1, x2, x3, f1, f2]; simp; split <;> omega
            dsimp only
            rw [e1] at h ⊢
            dsimp only at h ⊢
            omega
        have hr1 : r1.gen.pieces.length ≤ r.gen.pieces.length := by
          rcases fetch_cases hf with ⟨a, e⟩ | ⟨a, d, p, e1, e⟩ | ⟨a, e1, f1, f2, e⟩
          · cases e; exact Nat.le_refl _
          · cases e; rw [e1]; simp
          · cases e; exact Nat.le_refl _
        cases hh : l.header with
        | true =>
          simp only [if_true]
          unfold bodyPass
          dsimp only
          split
          · next r' l' hx =>
            split at hx <;> cases hx
          · next r' l' hx =>
            split at hx
            · cases hx
              exact ih _ _ _ _ (key _ _ rfl (.inr rfl) (.inr ⟨rfl, rfl, by simp⟩))
            · cases hx
          · next i d r2 r' l' hx =>
            split at hx
            · cases hx
            · cases hx
              split
              · simp
              · refine ih _ _ _ _ ?_
                have := rank_le { l with header := false, body := [], neg := false, cl := 0, paused := true }
                dsimp only
                omega
        | false =>
          simp only [Bool.false_eq_true, if_false]
          unfold headPass
          dsimp only
          split
          · next e r' hx =>
            repeat' split at hx
            all_goals (cases hx; try simp)
          · next r' l' hx =>
            split at hx
            · split at hx
              · cases hx
              · cases hx
                exact ih _ _ _ _ (key _ _ rfl (.inr rfl) (.inr ⟨by rfl, rfl, by simp⟩))
            · split at hx
              · split at hx
                · cases hx
                · cases hx
                  exact ih _ _ _ _ (key _ _ rfl (.inl rfl) (.inl ⟨rfl, hh, rfl, rfl⟩))
              · cases hx
                exact ih _ _ _ _ (key _ _ rfl (.inl rfl) (.inl ⟨rfl, hh, rfl, rfl⟩))
          · next hx =>
            repeat' split at hx
            all_goals cases hx

/-- A result found with any number of passes is that of `files`. -/
theorem files_of {b : Bytes} {limit F : Nat} {want : Option Nat} {r : Reader} {x : List (Info × Bytes) × End × Reader}
    (he : r.isEof = false) (h : loop b F limit want r {} = x) (hx : x.2.1 ≠ .fuel) : files b limit r want = x := by
  have ht := loop_terminates b (filesFuel limit r) limit want r {} (by
    have : rank {} = 3 := rfl
    unfold filesFuel; omega)
  unfold files
  rw [he]
  simp only [Bool.false_eq_true, if_false]
  rw [← loop_mono _ _ F _ _ _ _ ht, Nat.add_comm, loop_mono _ _ _ _ _ _ _ (by rw [h]; exact hx), h]

/-! ### Finding the delimiter -/

/-- Searching the delimiter in a beginning of `content ++ delimiter ++ w`. -/
theorem find_delim {b content w body : Bytes} {cl : Nat} (hb : (13 : UInt8) ∉ b)
    (h : cl = content.length ∨ (cl = 0 ∧ ¬ delimiter b <:+: content)) (hp : body <+: content ++ delimiter b ++ w) :
    findFrom (delimiter b) body cl = if content.length + (delimiter b).length ≤ body.length then some content.length else none := by
  have hd : (delimiter b) = 13 :: 10 :: 45 :: 45 :: b := rfl
  have hd0 : 0 < (delimiter b).length := by rw [hd]; simp
  obtain ⟨t, ht⟩ := hp
  -- the delimiter at the end of the content
  have at_end : content.length + (delimiter b).length ≤ body.length → delimiter b <+: body.drop content.length := by
    intro hl
    refine List.prefix_of_prefix_length_le (l₃ := (body ++ t).drop content.length) ?_ ?_ ?_
    · rw [ht, List.append_assoc, List.drop_left]; exact ⟨w, rfl⟩
    · rw [List.drop_append_of_le_length (by omega)]; exact ⟨t, rfl⟩
    · rw [List.length_drop]; omega
  unfold findFrom
  rcases h with rfl | ⟨rfl, hno⟩
  · by_cases hl : content.length + (delimiter b).length ≤ body.length
    · rw [if_neg (by omega), if_pos hl]
      have : find (delimiter b) (body.drop content.length) = some 0 := find_eq_some_iff.2 ⟨by simp, by simpa using at_end hl, by simp⟩
      rw [this]; simp
    · rw [if_neg hl]
      split
      · rfl
      · have : find (delimiter b) (body.drop content.length) = none := by
          rw [find_eq_none_iff]
          intro m hm hpre
          have h1 := hpre.length_le
          have h2 := List.length_drop (i := m) (l := body.drop content.length)
          have h3 := List.length_drop (i := content.length) (l := body)
          have hle : (body.drop content.length).length < (delimiter b).length := by omega
          omega
        rw [this]; rfl
  · rw [if_neg (by omega)]
    simp only [List.drop_zero, Nat.add_zero, Option.map_id']
    -- no earlier occurrence
    have before : ∀ m, m < content.length → ¬ delimiter b <+: body.drop m := by
      intro m hm hpre
      have hpre' : delimiter b <+: (content ++ delimiter b ++ w).drop m := by
        rw [← ht]
        by_cases hml : m ≤ body.length
        · rw [List.drop_append_of_le_length hml]; exact hpre.trans (List.prefix_append _ _)
        · rw [List.drop_eq_nil_of_le (by omega)] at hpre
          have := hpre.length_le
          rw [List.length_nil] at this; omega
      rw [List.append_assoc, List.drop_append_of_le_length (by omega)] at hpre'
      obtain ⟨v, hv⟩ := hpre'
      have hlen : (content.drop m).length = content.length - m := List.length_drop
      by_cases hk : (delimiter b).length ≤ content.length - m
      · apply hno
        have e : delimiter b <+: content.drop m := by
          have : (delimiter b) = (content.drop m).take (delimiter b).length := by
            have h1 := congrArg (List.take (delimiter b).length) hv
            rw [List.take_left, List.take_append_of_le_length (by omega)] at h1
            exact h1
          rw [this]; exact List.take_prefix _ _
        obtain ⟨x, hx⟩ := e
        exact ⟨content.take m, x, by rw [List.append_assoc, hx, List.take_append_drop]⟩
      · -- overlap: the first byte of the delimiter occurs again in it
        have h13 : (delimiter b)[content.length - m]? = some 13 := by
          have h1 := congrArg (fun l => l[content.length - m]?) hv
          rw [List.getElem?_append_left (by omega), List.getElem?_append_right (by omega), hlen, Nat.sub_self] at h1
          rw [h1, hd]; rfl
        have hmem : ∀ k, 0 < k → (delimiter b)[k]? ≠ some 13 := by
          intro k hk0 hk
          rw [hd] at hk
          match k, hk0 with
          | 1, _ => simp at hk
          | 2, _ => simp at hk
          | 3, _ => simp at hk
          | k + 4, _ =>
            simp only [List.getElem?_cons_succ] at hk
            exact hb (List.mem_of_getElem? hk)
        exact hmem _ (by omega) h13
    by_cases hl : content.length + (delimiter b).length ≤ body.length
    · rw [if_pos hl]
      exact find_eq_some_iff.2 ⟨by omega, at_end hl, before⟩
    · rw [if_neg hl, find_eq_none_iff]
      intro m hm hpre
      by_cases hmc : m < content.length
      · exact before m hmc hpre
      · have := hpre.length_le
        rw [List.length_drop] at this
        omega

/-! ### A part's header -/

theorem head_eq (b : Bytes) (p : Part) :
    p.head b = (((b!"--" ++ b) :: p.fields.map Field.line).map (· ++ CRLF)).flatten ++ CRLF := by
  simp [Part.head, Function.comp_def]

theorem _root_.Verif.Spec.Files.Part.Ok.legal {b : Bytes} {p : Part} (hp : p.Ok b) : p.Legal b := ⟨hp.fields, hp.count, hp.size⟩

theorem find_head {b : Bytes} (hb : BoundaryOk b) {p : Part} (hp : p.Legal b) (w : Bytes) :
    find CRLF2 (p.head b ++ w) = some ((p.head b).length - 4) := by
  rw [head_eq, find_blank_lines]
  · simp only [List.length_append]; rfl
  · simp
  · intro l hl
    rcases List.mem_cons.1 hl with rfl | hl
    · exact ⟨by simp [hb.lf], by simp⟩
    · obtain ⟨f, hf, rfl⟩ := List.mem_map.1 hl
      exact ⟨Field.lf (hp.fields f hf), Field.line_ne⟩

theorem head_length (b : Bytes) (p : Part) : b.length + 6 ≤ (p.head b).length := by
  simp [Part.head]

/-- Searching the blank line in a beginning of a part. -/
theorem find_head_prefix {b : Bytes} (hb : BoundaryOk b) {p : Part} (hp : p.Legal b) {w buf : Bytes} (h : buf <+: p.head b ++ w) :
    find CRLF2 buf = if (p.head b).length ≤ buf.length then some ((p.head b).length - 4) else none := by
  obtain ⟨t, ht⟩ := h
  have hf := find_head hb hp w
  rw [← ht] at hf
  have h4 := head_length b p
  split
  · next hl => exact find_of_append hf (by show _ + 4 ≤ _; omega)
  · next hl =>
    cases hn : find CRLF2 buf with
    | none => rfl
    | some n =>
      have := find_append (t := t) hn
      rw [hf] at this
      have h2 := find_some_length hn
      simp only [Option.some.injEq] at this
      have : n + 4 ≤ buf.length := h2
      omega

theorem hget_startLine (l : Bytes) {k : Bytes} (hk : k.head? ≠ some 95) (body : Bytes) :
    hget (startLine l { body := body }).headers k = none := by
  have e : ∀ (d : HDict) (k' : Bytes) (v : HVal), k'.head? = some 95 → hget (hset d k' v) k = hget d k := by
    intro d k' v h'
    exact hget_hset_ne d v (by rintro rfl; exact hk h')
  unfold startLine
  dsimp only
  rw [e _ _ _ rfl]
  split
  · unfold respLine
    dsimp only
    split
    · split
      · simp only; rw [e _ _ _ rfl, e _ _ _ rfl, e _ _ _ rfl]; rfl
      · simp only; rw [e _ _ _ rfl, e _ _ _ rfl, e _ _ _ rfl, e _ _ _ rfl, e _ _ _ rfl]; rfl
    · simp only; rw [e _ _ _ rfl, e _ _ _ rfl, e _ _ _ rfl]; rfl
  · split
    · unfold reqLine
      dsimp only
      split
      · simp only; rw [e _ _ _ rfl, e _ _ _ rfl, e _ _ _ rfl]; rfl
      · simp only; rw [e _ _ _ rfl, e _ _ _ rfl, e _ _ _ rfl]; rfl
    · rfl
  · rfl

/-- What the parser finds in a part's header. -/
theorem parse_part {b : Bytes} (hb : BoundaryOk b) {p : Part} (hp : p.Legal b) (w : Bytes) {k : Bytes} (h1 : k.head? ≠ some 95) (h2 : k ≠ kHost) :
    hget (parse (p.head b ++ w) ((p.head b).length - 2)).headers k =
      match (p.fields.filter (fun f => lower f.name = k)).map Field.value with | [] => none | [v] => some (.one v) | vs => some (.many vs) := by
  have hlines : crlfLines ((p.head b ++ w).take ((p.head b).length - 2)) = (b!"--" ++ b) :: p.fields.map Field.line := by
    apply crlfLines_headLines
    refine ⟨[], ?_, ?_, by decide⟩
    · have h4 := head_length b p
      rw [List.take_append_of_le_length (by omega), List.append_nil]
      conv => lhs; arg 2; rw [head_eq]
      rw [show (p.head b).length - 2 = ((((b!"--" ++ b) :: p.fields.map Field.line).map (· ++ CRLF)).flatten).length by
        rw [head_eq]; simp only [List.length_append]; rfl]
      exact List.take_left
    · intro l hl
      rcases List.mem_cons.1 hl with rfl | hl
      · simp [hb.lf]
      · obtain ⟨f, hf, rfl⟩ := List.mem_map.1 hl
        exact Field.lf (hp.fields f hf)
  have hsz := hp.size
  have hfl : ∀ f ∈ p.fields, f.line.length + 2 + b.length + 6 ≤ (p.head b).length := by
    intro f hf
    obtain ⟨s, t, e⟩ := List.append_of_mem hf
    simp [Part.head, e]
    omega
  unfold parse
  rw [hlines, parseLoop, if_neg, if_pos rfl, loop_ok (ps := p.fields.map (fun f => (lower f.name, f.value)))]
  · rw [finish_hget _ _ h2]
    unfold applyFields
    dsimp only
    rw [hget_fold, hget_startLine _ h1, fold_none]
    congr 1
    unfold valuesOf
    rw [List.filter_map, List.map_map]
    rfl
  · have := hp.count; simp; omega
  · intro l hl
    obtain ⟨f, hf, rfl⟩ := List.mem_map.1 hl
    refine ⟨?_, Field.lf (hp.fields f hf)⟩
    have := hfl f hf
    omega
  · simp only [List.map_map]
    apply List.map_congr_left
    intro f hf
    exact Field.splitField (hp.fields f hf)
  · intro hc
    rcases hc with hc | hc | hc
    · omega
    · have := head_length b p
      simp at hc; omega
    · exact (by simp [hb.lf] : (10 : UInt8) ∉ b!"--" ++ b) (contains_singleton.1 hc)

theorem count_replace : ∀ (n : Nat) (s : Bytes), s.length ≤ n →
    count1 38 (replaceAux b!"; " b!"&" 0 s) + count1 59 (replaceAux b!"; " b!"&" 0 s) = count1 38 s + count1 59 s := by
  intro n
  induction n with
  | zero => intro s h; have : s = [] := List.eq_nil_of_length_eq_zero (by omega)
            subst this; rfl
  | succ n ih =>
    intro s h
    cases s with
    | nil => rfl
    | cons c t =>
      simp only [List.length_cons] at h
      rw [replaceAux]
      split
      · next hp =>
        cases t with
        | nil => simp [List.isPrefixOf] at hp
        | cons d t =>
          simp [List.isPrefixOf] at hp
          obtain ⟨rfl, rfl⟩ := hp
          simp only [List.length_cons] at h
          have := ih t (by omega)
          show count1 38 (38 :: replaceAux b!"; " b!"&" 0 t) + count1 59 (38 :: replaceAux b!"; " b!"&" 0 t) = _
          simp only [count1, List.countP_cons] at this ⊢
          simp at this ⊢
          omega
      · have := ih t (by omega)
        simp only [count1, List.countP_cons] at this ⊢
        omega

theorem count_replace1 (s : Bytes) : count1 38 (replace1 59 [38] s) = count1 38 s + count1 59 s := by
  induction s with
  | nil => rfl
  | cons c t ih =>
    simp only [replace1, List.flatMap_cons, count1, List.countP_append, List.countP_cons] at ih ⊢
    rw [ih]
    by_cases h : c = 59
    · subst h; simp; omega
    · simp [h]
      by_cases h' : c = 38
      · simp [h']; omega
      · simp [h']

/-- What the application should be told of a part. -/
def info (p : Part) : Info :=
  ⟨p.field b!"content-disposition", (p.field b!"content-length").map (fun _ => p.content.length), p.field b!"content-type"⟩

theorem field_of {b : Bytes} (hb : BoundaryOk b) {p : Part} (hp : p.Ok b) (w : Bytes) {k : Bytes} (h1 : k.head? ≠ some 95) (h2 : k ≠ kHost)
    (h : (p.fields.filter (fun f => lower f.name = k)).length ≤ 1) :
    hget (parse (p.head b ++ w) ((p.head b).length - 2)).headers k = (p.field k).map HVal.one := by
  rw [parse_part hb hp.legal w h1 h2]
  unfold Part.field
  match hf : p.fields.filter (fun f => lower f.name = k) with
  | [] => rw [hf]; rfl
  | [f] => rw [hf]; rfl
  | f :: g :: t => rw [hf] at h; simp at h

theorem infoOf_part {b : Bytes} (hb : BoundaryOk b) {p : Part} (hp : p.Ok b) (w : Bytes) :
    infoOf (parse (p.head b ++ w) ((p.head b).length - 2)).headers = some (info p) := by
  unfold infoOf
  rw [field_of hb hp w (by decide) (by decide) (hp.once _ (by simp)), field_of hb hp w (by decide) (by decide) (hp.once _ (by simp)),
    field_of hb hp w (by decide) (by decide) (hp.once _ (by simp))]
  have h1 : dispOf ((p.field b!"content-disposition").map HVal.one) = some (p.field b!"content-disposition") := by
    cases h : p.field b!"content-disposition" with
    | none => rfl
    | some v =>
      have := hp.params v h
      have e := count_replace v.length v (Nat.le_refl _)
      rw [← replace, ← count_replace1] at e
      simp only [Option.map_some, dispOf]
      rw [if_pos (by omega)]
  have h2 : lengthOf ((p.field b!"content-length").map HVal.one) = some ((p.field b!"content-length").map (fun _ => p.content.length)) := by
    cases h : p.field b!"content-length" with
    | none => rfl
    | some v =>
      rw [hp.length v h]
      simp only [Option.map_some, lengthOf]
      rw [intDec_plus_fmtNat]; simp
  have h3 : typeOf ((p.field b!"content-type").map HVal.one) = some (p.field b!"content-type") := by
    cases h : p.field b!"content-type" with
    | none => rfl
    | some v => rfl
  rw [h1, h2, h3]
  rfl

/-! ### The phases of the loop -/

/-- Between parts: `D` is what is still to come, buffered or not. -/
structure H (D : Bytes) (r : Reader) (l : Loc) : Prop where
  data : r.buf ++ r.gen.pieces.flatten = D
  out : r.gen.out = .done
  eof : r.eof = true → r.gen.pieces = []
  header : l.header = false
  body : l.body = []
  neg : l.neg = false
  cl : l.cl = 0
  hs1 : l.hs1 = true → l.paused = false ∧ find CRLF2 r.buf = none

/-- In a part: `D` is the rest of the body, from the content on; `p` is the part. -/
structure B (b : Bytes) (p : Part) (D : Bytes) (r : Reader) (l : Loc) : Prop where
  data : l.body ++ r.gen.pieces.flatten = D
  out : r.gen.out = .done
  eof : r.eof = true → r.gen.pieces = []
  header : l.header = true
  info : l.info = info p
  hs1 : l.hs1 = false
  cl : l.cl = ((p.field b!"content-length").map (fun _ => p.content.length)).getD 0
  buf : p.head b <+: r.buf
  neg : l.neg = true → l.paused = false ∧ findFrom (delimiter b) l.body l.cl = none

/-- One pass gets the next data, whichever they are, unless the stream has ended after a search without success. -/
theorem fetch_ok {r : Reader} {l : Loc} (ho : r.gen.out = .done) (he : r.eof = true → r.gen.pieces = [])
    (hp : (l.hs1 || l.neg) = true → l.paused = false) :
    (∃ data r1, Model.Files.fetch r l = .ok (data, r1) ∧ r1.buf = r.buf ∧ data ++ r1.gen.pieces.flatten = r.gen.pieces.flatten ∧
      r1.gen.out = .done ∧ (r1.eof = true → r1.gen.pieces = []) ∧
      (r1.gen.pieces.length < r.gen.pieces.length ∨ (r1.gen = r.gen ∧ data = [] ∧ (l.hs1 || l.neg) = false))) ∨
    (∃ r1, Model.Files.fetch r l = .error (.badRequest, r1) ∧ r.gen.pieces = [] ∧ (l.hs1 || l.neg) = true) := by
  obtain ⟨⟨ps, o⟩, buf, eof⟩ := r
  dsimp only at ho he
  subst ho
  unfold Model.Files.fetch
  cases hpz : l.paused with
  | true =>
    have hf : (l.hs1 || l.neg) = false := by
      cases h : (l.hs1 || l.neg) with
      | false => rfl
      | true => have := hp h; rw [hpz] at this; cases this
    simp only [if_true]
    exact .inl ⟨_, _, rfl, rfl, rfl, rfl, he, .inr ⟨rfl, rfl, hf⟩⟩
  | false =>
    simp only [Bool.false_eq_true, if_false]
    cases ps with
    | cons d p =>
      exact .inl ⟨_, _, rfl, rfl, by simp, rfl, fun h => absurd (he h) (by simp), .inl (by simp)⟩
    | nil =>
      dsimp only
      cases hf : (l.hs1 || l.neg) with
      | true => rw [if_pos rfl]; exact .inr ⟨_, rfl, rfl, rfl⟩
      | false => rw [if_neg (by simp)]; exact .inl ⟨_, _, rfl, rfl, rfl, rfl, fun _ => rfl, .inr ⟨rfl, rfl, rfl⟩⟩

/-- The end of the stream has not been taken, and will not be by the next pass: with no piece left, the pass does not read, or a search
has failed. -/
def Safe (r : Reader) (l : Loc) : Prop := r.eof = false ∧ (r.gen.pieces = [] → l.paused = true ∨ l.hs1 = true ∨ l.neg = true)

/-- In the search for a header: a pass that reads has searched the buffer before, or it is empty. -/
def Fresh (r : Reader) (l : Loc) : Prop := l.paused = false → l.hs1 = true ∨ r.buf = []

theorem safe_fetch {r : Reader} {l : Loc} (h : Safe r l) {data : Bytes} {r1 : Reader} (hf : Model.Files.fetch r l = .ok (data, r1)) :
    r1.eof = false ∧ ((l.paused = true ∧ r1 = r ∧ data = []) ∨ (l.paused = false ∧ r.gen.pieces = data :: r1.gen.pieces)) := by
  rcases fetch_cases hf with ⟨a, e⟩ | ⟨a, d, p, e1, e⟩ | ⟨a, e1, f1, f2, e⟩
  · cases e; exact ⟨h.1, .inl ⟨a, rfl, rfl⟩⟩
  · cases e; exact ⟨h.1, .inr ⟨a, e1⟩⟩
  · exfalso
    rcases h.2 (by rw [e1]) with x | x | x
    · rw [a] at x; cases x
    · rw [f1] at x; cases x
    · rw [f2] at x; cases x

theorem fetch_suffix {r : Reader} {l : Loc} {data : Bytes} {r1 : Reader} (hf : Model.Files.fetch r l = .ok (data, r1)) :
    r1.gen.pieces <:+ r.gen.pieces := by
  rcases fetch_cases hf with ⟨a, e⟩ | ⟨a, d, p, e1, e⟩ | ⟨a, e1, f1, f2, e⟩
  · cases e; exact List.suffix_refl _
  · cases e; rw [e1]; exact List.suffix_cons _ _
  · cases e; exact List.suffix_refl _

/-- Passes to do before a read. -/
def todo (r : Reader) (l : Loc) : Nat := 2 * r.gen.pieces.length + if (l.hs1 || l.neg) = true then 0 else 1

theorem ne_closing {b : Bytes} {p : Part} {X buf : Bytes} (h : buf <+: p.head b ++ X) : buf ≠ b!"--" ++ b ++ b!"--" ++ CRLF := by
  rintro rfl
  obtain ⟨t, ht⟩ := h
  have h1 := congrArg (List.drop (b!"--" ++ b).length) ht
  simp [Part.head] at h1

theorem loop_succ {b : Bytes} {fuel limit : Nat} {want : Option Nat} {r : Reader} {l : Loc} (hl : 0 < limit)
    (hc : r.buf ≠ b!"--" ++ b ++ b!"--" ++ CRLF) {r' : Reader} {l' : Loc} (h : pass b r l = .cont r' l') :
    loop b (fuel + 1) limit want r l = loop b fuel limit want r' l' := by
  rw [loop, if_neg (by rintro (h | h); omega; exact hc h), h]

theorem loop_stop {b : Bytes} {fuel limit : Nat} {want : Option Nat} {r : Reader} {l : Loc} (hl : 0 < limit)
    (hc : r.buf ≠ b!"--" ++ b ++ b!"--" ++ CRLF) {r' : Reader} {e : End} (h : pass b r l = .stop e r') :
    loop b (fuel + 1) limit want r l = ([], e, r') := by
  rw [loop, if_neg (by rintro (h | h); omega; exact hc h), h]

/-- The header of a part is found, however it is cut. -/
theorem head_full {b : Bytes} (hb : BoundaryOk b) {p : Part} (hp : p.Ok b) {X : Bytes} : ∀ (n : Nat) (r : Reader) (l : Loc), todo r l ≤ n →
    H (p.head b ++ X) r l → ∃ F r' l', B b p X r' l' ∧
      (∀ fuel limit want, 0 < limit → loop b (F + fuel) limit want r l = loop b fuel limit want r' l') ∧
      r'.gen.pieces <:+ r.gen.pieces ∧
      (Safe r l → Fresh r l → (∀ d, r.gen.pieces.getLast? = some d → d.length ≤ X.length) → Safe r' l') ∧
      (r.gen.pieces.length = 1 → l.paused = false → l.neg = false → r.eof = false →
        r'.gen.pieces = [] ∧ l'.paused = false ∧ l'.hs1 = false ∧ l'.neg = false) := by
  intro n
  induction n with
  | zero =>
    intro r l hn i
    have h0 : r.gen.pieces = [] ∧ (l.hs1 || l.neg) = true := by
      unfold todo at hn
      split at hn
      · next h => exact ⟨List.eq_nil_of_length_eq_zero (by omega), h⟩
      · omega
    exfalso
    have hh : l.hs1 = true := by simpa [i.neg] using h0.2
    have hf := (i.hs1 hh).2
    have hd := i.data
    rw [h0.1] at hd
    simp only [List.flatten_nil, List.append_nil] at hd
    rw [hd, find_head hb hp.legal] at hf
    cases hf
  | succ n ih =>
    intro r l hn i
    have hbuf : r.buf <+: p.head b ++ X := ⟨_, i.data⟩
    rcases fetch_ok (l := l) i.out i.eof (fun h => (i.hs1 (by simpa [i.neg] using h)).1) with
      ⟨data, r1, hf, e1, e2, e3, e4, e5⟩ | ⟨r1, hf, e1, e2⟩
    · have hbuf1 : r.buf ++ data <+: p.head b ++ X := ⟨r1.gen.pieces.flatten, by rw [List.append_assoc, e2]; exact i.data⟩
      have hpass : pass b r l = headPass b data r1 l := by
        unfold pass; rw [hf]; dsimp only; rw [i.header]; rfl
      have hfind := find_head_prefix hb hp.legal hbuf1
      have h4 := head_length b p
      by_cases hl : (p.head b).length ≤ (r.buf ++ data).length
      · -- found
        rw [if_pos hl] at hfind
        have hpre : p.head b <+: r.buf ++ data := List.prefix_of_prefix_length_le (List.prefix_append _ _) hbuf1 hl
        obtain ⟨w, hw⟩ := hpre
        have hstart : startsWith (r.buf ++ data) (b!"--" ++ b ++ CRLF) = true := by
          unfold startsWith
          rw [isPrefixOf_iff, ← hw]
          exact ⟨(p.fields.map (fun f => f.line ++ CRLF)).flatten ++ CRLF ++ w, by simp [Part.head]⟩
        have hinfo := infoOf_part hb hp w
        rw [hw] at hinfo
        have hhp : headPass b data r1 l = .cont { r1 with buf := r.buf ++ data }
            { l with header := true, hs1 := false, body := w, info := info p, cl := (info p).length.getD 0 } := by
          unfold headPass
          dsimp only
          rw [e1, hfind]
          dsimp only
          have := hp.size
          rw [if_pos ⟨by omega, hstart⟩, show (p.head b).length - 4 + 2 = (p.head b).length - 2 by omega, hinfo]
          dsimp only
          rw [i.body, i.cl, List.nil_append, show (p.head b).length - 2 + 2 = (p.head b).length by omega, ← hw, List.drop_left]
        refine ⟨1, { r1 with buf := r.buf ++ data },
          { l with header := true, hs1 := false, body := w, info := info p, cl := (info p).length.getD 0 }, ?_, fun fuel limit want hlim => ?_,
          id (fetch_suffix hf : r1.gen.pieces <:+ r.gen.pieces), ?_, ?_⟩
        rotate_left
        · rw [Nat.add_comm]; exact loop_succ hlim (ne_closing hbuf) (hpass.trans hhp)
        rotate_left
        · intro h1 h2 h3 _
          refine ⟨?_, h2, rfl, h3⟩
          rcases fetch_cases hf with ⟨a, e⟩ | ⟨a, d, ds, ee, e⟩ | ⟨a, ee, f1, f2, e⟩
          · rw [h2] at a; cases a
          · cases e
            rw [ee] at h1
            simp only [List.length_cons] at h1
            have : ds = [] := List.eq_nil_of_length_eq_zero (by omega)
            exact this
          · rw [ee] at h1; simp at h1
        rotate_left
        · intro hs hfr hlast
          obtain ⟨he, hx⟩ := safe_fetch hs hf
          refine ⟨he, fun hnil => ?_⟩
          rcases hx with ⟨hp', rfl, rfl⟩ | ⟨hp', hx⟩
          · exact .inl hp'
          · exfalso
            dsimp only at hnil
            rw [hnil] at hx
            have h1 := hlast data (by rw [hx]; rfl)
            have h2 := congrArg List.length i.data
            rw [hx] at h2
            simp only [List.length_append, List.flatten_cons, List.flatten_nil, List.length_nil] at h2
            rcases hfr hp' with h3 | h3
            · have h4 := find_head_prefix hb hp.legal hbuf
              rw [(i.hs1 h3).2] at h4
              split at h4
              · cases h4
              · omega
            · rw [h3] at h2; simp only [List.length_nil] at h2
              omega
        · refine ⟨?_, e3, e4, rfl, rfl, rfl, rfl, ⟨w, hw⟩, fun h => ?_⟩
          · have h1 : (r.buf ++ data) ++ r1.gen.pieces.flatten = p.head b ++ X := by rw [List.append_assoc, e2]; exact i.data
            rw [← hw, List.append_assoc] at h1
            exact List.append_cancel_left h1
          · dsimp only at h; rw [i.neg] at h; cases h
      · -- not yet
        rw [if_neg hl] at hfind
        have hhp : headPass b data r1 l = .cont { r1 with buf := r.buf ++ data } { l with hs1 := true, paused := false } := by
          unfold headPass
          dsimp only
          rw [e1, hfind]
          dsimp only
          have := hp.size
          rw [if_neg (by omega)]
        have hi : H (p.head b ++ X) { r1 with buf := r.buf ++ data } { l with hs1 := true, paused := false } :=
          ⟨by dsimp only; rw [List.append_assoc, e2]; exact i.data, e3, e4, i.header, i.body, i.neg, i.cl, fun _ => ⟨rfl, hfind⟩⟩
        have hm : todo { r1 with buf := r.buf ++ data } { l with hs1 := true, paused := false } ≤ n := by
          unfold todo at hn ⊢
          dsimp only
          simp only [Bool.true_or, if_true]
          rcases e5 with e5 | ⟨e5, _, e6⟩
          · omega
          · rw [e6] at hn; rw [e5]; simp at hn; omega
        obtain ⟨F, r', l', hB, hr, hsuf, hsafe, _⟩ := ih _ _ hm hi
        refine ⟨F + 1, r', l', hB, fun fuel limit want hlim => ?_, hsuf.trans (id (fetch_suffix hf : r1.gen.pieces <:+ r.gen.pieces)), ?_, ?_⟩
        rotate_left 2
        · intro h1 h2 _ _
          exfalso
          rcases fetch_cases hf with ⟨a, e⟩ | ⟨a, d, ds, ee, e⟩ | ⟨a, ee, f1, f2, e⟩
          · rw [h2] at a; cases a
          · cases e
            rw [ee] at h1
            simp only [List.length_cons] at h1
            have hp0 : ds = [] := List.eq_nil_of_length_eq_zero (by omega)
            have h5 := i.data
            rw [ee, hp0] at h5
            simp only [List.flatten_cons, List.flatten_nil, List.append_nil] at h5
            apply hl
            rw [h5, List.length_append]
            omega
          · rw [ee] at h1; simp at h1
        · rw [show F + 1 + fuel = (F + fuel) + 1 by omega, loop_succ hlim (ne_closing hbuf) (hpass.trans hhp)]
          exact hr fuel limit want hlim
        · intro hs _ hlast
          refine hsafe ⟨(safe_fetch hs hf).1, fun _ => .inr (.inl rfl)⟩ (fun _ => .inl rfl) (fun d hd => hlast d ?_)
          obtain ⟨t, ht⟩ := fetch_suffix hf
          rw [← ht, List.getLast?_append]
          dsimp only at hd
          rw [hd]; rfl
    · exfalso
      have hh : l.hs1 = true := by simpa [i.neg] using e2
      have hf := (i.hs1 hh).2
      have hd := i.data
      rw [e1] at hd
      simp only [List.flatten_nil, List.append_nil] at hd
      rw [hd, find_head hb hp.legal] at hf
      cases hf

theorem odd_info {b : Bytes} (hb : BoundaryOk b) {p : Part} (hp : p.Legal b) (ho : p.Odd) (w : Bytes) : infoOf (parse (p.head b ++ w) ((p.head b).length - 2)).headers = none := by
  have many : ∀ k : Bytes, k.head? ≠ some 95 → k ≠ kHost → 2 ≤ (p.fields.filter (fun f => lower f.name = k)).length →
      ∃ vs, hget (parse (p.head b ++ w) ((p.head b).length - 2)).headers k = some (.many vs) := by
    intro k h1 h2 h
    rw [parse_part hb hp w h1 h2]
    match hf : p.fields.filter (fun f => lower f.name = k) with
    | [] => rw [hf] at h; simp at h
    | [f] => rw [hf] at h; simp at h
    | f :: g :: t => exact ⟨_, by rw [hf]; rfl⟩
  unfold infoOf
  rcases ho with ⟨k, hk, h2⟩ | ⟨v, hv, hc⟩
  · simp only [List.mem_cons, List.not_mem_nil, or_false] at hk
    rcases hk with rfl | rfl | rfl
    · obtain ⟨vs, e⟩ := many _ (by decide) (by decide) h2
      rw [e]; rfl
    · obtain ⟨vs, e⟩ := many _ (by decide) (by decide) h2
      rw [e]
      cases dispOf _ <;> rfl
    · obtain ⟨vs, e⟩ := many _ (by decide) (by decide) h2
      rw [e]
      cases dispOf _ <;> cases lengthOf _ <;> rfl
  · have e : hget (parse (p.head b ++ w) ((p.head b).length - 2)).headers b!"content-disposition" = some (.one v) := by
      rw [parse_part hb hp w (by decide) (by decide)]
      unfold Part.field at hv
      match hf : p.fields.filter (fun f => lower f.name = b!"content-disposition") with
      | [] => rw [hf] at hv; cases hv
      | [f] => rw [hf] at hv ⊢; cases hv; rfl
      | f :: g :: t => rw [hf] at hv; cases hv
    have hd : dispOf (some (.one v)) = none := by
      have e := count_replace v.length v (Nat.le_refl _)
      rw [← replace, ← count_replace1] at e
      simp only [dispOf]
      rw [if_neg (by omega)]
    rw [e, hd]

/-- A part that cannot be told of ends the call. -/
theorem head_odd {b : Bytes} (hb : BoundaryOk b) {p : Part} (hp : p.Legal b) (ho : p.Odd) {X : Bytes} : ∀ (n : Nat) (r : Reader) (l : Loc), todo r l ≤ n →
    H (p.head b ++ X) r l → ∃ F r', ∀ limit want, 0 < limit → loop b F limit want r l = ([], .error, r') := by
  intro n
  induction n with
  | zero =>
    intro r l hn i
    have h0 : r.gen.pieces = [] ∧ (l.hs1 || l.neg) = true := by
      unfold todo at hn
      split at hn
      · next h => exact ⟨List.eq_nil_of_length_eq_zero (by omega), h⟩
      · omega
    exfalso
    have hh : l.hs1 = true := by simpa [i.neg] using h0.2
    have hf := (i.hs1 hh).2
    have hd := i.data
    rw [h0.1] at hd
    simp only [List.flatten_nil, List.append_nil] at hd
    rw [hd, find_head hb hp] at hf
    cases hf
  | succ n ih =>
    intro r l hn i
    have hbuf : r.buf <+: p.head b ++ X := ⟨_, i.data⟩
    rcases fetch_ok (l := l) i.out i.eof (fun h => (i.hs1 (by simpa [i.neg] using h)).1) with
      ⟨data, r1, hf, e1, e2, e3, e4, e5⟩ | ⟨r1, hf, e1, e2⟩
    · have hbuf1 : r.buf ++ data <+: p.head b ++ X := ⟨r1.gen.pieces.flatten, by rw [List.append_assoc, e2]; exact i.data⟩
      have hpass : pass b r l = headPass b data r1 l := by
        unfold pass; rw [hf]; dsimp only; rw [i.header]; rfl
      have hfind := find_head_prefix hb hp hbuf1
      have h4 := head_length b p
      by_cases hl : (p.head b).length ≤ (r.buf ++ data).length
      · -- found
        rw [if_pos hl] at hfind
        have hpre : p.head b <+: r.buf ++ data := List.prefix_of_prefix_length_le (List.prefix_append _ _) hbuf1 hl
        obtain ⟨w, hw⟩ := hpre
        have hstart : startsWith (r.buf ++ data) (b!"--" ++ b ++ CRLF) = true := by
          unfold startsWith
          rw [isPrefixOf_iff, ← hw]
          exact ⟨(p.fields.map (fun f => f.line ++ CRLF)).flatten ++ CRLF ++ w, by simp [Part.head]⟩
        have hinfo := odd_info hb hp ho w
        rw [hw] at hinfo
        have hhp : headPass b data r1 l = .stop .error { r1 with buf := r.buf ++ data } := by
          unfold headPass
          dsimp only
          rw [e1, hfind]
          dsimp only
          have := hp.size
          rw [if_pos ⟨by omega, hstart⟩, show (p.head b).length - 4 + 2 = (p.head b).length - 2 by omega, hinfo]
        exact ⟨1, _, fun limit want hlim => loop_stop hlim (ne_closing hbuf) (hpass.trans hhp)⟩
      · -- not yet
        rw [if_neg hl] at hfind
        have hhp : headPass b data r1 l = .cont { r1 with buf := r.buf ++ data } { l with hs1 := true, paused := false } := by
          unfold headPass
          dsimp only
          rw [e1, hfind]
          dsimp only
          have := hp.size
          rw [if_neg (by omega)]
        have hi : H (p.head b ++ X) { r1 with buf := r.buf ++ data } { l with hs1 := true, paused := false } :=
          ⟨by dsimp only; rw [List.append_assoc, e2]; exact i.data, e3, e4, i.header, i.body, i.neg, i.cl, fun _ => ⟨rfl, hfind⟩⟩
        have hm : todo { r1 with buf := r.buf ++ data } { l with hs1 := true, paused := false } ≤ n := by
          unfold todo at hn ⊢
          dsimp only
          simp only [Bool.true_or, if_true]
          rcases e5 with e5 | ⟨e5, _, e6⟩
          · omega
          · rw [e6] at hn; rw [e5]; simp at hn; omega
        obtain ⟨F, r', hr⟩ := ih _ _ hm hi
        refine ⟨F + 1, r', fun limit want hlim => ?_⟩
        rw [loop_succ hlim (ne_closing hbuf) (hpass.trans hhp)]
        exact hr limit want hlim
    · exfalso
      have hh : l.hs1 = true := by simpa [i.neg] using e2
      have hf := (i.hs1 hh).2
      have hd := i.data
      rw [e1] at hd
      simp only [List.flatten_nil, List.append_nil] at hd
      rw [hd, find_head hb hp] at hf
      cases hf

/-- No header and no closing line to come: BadRequest. -/
theorem head_cut {b D : Bytes} (h1 : ¬ CRLF2 <:+: D) (h2 : D.length ≤ 8192) (h3 : ¬ closing b <+: D) :
    ∀ (n : Nat) (r : Reader) (l : Loc), todo r l ≤ n → H D r l → ∃ F r',
      ∀ limit want, 0 < limit → loop b F limit want r l = ([], .badRequest, r') := by
  intro n
  induction n with
  | zero =>
    intro r l hn i
    have hc : r.buf ≠ b!"--" ++ b ++ b!"--" ++ CRLF := fun h => h3 ⟨_, by rw [closing, ← h]; exact i.data⟩
    have h0 : r.gen.pieces = [] ∧ (l.hs1 || l.neg) = true := by
      unfold todo at hn
      split at hn
      · next h => exact ⟨List.eq_nil_of_length_eq_zero (by omega), h⟩
      · omega
    rcases fetch_ok (l := l) i.out i.eof (fun h => (i.hs1 (by simpa [i.neg] using h)).1) with
      ⟨data, r1, hf, e1, e2, e3, e4, e5⟩ | ⟨r1, hf, e1, e2⟩
    · exfalso
      rw [h0.1] at e5
      rcases e5 with e5 | ⟨_, _, e5⟩
      · simp at e5
      · rw [h0.2] at e5; cases e5
    · exact ⟨1, r1, fun limit want hlim => loop_stop hlim hc (by unfold pass; rw [hf])⟩
  | succ n ih =>
    intro r l hn i
    have hc : r.buf ≠ b!"--" ++ b ++ b!"--" ++ CRLF := fun h => h3 ⟨_, by rw [closing, ← h]; exact i.data⟩
    rcases fetch_ok (l := l) i.out i.eof (fun h => (i.hs1 (by simpa [i.neg] using h)).1) with
      ⟨data, r1, hf, e1, e2, e3, e4, e5⟩ | ⟨r1, hf, e1, e2⟩
    · have hpre : r.buf ++ data <+: D := ⟨r1.gen.pieces.flatten, by rw [List.append_assoc, e2]; exact i.data⟩
      have hpass : pass b r l = headPass b data r1 l := by
        unfold pass; rw [hf]; dsimp only; rw [i.header]; rfl
      have hfind : find CRLF2 (r.buf ++ data) = none := by
        rw [find_eq_none_iff']
        intro h
        exact h1 (h.trans hpre.isInfix)
      have hhp : headPass b data r1 l = .cont { r1 with buf := r.buf ++ data } { l with hs1 := true, paused := false } := by
        unfold headPass
        dsimp only
        rw [e1, hfind]
        dsimp only
        have := hpre.length_le
        rw [if_neg (by omega)]
      have hi : H D { r1 with buf := r.buf ++ data } { l with hs1 := true, paused := false } :=
        ⟨by dsimp only; rw [List.append_assoc, e2]; exact i.data, e3, e4, i.header, i.body, i.neg, i.cl, fun _ => ⟨rfl, hfind⟩⟩
      have hm : todo { r1 with buf := r.buf ++ data } { l with hs1 := true, paused := false } ≤ n := by
        unfold todo at hn ⊢
        dsimp only
        simp only [Bool.true_or, if_true]
        rcases e5 with e5 | ⟨e5, _, e6⟩
        · omega
        · rw [e6] at hn; rw [e5]; simp at hn; omega
      obtain ⟨F, r', hr⟩ := ih _ _ hm hi
      refine ⟨F + 1, r', fun limit want hlim => ?_⟩
      rw [loop_succ hlim hc (hpass.trans hhp)]
      exact hr limit want hlim
    · exact ⟨1, r1, fun limit want hlim => loop_stop hlim hc (by unfold pass; rw [hf])⟩

theorem closing_crlf2 {b : Bytes} (hb : BoundaryOk b) : ¬ CRLF2 <:+: closing b := by
  rintro ⟨s, t, h⟩
  have h1 := congrArg (fun l => List.count (10 : UInt8) l) h
  have h2 : List.count (10 : UInt8) b = 0 := List.count_eq_zero.2 hb.lf
  simp [closing, List.count_append, List.count_cons, h2] at h1
  omega

/-- The closing line ends the loop. -/
theorem closing_full {b : Bytes} (hb : BoundaryOk b) : ∀ (n : Nat) (r : Reader) (l : Loc), todo r l ≤ n → H (closing b) r l → ∃ F r',
    (r'.buf = closing b ∧ r'.gen.pieces.flatten = [] ∧ r'.gen.out = .done ∧ (r'.eof = true → r'.gen.pieces = [])) ∧
      (∀ limit want, 0 < limit → loop b F limit want r l = ([], .finished, r')) ∧
      r'.gen.pieces <:+ r.gen.pieces ∧ (Safe r l → r'.eof = false) := by
  intro n
  induction n with
  | zero =>
    intro r l hn i
    have h0 : r.gen.pieces = [] := by
      unfold todo at hn
      split at hn
      · exact List.eq_nil_of_length_eq_zero (by omega)
      · omega
    have hd := i.data
    rw [h0] at hd
    simp only [List.flatten_nil, List.append_nil] at hd
    refine ⟨1, r, ⟨hd, by rw [h0]; rfl, i.out, i.eof⟩, fun limit want hlim => ?_, List.suffix_refl _, fun h => h.1⟩
    rw [loop, if_pos (.inr hd)]
  | succ n ih =>
    intro r l hn i
    by_cases hc : r.buf = b!"--" ++ b ++ b!"--" ++ CRLF
    · refine ⟨1, r, ⟨hc, ?_, i.out, i.eof⟩, fun limit want hlim => ?_, List.suffix_refl _, fun h => h.1⟩
      · have hd := i.data
        rw [hc] at hd
        exact List.append_right_eq_self.1 hd
      · rw [loop, if_pos (.inr hc)]
    · rcases fetch_ok (l := l) i.out i.eof (fun h => (i.hs1 (by simpa [i.neg] using h)).1) with
        ⟨data, r1, hf, e1, e2, e3, e4, e5⟩ | ⟨r1, hf, e1, e2⟩
      · have hpre : r.buf ++ data <+: closing b := ⟨r1.gen.pieces.flatten, by rw [List.append_assoc, e2]; exact i.data⟩
        have hpass : pass b r l = headPass b data r1 l := by
          unfold pass; rw [hf]; dsimp only; rw [i.header]; rfl
        have hfind : find CRLF2 (r.buf ++ data) = none := by
          rw [find_eq_none_iff']
          intro h
          exact closing_crlf2 hb (h.trans hpre.isInfix)
        -- a buffer over 8192 bytes would be the whole closing line
        by_cases hlen : (r.buf ++ data).length > 8192
        · exfalso
          have := hpre.length_le
          have h2 := hb.size
          have h3 : (closing b).length = b.length + 6 := by simp [closing]
          omega
        · have hhp : headPass b data r1 l = .cont { r1 with buf := r.buf ++ data } { l with hs1 := true, paused := false } := by
            unfold headPass
            dsimp only
            rw [e1, hfind]
            dsimp only
            rw [if_neg hlen]
          have hi : H (closing b) { r1 with buf := r.buf ++ data } { l with hs1 := true, paused := false } :=
            ⟨by dsimp only; rw [List.append_assoc, e2]; exact i.data, e3, e4, i.header, i.body, i.neg, i.cl, fun _ => ⟨rfl, hfind⟩⟩
          have hm : todo { r1 with buf := r.buf ++ data } { l with hs1 := true, paused := false } ≤ n := by
            unfold todo at hn ⊢
            dsimp only
            simp only [Bool.true_or, if_true]
            rcases e5 with e5 | ⟨e5, _, e6⟩
            · omega
            · rw [e6] at hn; rw [e5]; simp at hn; omega
          obtain ⟨F, r', h', hr, hsuf, hsafe⟩ := ih _ _ hm hi
          refine ⟨F + 1, r', h', fun limit want hlim => ?_, hsuf.trans (id (fetch_suffix hf : r1.gen.pieces <:+ r.gen.pieces)),
            fun hs => hsafe ⟨(safe_fetch hs hf).1, fun _ => .inr (.inl rfl)⟩⟩
          rw [loop_succ hlim hc (hpass.trans hhp)]
          exact hr limit want hlim
      · exfalso
        have hd := i.data
        rw [e1] at hd
        simp only [List.flatten_nil, List.append_nil] at hd
        exact hc hd

/-- Where the search in a part's content starts. -/
theorem B.start {b : Bytes} {p : Part} (hp : p.Ok b) {D : Bytes} {r : Reader} {l : Loc} (i : B b p D r l) :
    l.cl = p.content.length ∨ (l.cl = 0 ∧ ¬ delimiter b <:+: p.content) := by
  rw [i.cl]
  cases h : p.field b!"content-length" with
  | none => exact .inr ⟨rfl, hp.delim h⟩
  | some v => exact .inl rfl

theorem B.ne_closing {b : Bytes} {p : Part} {D : Bytes} {r : Reader} {l : Loc} (i : B b p D r l) :
    r.buf ≠ b!"--" ++ b ++ b!"--" ++ CRLF := by
  obtain ⟨t, ht⟩ := i.buf
  exact Files.ne_closing (p := p) (X := t) ⟨[], by rw [List.append_nil, ht]⟩

/-- One pass in a part whose end has not been received. -/
theorem body_wait {b : Bytes} (hb : BoundaryOk b) {p : Part} (hp : p.Ok b) {D w : Bytes} {r : Reader} {l : Loc} (i : B b p D r l)
    (hD : D <+: p.content ++ delimiter b ++ w) {data : Bytes} {r1 : Reader} (hf : Model.Files.fetch r l = .ok (data, r1))
    (e1 : r1.buf = r.buf) (e2 : data ++ r1.gen.pieces.flatten = r.gen.pieces.flatten) (e3 : r1.gen.out = .done)
    (e4 : r1.eof = true → r1.gen.pieces = []) (hl : (l.body ++ data).length < p.content.length + (delimiter b).length) :
    pass b r l = .cont r1 { l with body := l.body ++ data, neg := true, paused := false } ∧
      B b p D r1 { l with body := l.body ++ data, neg := true, paused := false } := by
  have hpre : l.body ++ data <+: D := ⟨r1.gen.pieces.flatten, by rw [List.append_assoc, e2]; exact i.data⟩
  have hfind := find_delim hb.cr (i.start hp) (hpre.trans hD)
  rw [if_neg (by omega)] at hfind
  refine ⟨?_, ⟨by dsimp only; rw [List.append_assoc, e2]; exact i.data, e3, e4, i.header, i.info, i.hs1, i.cl, by rw [e1]; exact i.buf,
    fun _ => ⟨rfl, hfind⟩⟩⟩
  unfold pass
  rw [hf]
  dsimp only
  rw [i.header]
  simp only [if_true]
  unfold bodyPass
  dsimp only
  rw [show CRLF ++ b!"--" ++ b = delimiter b from rfl, hfind]
  dsimp only
  rw [i.header]

/-- A part is yielded whole, however it is cut. -/
theorem body_full {b : Bytes} (hb : BoundaryOk b) {p : Part} (hp : p.Ok b) {w : Bytes} : ∀ (n : Nat) (r : Reader) (l : Loc), todo r l ≤ n →
    B b p (p.content ++ CRLF ++ (b!"--" ++ b ++ w)) r l → ∃ F r' l', H (b!"--" ++ b ++ w) r' l' ∧
      (∀ fuel limit want, 0 < limit → want ≠ some 1 → loop b (F + fuel) limit want r l =
        ((info p, p.content) :: (loop b fuel (limit - 1) (want.map (· - 1)) r' l').1, (loop b fuel (limit - 1) (want.map (· - 1)) r' l').2)) ∧
      r'.gen.pieces <:+ r.gen.pieces ∧ l'.paused = true ∧ (Safe r l → Safe r' l') := by
  have hD : p.content ++ CRLF ++ (b!"--" ++ b ++ w) = p.content ++ delimiter b ++ w := by simp [delimiter]
  have contra : ∀ (r : Reader) (l : Loc), B b p (p.content ++ CRLF ++ (b!"--" ++ b ++ w)) r l → r.gen.pieces = [] → (l.hs1 || l.neg) = true → False := by
    intro r l i h1 h2
    have hn : l.neg = true := by simpa [i.hs1] using h2
    have hf := (i.neg hn).2
    have hd := i.data
    rw [h1] at hd
    simp only [List.flatten_nil, List.append_nil] at hd
    rw [find_delim hb.cr (i.start hp) (w := w) ⟨[], by rw [List.append_nil, hd, hD]⟩, if_pos] at hf
    · cases hf
    · rw [hd, hD]; simp only [List.length_append]; omega
  intro n
  induction n with
  | zero =>
    intro r l hn i
    exfalso
    unfold todo at hn
    split at hn
    · next h => exact contra r l i (List.eq_nil_of_length_eq_zero (by omega)) h
    · omega
  | succ n ih =>
    intro r l hn i
    rcases fetch_ok (l := l) i.out i.eof (fun h => (i.neg (by simpa [i.hs1] using h)).1) with
      ⟨data, r1, hf, e1, e2, e3, e4, e5⟩ | ⟨r1, hf, e1, e2⟩
    · by_cases hl : p.content.length + (delimiter b).length ≤ (l.body ++ data).length
      · have hpre : l.body ++ data <+: p.content ++ CRLF ++ (b!"--" ++ b ++ w) :=
          ⟨r1.gen.pieces.flatten, by rw [List.append_assoc, e2]; exact i.data⟩
        have hfind := find_delim hb.cr (i.start hp) (hD ▸ hpre)
        rw [if_pos hl] at hfind
        obtain ⟨t, ht⟩ : p.content ++ delimiter b <+: l.body ++ data :=
          List.prefix_of_prefix_length_le (List.prefix_append _ w) (hD ▸ hpre) (by rw [List.length_append]; exact hl)
        have hpass : pass b r l = .yield (info p) p.content r1 { r1 with buf := (l.body ++ data).drop (p.content.length + 2) }
            { l with header := false, body := [], neg := false, cl := 0, paused := true } := by
          unfold pass
          rw [hf]
          dsimp only
          rw [i.header]
          simp only [if_true]
          unfold bodyPass
          dsimp only
          rw [show CRLF ++ b!"--" ++ b = delimiter b from rfl, hfind]
          dsimp only
          rw [i.info, show (l.body ++ data).take p.content.length = p.content by rw [← ht, List.append_assoc, List.take_left]]
        refine ⟨1, { r1 with buf := (l.body ++ data).drop (p.content.length + 2) },
          { l with header := false, body := [], neg := false, cl := 0, paused := true }, ?_, fun fuel limit want hlim hw => ?_,
          id (fetch_suffix hf : r1.gen.pieces <:+ r.gen.pieces), rfl, fun hs => ⟨(safe_fetch hs hf).1, fun _ => .inl rfl⟩⟩
        · refine ⟨?_, e3, e4, rfl, rfl, rfl, rfl, fun h => ?_⟩
          · have h1 : (l.body ++ data) ++ r1.gen.pieces.flatten = p.content ++ CRLF ++ (b!"--" ++ b ++ w) := by
              rw [List.append_assoc, e2]; exact i.data
            dsimp only
            have h2 := congrArg (List.drop (p.content.length + 2)) h1
            rw [List.drop_append_of_le_length (by have : 2 ≤ (delimiter b).length := by simp [delimiter]
                                                  omega)] at h2
            rw [h2]
            exact List.drop_left' (by simp)
          · dsimp only at h; rw [i.hs1] at h; cases h
        · rw [Nat.add_comm, loop, if_neg (by rintro (h | h); omega; exact i.ne_closing h), hpass]
          dsimp only
          rw [if_neg hw]
      · obtain ⟨hpass, i'⟩ := body_wait hb hp i (w := w) ⟨[], by rw [List.append_nil, hD]⟩ hf e1 e2 e3 e4 (by omega)
        have hm : todo r1 { l with body := l.body ++ data, neg := true, paused := false } ≤ n := by
          unfold todo at hn ⊢
          dsimp only
          simp only [Bool.or_true, if_true]
          rcases e5 with e5 | ⟨e5, _, e6⟩
          · omega
          · rw [e6] at hn; rw [e5]; simp at hn; omega
        obtain ⟨F, r', l', hH, hr, hsuf, hpa, hsafe⟩ := ih _ _ hm i'
        refine ⟨F + 1, r', l', hH, fun fuel limit want hlim hw => ?_, hsuf.trans (id (fetch_suffix hf : r1.gen.pieces <:+ r.gen.pieces)), hpa,
          fun hs => hsafe ⟨(safe_fetch hs hf).1, fun _ => .inr (.inr rfl)⟩⟩
        rw [show F + 1 + fuel = (F + fuel) + 1 by omega, loop_succ hlim i.ne_closing hpass]
        exact hr fuel limit want hlim hw
    · exact absurd (contra r l i e1 e2) id

/-- A part that is cut off: BadRequest. -/
theorem body_cut {b : Bytes} (hb : BoundaryOk b) {p : Part} (hp : p.Ok b) {D w : Bytes} (hD : D <+: p.content ++ delimiter b ++ w)
    (hl : D.length < p.content.length + (delimiter b).length) : ∀ (n : Nat) (r : Reader) (l : Loc), todo r l ≤ n →
    B b p D r l → ∃ F r', ∀ limit want, 0 < limit → loop b F limit want r l = ([], .badRequest, r') := by
  intro n
  induction n with
  | zero =>
    intro r l hn i
    have h0 : r.gen.pieces = [] ∧ (l.hs1 || l.neg) = true := by
      unfold todo at hn
      split at hn
      · next h => exact ⟨List.eq_nil_of_length_eq_zero (by omega), h⟩
      · omega
    rcases fetch_ok (l := l) i.out i.eof (fun h => (i.neg (by simpa [i.hs1] using h)).1) with
      ⟨data, r1, hf, e1, e2, e3, e4, e5⟩ | ⟨r1, hf, e1, e2⟩
    · exfalso
      rw [h0.1] at e5
      rcases e5 with e5 | ⟨_, _, e5⟩
      · simp at e5
      · rw [h0.2] at e5; cases e5
    · exact ⟨1, r1, fun limit want hlim => loop_stop hlim i.ne_closing (by unfold pass; rw [hf])⟩
  | succ n ih =>
    intro r l hn i
    rcases fetch_ok (l := l) i.out i.eof (fun h => (i.neg (by simpa [i.hs1] using h)).1) with
      ⟨data, r1, hf, e1, e2, e3, e4, e5⟩ | ⟨r1, hf, e1, e2⟩
    · have hpre : l.body ++ data <+: D := ⟨r1.gen.pieces.flatten, by rw [List.append_assoc, e2]; exact i.data⟩
      obtain ⟨hpass, i'⟩ := body_wait hb hp i hD hf e1 e2 e3 e4 (by have := hpre.length_le; omega)
      have hm : todo r1 { l with body := l.body ++ data, neg := true, paused := false } ≤ n := by
        unfold todo at hn ⊢
        dsimp only
        simp only [Bool.or_true, if_true]
        rcases e5 with e5 | ⟨e5, _, e6⟩
        · omega
        · rw [e6] at hn; rw [e5]; simp at hn; omega
      obtain ⟨F, r', hr⟩ := ih _ _ hm i'
      refine ⟨F + 1, r', fun limit want hlim => ?_⟩
      rw [loop_succ hlim i.ne_closing hpass]
      exact hr limit want hlim
    · exact ⟨1, r1, fun limit want hlim => loop_stop hlim i.ne_closing (by unfold pass; rw [hf])⟩

/-! ### Whole bodies -/

theorem multipart_start (b : Bytes) (ps : List Part) : ∃ w, multipart b ps = b!"--" ++ b ++ w := by
  cases ps with
  | nil => exact ⟨b!"--" ++ CRLF, by simp [multipart, closing]⟩
  | cons p ps => exact ⟨CRLF ++ (p.fields.map (fun f => f.line ++ CRLF)).flatten ++ CRLF ++ p.content ++ CRLF ++ multipart b ps,
      by simp [multipart, Part.head]⟩

/-- What is to be yielded for a part. -/
def yields (p : Part) : Info × Bytes := (info p, p.content)

/-- The buffer and the stream hold the rest of a multipart body: the parts `ps` and the closing line. -/
structure Ready (b : Bytes) (ps : List Part) (r : Reader) : Prop where
  data : r.buf ++ r.gen.pieces.flatten = multipart b ps
  out : r.gen.out = .done
  eof : r.eof = true → r.gen.pieces = []

theorem parts_full {b : Bytes} (hb : BoundaryOk b) : ∀ (ps : List Part), (∀ p ∈ ps, p.Ok b) → ∀ (limit : Nat) (r : Reader) (l : Loc),
    H (multipart b ps) r l → ∃ F r', Ready b (ps.drop limit) r' ∧ loop b F limit none r l = ((ps.take limit).map yields, .finished, r') ∧
      r'.gen.pieces <:+ r.gen.pieces ∧
      (Safe r l → Fresh r l → (∀ d q, r.gen.pieces.getLast? = some d → ps.getLast? = some q → d.length ≤ (q.content ++ CRLF ++ closing b).length) →
        r'.eof = false) := by
  have tail : ∀ (ps : List Part) q, ps.getLast? = some q → (q.content ++ CRLF ++ closing b).length ≤ (multipart b ps).length := by
    intro ps
    induction ps with
    | nil => intro q h; cases h
    | cons p ps ih =>
      intro q h
      cases ps with
      | nil => simp at h; subst h; simp [multipart]
      | cons p' ps =>
        rw [List.getLast?_cons_cons] at h
        have := ih q h
        rw [multipart, List.length_append (bs := multipart b (p' :: ps))]
        omega
  intro ps
  induction ps with
  | nil =>
    intro _ limit r l i
    by_cases hlim : limit = 0
    · refine ⟨1, r, ⟨by simpa using i.data, i.out, i.eof⟩, ?_, List.suffix_refl _, fun h _ _ => h.1⟩
      rw [loop, if_pos (.inl hlim)]; simp
    · obtain ⟨F, r', ⟨h1, h2, h3, h4⟩, hr, hsuf, hsafe⟩ := closing_full hb (todo r l) r l (Nat.le_refl _) i
      exact ⟨F, r', ⟨by rw [h1, h2]; simp [multipart], h3, h4⟩, by rw [hr limit none (by omega)]; simp, hsuf, fun h _ _ => hsafe h⟩
  | cons p ps ih =>
    intro hok limit r l i
    cases limit with
    | zero =>
      refine ⟨1, r, ⟨by simpa using i.data, i.out, i.eof⟩, ?_, List.suffix_refl _, fun h _ _ => h.1⟩
      rw [loop, if_pos (.inl rfl)]; simp
    | succ limit =>
      have hp := hok p (by simp)
      obtain ⟨w, hw⟩ := multipart_start b ps
      have i1 : H (p.head b ++ (p.content ++ CRLF ++ multipart b ps)) r l := by
        have : multipart b (p :: ps) = p.head b ++ (p.content ++ CRLF ++ multipart b ps) := by simp [multipart]
        rw [← this]; exact i
      obtain ⟨F1, r1, l1, hB, hr1, hs1, hk1, _⟩ := head_full hb hp _ r l (Nat.le_refl _) i1
      rw [hw] at hB
      obtain ⟨F2, r2, l2, hH, hr2, hs2, hpa, hk2⟩ := body_full hb hp _ r1 l1 (Nat.le_refl _) hB
      rw [← hw] at hH
      obtain ⟨F3, r3, hR, hr3, hs3, hk3⟩ := ih (fun q hq => hok q (by simp [hq])) limit r2 l2 hH
      refine ⟨F1 + (F2 + F3), r3, by simpa using hR, ?_, hs3.trans (hs2.trans hs1), ?_⟩
      · rw [hr1 _ _ _ (by omega), hr2 _ _ _ (by omega) (by simp)]
        simp only [Option.map_none, Nat.add_sub_cancel]
        rw [hr3]
        simp [yields]
      · intro hs hfr hlast
        refine hk3 (hk2 (hk1 hs hfr ?_)) (fun h => by rw [hpa] at h; cases h) ?_
        · intro d hd
          cases ps with
          | nil =>
            have := hlast d p hd rfl
            simpa [multipart] using this
          | cons p' ps =>
            cases hq : (p' :: ps).getLast? with
            | none => simp at hq
            | some q =>
              have := hlast d q hd (by rw [List.getLast?_cons_cons]; exact hq)
              have := tail _ _ hq
              simp only [List.length_append] at this ⊢
              simp only [List.length_append] at *
              omega
        · intro d q hd hq
          obtain ⟨t, ht⟩ := hs2.trans hs1
          refine hlast d q ?_ ?_
          · rw [← ht, List.getLast?_append, hd]; rfl
          · cases ps with
            | nil => cases hq
            | cons p' ps => rw [List.getLast?_cons_cons]; exact hq

theorem parts_odd {b : Bytes} (hb : BoundaryOk b) {q : Part} (hq : q.Legal b) (ho : q.Odd) (X : Bytes) : ∀ (ps : List Part), (∀ p ∈ ps, p.Ok b) → ∀ (limit : Nat) (r : Reader) (l : Loc),
    H ((ps.map (fun p => p.head b ++ p.content ++ CRLF)).flatten ++ (q.head b ++ X)) r l → ps.length < limit → ∃ F r', loop b F limit none r l = (ps.map yields, .error, r') := by
  intro ps
  induction ps with
  | nil =>
    intro _ limit r l i hlim
    obtain ⟨F, r', hr⟩ := head_odd hb hq ho _ r l (Nat.le_refl _) (by simpa using i)
    exact ⟨F, r', hr limit none (by simp at hlim; omega)⟩
  | cons p ps ih =>
    intro hok limit r l i hlim
    cases limit with
    | zero => simp at hlim
    | succ limit =>
      have hp := hok p (by simp)
      have hw : ∃ w, (ps.map (fun p => p.head b ++ p.content ++ CRLF)).flatten ++ (q.head b ++ X) = b!"--" ++ b ++ w := by
        cases ps with
        | nil => exact ⟨CRLF ++ (q.fields.map (fun f => f.line ++ CRLF)).flatten ++ CRLF ++ X, by simp [Part.head]⟩
        | cons p ps => exact ⟨CRLF ++ (p.fields.map (fun f => f.line ++ CRLF)).flatten ++ CRLF ++ p.content ++ CRLF ++ ((ps.map (fun p => p.head b ++ p.content ++ CRLF)).flatten ++ (q.head b ++ X)), by simp [Part.head]⟩
      obtain ⟨w, hw⟩ := hw
      have i1 : H (p.head b ++ (p.content ++ CRLF ++ ((ps.map (fun p => p.head b ++ p.content ++ CRLF)).flatten ++ (q.head b ++ X)))) r l := by simpa using i
      obtain ⟨F1, r1, l1, hB, hr1, _⟩ := head_full hb hp _ r l (Nat.le_refl _) i1
      rw [hw] at hB
      obtain ⟨F2, r2, l2, hH, hr2, _⟩ := body_full hb hp _ r1 l1 (Nat.le_refl _) hB
      rw [← hw] at hH
      obtain ⟨F3, r3, hr3⟩ := ih (fun q hq => hok q (by simp [hq])) limit r2 l2 hH (by simp at hlim; omega)
      refine ⟨F1 + (F2 + F3), r3, ?_⟩
      rw [hr1 _ _ _ (by omega), hr2 _ _ _ (by omega) (by simp)]
      simp only [Option.map_none, Nat.add_sub_cancel]
      rw [hr3]
      simp [yields]

theorem parts_cut {b : Bytes} (hb : BoundaryOk b) : ∀ (ps : List Part), (∀ p ∈ ps, p.Ok b) → ∀ (D : Bytes), D <+: multipart b ps →
    D ≠ multipart b ps → ∀ (limit : Nat) (r : Reader) (l : Loc), H D r l → ∃ F r', loop b F limit none r l =
      if limit ≤ complete b ps D then ((ps.take limit).map yields, .finished, r')
      else ((ps.take (complete b ps D)).map yields, .badRequest, r') := by
  intro ps
  induction ps with
  | nil =>
    intro _ D hD hne limit r l i
    cases limit with
    | zero => exact ⟨1, r, by rw [loop, if_pos (.inl rfl)]; simp⟩
    | succ limit =>
      have hlen : D.length < (closing b).length := by
        rcases Nat.lt_or_ge D.length (closing b).length with h | h
        · exact h
        · exact absurd (hD.eq_of_length_le h) hne
      have h6 : (closing b).length = b.length + 6 := by simp [closing]
      have := hb.size
      obtain ⟨F, r', hr⟩ := head_cut (b := b) (D := D) (fun h => closing_crlf2 hb (h.trans hD.isInfix)) (by omega)
        (fun h => by have := h.length_le; omega) _ r l (Nat.le_refl _) i
      exact ⟨F, r', by rw [hr _ _ (by omega)]; simp [complete]⟩
  | cons p ps ih =>
    intro hok D hD hne limit r l i
    have hp := hok p (by simp)
    cases limit with
    | zero => exact ⟨1, r, by rw [loop, if_pos (.inl rfl)]; simp⟩
    | succ limit =>
      have hmp : multipart b (p :: ps) = p.head b ++ (p.content ++ CRLF ++ multipart b ps) := by simp [multipart]
      rw [hmp] at hD hne
      by_cases hh : (p.head b).length ≤ D.length
      · obtain ⟨X, hX⟩ : p.head b <+: D := List.prefix_of_prefix_length_le (List.prefix_append _ _) hD hh
        subst hX
        have hX : X <+: p.content ++ CRLF ++ multipart b ps := (List.prefix_append_right_inj _).1 hD
        have hXne : X ≠ p.content ++ CRLF ++ multipart b ps := fun h => hne (by rw [h])
        obtain ⟨F1, r1, l1, hB, hr1, _⟩ := head_full hb hp _ r l (Nat.le_refl _) i
        obtain ⟨w, hw⟩ := multipart_start b ps
        have hX' : X <+: p.content ++ delimiter b ++ w := by
          have : p.content ++ CRLF ++ multipart b ps = p.content ++ delimiter b ++ w := by rw [hw]; simp [delimiter]
          rw [← this]; exact hX
        by_cases hl : p.content.length + (delimiter b).length ≤ X.length
        · obtain ⟨w', rfl⟩ : p.content ++ delimiter b <+: X :=
            List.prefix_of_prefix_length_le (List.prefix_append _ w) hX' (by rw [List.length_append]; exact hl)
          have e1 : p.content ++ delimiter b ++ w' = p.content ++ CRLF ++ (b!"--" ++ b ++ w') := by simp [delimiter]
          rw [e1] at hB
          obtain ⟨F2, r2, l2, hH, hr2, _⟩ := body_full hb hp _ r1 l1 (Nat.le_refl _) hB
          have hD2 : b!"--" ++ b ++ w' <+: multipart b ps := by
            rw [e1] at hX; exact (List.prefix_append_right_inj _).1 hX
          have hne2 : b!"--" ++ b ++ w' ≠ multipart b ps := fun h => hXne (by rw [e1, h])
          obtain ⟨F3, r3, hr3⟩ := ih (fun q hq => hok q (by simp [hq])) _ hD2 hne2 limit r2 l2 hH
          have hc : complete b (p :: ps) (p.head b ++ (p.content ++ delimiter b ++ w')) = 1 + complete b ps (b!"--" ++ b ++ w') := by
            rw [complete, if_pos (by rw [isPrefixOf_iff]; exact ⟨w', by simp⟩)]
            congr 2
            rw [e1, show p.head b ++ (p.content ++ CRLF ++ (b!"--" ++ b ++ w')) = (p.head b ++ p.content ++ CRLF) ++ (b!"--" ++ b ++ w') by simp]
            exact List.drop_left
          refine ⟨F1 + (F2 + F3), r3, ?_⟩
          rw [hr1 _ _ _ (by omega), hr2 _ _ _ (by omega) (by simp), hc]
          simp only [Option.map_none, Nat.add_sub_cancel]
          rw [hr3]
          by_cases hk : limit ≤ complete b ps (b!"--" ++ b ++ w')
          · rw [if_pos hk, if_pos (by omega)]; simp [yields]
          · rw [if_neg hk, if_neg (by omega), Nat.add_comm 1]; simp [yields]
        · obtain ⟨F2, r2, hr2⟩ := body_cut hb hp hX' (by omega) _ r1 l1 (Nat.le_refl _) hB
          have hc : complete b (p :: ps) (p.head b ++ X) = 0 := by
            rw [complete, if_neg]
            rw [isPrefixOf_iff]
            intro h
            have := h.length_le
            simp only [List.length_append] at this
            omega
          refine ⟨F1 + F2, r2, ?_⟩
          rw [hr1 _ _ _ (by omega), hr2 _ _ (by omega), hc]
          simp
      · have hf := find_head_prefix hb hp.legal hD
        rw [if_neg hh, find_eq_none_iff'] at hf
        have := hp.size
        obtain ⟨F, r', hr⟩ := head_cut (b := b) (D := D) hf (by omega) (fun h => ne_closing (h.trans hD) rfl) _ r l (Nat.le_refl _) i
        have hc : complete b (p :: ps) D = 0 := by
          rw [complete, if_neg]
          rw [isPrefixOf_iff]
          intro h
          have := h.length_le
          simp only [List.length_append] at this
          omega
        exact ⟨F, r', by rw [hr _ _ (by omega), hc]; simp⟩

end Verif.Proofs.Files
