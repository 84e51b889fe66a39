import Verif.Props.HttpParser
/-!
# C04 for responses: what `is_valid_response` means

The parser reads heads of responses too (http_parser.py:83-98).
-/
namespace Verif
open Verif.Py Verif.Model.HttpParser Verif.Spec.HttpParser Verif.Proofs.HttpParser

/-- A status line: version, status and reason, each set off by a blank or a slash; it does not contain a second `HTTP/`. -/
structure IsStatusLine (l v st msg : Bytes) : Prop where
  line : ∃ a ∈ b!" /", ∃ b ∈ b!" /", l = b!"HTTP/" ++ v ++ [a] ++ st ++ [b] ++ msg
  version : ∀ c ∈ v, c ≠ 32 ∧ c ≠ 47
  status : ∀ c ∈ st, c ≠ 32 ∧ c ≠ 47
  once : ¬ b!"HTTP/" <:+: l.drop 1

namespace ResponseHead

def blank (c : UInt8) : UInt8 := if c = 47 then 32 else c

theorem replace_map (s : Bytes) : replace1 47 [32] s = s.map blank := by
  induction s with
  | nil => rfl
  | cons c t ih =>
    simp only [replace1, List.flatMap_cons, List.map_cons] at ih ⊢
    rw [ih]
    by_cases h : c = 47
    · subst h; rfl
    · simp [blank, h]

theorem blank_eq {c : UInt8} : blank c = 32 ↔ c ∈ b!" /" := by
  unfold blank
  by_cases h : c = 47
  · subst h; simp
  · simp [h]

theorem map_clean {s : Bytes} (h : ∀ c ∈ s, c ≠ 32 ∧ c ≠ 47) : s.map blank = s ∧ (32 : UInt8) ∉ s.map blank := by
  have e : s.map blank = s := by
    conv => rhs; rw [← List.map_id s]
    exact List.map_congr_left (fun c hc => by simp [blank, (h c hc).2])
  exact ⟨e, by rw [e]; exact fun hc => (h _ hc).1 rfl⟩

theorem once_rfind {l : Bytes} (h0 : b!"HTTP/" <+: l) : (¬ b!"HTTP/" <:+: l.drop 1) ↔ rfind b!"HTTP/" l = some 0 := by
  constructor
  · intro h
    apply rfind_eq (by simp) (by simpa using h0)
    intro m hm hp
    apply h
    obtain ⟨m, rfl⟩ : ∃ k, m = 1 + k := ⟨m - 1, by omega⟩
    rw [← List.drop_drop] at hp
    exact hp.isInfix.trans (List.drop_suffix _ _).isInfix
  · intro h ⟨a, c, e⟩
    have := (rfind_some (by simp) h).2 (1 + a.length) (by omega)
    apply this
    rw [← List.drop_drop, ← e, List.append_assoc, List.drop_left]
    exact List.prefix_append _ _

/-- What the start line does for a response. -/
theorem startLine_resp {l v st msg : Bytes} (h : IsStatusLine l v st msg) {n : Int} (hn : intDec st = some n) (body : Bytes) :
    startLine l { body } =
      { body, isResponse := true, validResp := true,
        headers := hset (hset (hset (hset [] kVersion (.one v)) kMessage (.one (msg.map blank))) kStatus (.num n)) kLine (.one l) } := by
  obtain ⟨⟨a, ha, b, hb, e⟩, hv, hs, ho⟩ := h
  have h0 : b!"HTTP/" <+: l := ⟨v ++ [a] ++ st ++ [b] ++ msg, by rw [e]; simp⟩
  unfold startLine
  rw [(once_rfind h0).1 ho]
  dsimp only
  unfold respLine
  have hspl : splitByte 32 3 (replace1 47 [32] l) = [b!"HTTP", v, st, msg.map blank] := by
    rw [replace_map, e]
    have e1 : (b!"HTTP/" ++ v ++ [a] ++ st ++ [b] ++ msg).map blank = b!"HTTP" ++ 32 :: (v ++ 32 :: (st ++ 32 :: msg.map blank)) := by
      simp only [List.map_append, (map_clean hv).1, (map_clean hs).1, List.map_cons, List.map_nil, blank_eq.2 ha, blank_eq.2 hb]
      simp [blank]
    rw [e1, splitByte_cons (by decide), splitByte_cons (fun hc => (hv _ hc).1 rfl), splitByte_cons (fun hc => (hs _ hc).1 rfl), splitByte_zero]
  rw [hspl]
  dsimp only
  rw [hn]
  rfl

/-- And only then the line is one of a response. -/
theorem startLine_valid {l body : Bytes} (h : (startLine l { body }).validResp = true) : ∃ v st msg n, IsStatusLine l v st msg ∧ intDec st = some n := by
  unfold startLine at h
  dsimp only at h
  split at h
  · rename_i hr
    obtain ⟨h0, _⟩ := rfind_some (by simp) hr
    rw [List.drop_zero] at h0
    have ho := (once_rfind h0).2 hr
    unfold respLine at h
    dsimp only at h
    split at h
    · rename_i w v st msg hs
      split at h
      · rename_i n hn
        rw [replace_map] at hs
        -- undo the split
        have cut : ∀ (s : Bytes) (k : Nat) (x y : Bytes) (zs : List Bytes), splitByte 32 (k + 1) (s.map blank) = x :: y :: zs →
            ∃ s1 a s2, s = s1 ++ a :: s2 ∧ a ∈ b!" /" ∧ x = s1.map blank ∧ (∀ c ∈ s1, c ≠ 32 ∧ c ≠ 47) ∧ splitByte 32 k (s2.map blank) = y :: zs := by
          intro s k x y zs hx
          by_cases hm : (32 : UInt8) ∈ s.map blank
          · obtain ⟨m, u, e, hmm⟩ := mem_split_first hm
            rw [e, splitByte_cons hmm] at hx
            obtain ⟨s1, s', rfl, e1, e2⟩ := List.map_eq_append_iff.1 e
            obtain ⟨a, s2, rfl, e3, e4⟩ := List.map_eq_cons_iff.1 e2
            simp only [List.cons.injEq] at hx
            refine ⟨s1, a, s2, rfl, blank_eq.1 e3, by rw [e1]; exact hx.1.symm, ?_, by rw [e4]; exact hx.2⟩
            intro c hc
            have : blank c ≠ 32 := fun hb => hmm (by rw [← e1, ← hb]; exact List.mem_map_of_mem hc)
            constructor
            · rintro rfl; exact this rfl
            · rintro rfl; exact this rfl
          · rw [splitByte_notMem hm] at hx; simp at hx
        obtain ⟨s1, a1, r1, rfl, ha1, e1, c1, hs1⟩ := cut _ _ _ _ _ hs
        obtain ⟨s2, a2, r2, rfl, ha2, e2, c2, hs2⟩ := cut _ _ _ _ _ hs1
        obtain ⟨s3, a3, r3, rfl, ha3, e3, c3, hs3⟩ := cut _ _ _ _ _ hs2
        rw [(map_clean c2).1] at e2
        rw [(map_clean c3).1] at e3
        subst e2 e3
        -- the first part is `HTTP`
        have hs1' : s1 = b!"HTTP" ∧ a1 = 47 := by
          obtain ⟨t, ht⟩ := h0
          match s1, c1, ht with
          | [], c1, ht => simp only [List.nil_append, List.cons_append, List.cons.injEq] at ht; rw [← ht.1] at ha1; simp at ha1
          | [x1], c1, ht => simp only [List.nil_append, List.cons_append, List.cons.injEq] at ht; rw [← ht.2.1] at ha1; simp at ha1
          | [x1, x2], c1, ht => simp only [List.nil_append, List.cons_append, List.cons.injEq] at ht; rw [← ht.2.2.1] at ha1; simp at ha1
          | [x1, x2, x3], c1, ht => simp only [List.nil_append, List.cons_append, List.cons.injEq] at ht; rw [← ht.2.2.2.1] at ha1; simp at ha1
          | [x1, x2, x3, x4], c1, ht => simp only [List.nil_append, List.cons_append, List.cons.injEq] at ht; obtain ⟨rfl, rfl, rfl, rfl, rfl, _⟩ := ht; exact ⟨rfl, rfl⟩
          | x1 :: x2 :: x3 :: x4 :: x5 :: s, c1, ht =>
            simp only [List.nil_append, List.cons_append, List.cons.injEq] at ht
            exact absurd ht.2.2.2.2.1.symm (c1 x5 (by simp)).2
        obtain ⟨rfl, rfl⟩ := hs1'
        exact ⟨v, st, r3, n, ⟨⟨a2, ha2, a3, ha3, by simp⟩, c2, c3, ho⟩, hn⟩
      · cases h
    · cases h
  · split at h
    · unfold reqLine at h
      dsimp only at h
      split at h <;> cases h
    · cases h
  · cases h

theorem finish_resp (p : Parsed) : (finish p).validResp = p.validResp := by unfold finish; split <;> rfl

theorem loop_resp {ex : List Bytes} {mls : Nat} : ∀ {lines : List Bytes} {left : Nat} {p : Parsed}, (parseLoop ex mls false left p lines).validResp = true →
    p.validResp = true ∧ lines.length ≤ left ∧ (∀ l ∈ lines, LineOk mls l) ∧ ∃ ps : List (Bytes × Bytes), lines.map splitField = ps.map some
  | [], left, p, h => by
    rw [parseLoop, finish_resp] at h
    exact ⟨h, by simp, (fun _ h => by cases h), [], rfl⟩
  | l :: ls, left, p, h => by
    rw [parseLoop] at h
    split at h
    · cases h
    · rename_i hn
      simp only [not_or, Nat.not_lt] at hn
      rw [if_neg (by simp)] at h
      split at h
      · rename_i name value hf
        obtain ⟨h1, h2, h3, ps, h4⟩ := loop_resp h
        refine ⟨h1, by simp; omega, ?_, (name, value) :: ps, by simp [hf, h4]⟩
        intro x hx
        rcases List.mem_cons.1 hx with rfl | hx
        · exact ⟨hn.2.1, fun hc => hn.2.2 (contains_singleton.2 hc)⟩
        · exact h3 x hx
      · rw [finish_resp] at h; cases h

theorem fields_some {ls : List Bytes} {ps : List (Bytes × Bytes)} (h : ls.map splitField = ps.map some) :
    ∃ nv : List (Bytes × Bytes), All2 (fun l q => IsFieldLine l q.1 q.2) ls nv ∧ ps = nv.map (fun q => (lower q.1, if startsWith q.2 [32] then q.2.drop 1 else q.2)) := by
  induction ls generalizing ps with
  | nil => cases ps with
    | nil => exact ⟨[], .nil, rfl⟩
    | cons => simp at h
  | cons l ls ih =>
    cases ps with
    | nil => simp at h
    | cons q ps =>
      simp only [List.map_cons, List.cons.injEq] at h
      obtain ⟨nv, h1, h2⟩ := ih h.2
      obtain ⟨n, v, h3, h4⟩ := splitField_some h.1
      exact ⟨(n, v) :: nv, .cons h3 h1, by simp [h2, h4]⟩

theorem fields_ok {ls : List Bytes} {nv : List (Bytes × Bytes)} (h : All2 (fun l q => IsFieldLine l q.1 q.2) ls nv) :
    ls.map splitField = (nv.map (fun q => (lower q.1, if startsWith q.2 [32] then q.2.drop 1 else q.2))).map some := by
  induction h with
  | nil => rfl
  | cons h _ ih => simp only [List.map_cons, ih, splitField_ok h]

end ResponseHead

open ResponseHead in
theorem parse_response {data : Bytes} {hs : Nat} {ex : List Bytes} {mx mls : Nat} {l0 v st msg : Bytes} {ls : List Bytes} {n : Int} {nv : List (Bytes × Bytes)}
    (h : HeadLines (data.take hs) (l0 :: ls)) (hc : ls.length + 1 ≤ mx) (hsz : ∀ l ∈ l0 :: ls, l.length ≤ mls) (h0 : IsStatusLine l0 v st msg) (hn : intDec st = some n)
    (hf : All2 (fun l q => IsFieldLine l q.1 q.2) ls nv) :
    parse data hs ex mx mls =
      { isResponse := true, validResp := true, body := data.drop (hs + 2),
        headers := (nv.map (fun q => (lower q.1, if startsWith q.2 [32] then q.2.drop 1 else q.2))).foldl (fun h q => addField h q.1 q.2)
          (hset (hset (hset (hset [] kVersion (.one v)) kMessage (.one (msg.map blank))) kStatus (.num n)) kLine (.one l0)),
        list := (nv.map (fun q => (lower q.1, if startsWith q.2 [32] then q.2.drop 1 else q.2))).filter (fun q => ¬ q.1 ∈ ex) } := by
  have hlf : ∀ l ∈ l0 :: ls, (10 : UInt8) ∉ l := by obtain ⟨_, _, hh, _⟩ := h; exact hh
  unfold parse
  rw [crlfLines_headLines h, parseLoop, if_neg (by
    intro hx; rcases hx with hx | hx | hx
    · omega
    · have := hsz l0 (by simp); omega
    · exact hlf l0 (by simp) (contains_singleton.1 hx))]
  rw [if_pos rfl, startLine_resp h0 hn, loop_ok (by omega) (fun l hl => ⟨hsz l (by simp [hl]), hlf l (by simp [hl])⟩) (fields_ok hf)]
  simp [applyFields, finish]

open ResponseHead in
/-- **C04 (responses)**: `is_valid_response` holds iff the head consists of lines within the limits, the first a status line with a number,
the others field lines. -/
theorem C04_response_iff (data : Bytes) (hs : Nat) (ex : List Bytes) (mx mls : Nat) :
    (parse data hs ex mx mls).validResp = true ↔
    ∃ l0 ls v st msg n, ∃ nv : List (Bytes × Bytes), HeadLines (data.take hs) (l0 :: ls) ∧ ls.length + 1 ≤ mx ∧ (∀ l ∈ l0 :: ls, l.length ≤ mls) ∧
      IsStatusLine l0 v st msg ∧ intDec st = some n ∧ All2 (fun l q => IsFieldLine l q.1 q.2) ls nv := by
  constructor
  · intro h
    unfold parse at h
    cases hl : crlfLines (data.take hs) with
    | nil => rw [hl, parseLoop, finish_resp] at h; cases h
    | cons l0 ls =>
      rw [hl, parseLoop] at h
      split at h
      · cases h
      · rename_i hn
        simp only [not_or, Nat.not_lt] at hn
        rw [if_pos rfl] at h
        obtain ⟨h1, h2, h3, ps, h4⟩ := loop_resp h
        obtain ⟨v, st, msg, n, h5, h6⟩ := startLine_valid h1
        obtain ⟨nv, h7, _⟩ := fields_some h4
        have hlf : ∀ l ∈ crlfLines (data.take hs), (10 : UInt8) ∉ l := by
          rw [hl]; intro l hm
          rcases List.mem_cons.1 hm with rfl | hm
          · exact fun hc => hn.2.2 (contains_singleton.2 hc)
          · exact (h3 l hm).2
        have hhl := headLines_of (Nat.le_refl _) hlf
        rw [hl] at hhl
        refine ⟨l0, ls, v, st, msg, n, nv, hhl, by omega, fun l hm => ?_, h5, h6, h7⟩
        rcases List.mem_cons.1 hm with rfl | hm
        · omega
        · exact (h3 l hm).1
  · rintro ⟨l0, ls, v, st, msg, n, nv, h1, h2, h3, h4, h5, h6⟩
    rw [parse_response h1 h2 h3 h4 h5 h6]

/-- **C04 (status)**: of such a head the status is that number, and version and reason are those of the line, slashes in the reason read as
blanks, unless a field takes the name; it is not a request. -/
theorem C04_response_values {data : Bytes} {hs : Nat} {ex : List Bytes} {mx mls : Nat} {l0 v st msg : Bytes} {ls : List Bytes} {n : Int} {nv : List (Bytes × Bytes)}
    (h : HeadLines (data.take hs) (l0 :: ls)) (hc : ls.length + 1 ≤ mx) (hsz : ∀ l ∈ l0 :: ls, l.length ≤ mls) (h0 : IsStatusLine l0 v st msg) (hn : intDec st = some n)
    (hf : All2 (fun l q => IsFieldLine l q.1 q.2) ls nv) (hr : ∀ q ∈ nv, lower q.1 ∉ [b!"_version", b!"_status", b!"_message"]) :
    let p := parse data hs ex mx mls
    hget p.headers b!"_status" = some (.num n) ∧ hget p.headers b!"_version" = some (.one v) ∧ hget p.headers b!"_message" = some (.one (replace1 47 [32] msg)) ∧
      p.isRequest = false ∧ p.validReq = false ∧ p.body = data.drop (hs + 2) := by
  intro p
  have none : ∀ k ∈ [b!"_version", b!"_status", b!"_message"], valuesOf (nv.map (fun q => (lower q.1, if startsWith q.2 [32] then q.2.drop 1 else q.2))) k = [] := by
    intro k hk
    rw [valuesOf_eq_nil]
    intro q hq e
    obtain ⟨q', hq', rfl⟩ := List.mem_map.1 hq
    exact hr q' hq' (by rw [show lower q'.1 = k from e]; exact hk)
  have e := parse_response (ex := ex) h hc hsz h0 hn hf
  refine ⟨?_, ?_, ?_, ?_, ?_, ?_⟩ <;> simp only [p] <;> rw [e] <;> dsimp only
  · rw [hget_fold, none _ (by simp)]; simp [hget_hset]
  · rw [hget_fold, none _ (by simp)]; simp [hget_hset]
  · rw [hget_fold, none _ (by simp)]; simp [hget_hset, ResponseHead.replace_map]

/-- `HTTP/1.1 404 Not/Found`. -/
example : IsStatusLine b!"HTTP/1.1 404 Not/Found" b!"1.1" b!"404" b!"Not/Found" :=
  ⟨⟨32, by simp, 32, by simp, rfl⟩, by decide, by decide, by rw [← find_eq_none_iff']; decide⟩
example : hget (parse b!"HTTP/1.1 404 Not/Found\r\nA: b\r\n\r\nxyz" 30).headers b!"_message" = some (.one b!"Not Found") ∧
    (parse b!"HTTP/1.1 404 Not/Found\r\nA: b\r\n\r\nxyz" 30).validResp = true ∧ (parse b!"HTTP/1.1 4o4 Not/Found\r\nA: b\r\n\r\nxyz" 30).validResp = false := by decide +kernel

end Verif
