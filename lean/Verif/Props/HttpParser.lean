import Verif.Proofs.HttpParser
import Verif.Py.Util
/-!
# C03–C06  Request heads: parsing, validity, round trip, forging
-/
namespace Verif
open Py Model.HttpParser Spec.HttpParser Proofs.HttpParser

namespace Proofs.HttpParser

/-! ### Well-formed heads as lines -/

theorem Field.isFieldLine {f : Field} (h : f.Wf) :
    IsFieldLine f.line f.name ((if f.space then b!" " else []) ++ f.value) := by
  refine ⟨by simp [Field.line], h.ne, fun hc => h.colon (List.mem_of_mem_tail hc), h.last⟩

theorem Field.splitField {f : Field} (h : f.Wf) :
    Model.HttpParser.splitField f.line = some (lower f.name, f.value) := by
  rw [splitField_ok (Field.isFieldLine h)]
  cases hs : f.space with
  | true => simp [startsWith, List.isPrefixOf]
  | false =>
    have := h.sp hs
    cases hv : f.value with
    | nil => simp [startsWith]
    | cons a t =>
      rw [hv] at this
      simp at this
      simp [startsWith, List.isPrefixOf, Ne.symm this]

theorem Field.lf {f : Field} (h : f.Wf) : (10 : UInt8) ∉ f.line := by
  have h1 := h.lfName; have h2 := h.lfValue
  unfold Field.line; cases f.space <;> simp [h1, h2]

theorem Field.line_ne {f : Field} : f.line ≠ [] := by simp [Field.line]
theorem ReqHead.line_ne {r : ReqHead} : r.line ≠ [] := by simp [ReqHead.line]

/-- lines of a head -/
def headLinesOf (r : ReqHead) : List Bytes := r.line :: r.fields.map Field.line

theorem text_eq (r : ReqHead) : r.text = ((headLinesOf r).map (· ++ CRLF)).flatten := by
  simp [ReqHead.text, headLinesOf, Function.comp_def]

theorem headLines_text {r : ReqHead} {a b : Nat} (h : r.Wf a b) : HeadLines r.text (headLinesOf r) := by
  refine ⟨[], by simp [text_eq], ?_, by decide⟩
  intro l hl
  rcases List.mem_cons.1 hl with rfl | hl
  · exact h.lf
  · obtain ⟨f, hf, rfl⟩ := List.mem_map.1 hl
    exact Field.lf (h.fields f hf)

theorem isRequestLine {r : ReqHead} {a b : Nat} (h : r.Wf a b) : IsRequestLine r.line r.method r.url r.version :=
  ⟨rfl, h.methodSp, h.version⟩

/-- The blank line found in LF-free text. -/
theorem find_crlf2_step {l s : Bytes} (h : (10 : UInt8) ∉ l) :
    find CRLF2 (l ++ CRLF ++ s) = if CRLF <+: s then some l.length else (find CRLF2 s).map (· + (l.length + 2)) := by
  induction l with
  | nil =>
    by_cases hs : CRLF <+: s
    · obtain ⟨t, rfl⟩ := hs
      simp [find, List.isPrefixOf]
    · have e : List.isPrefixOf CRLF s = false := by
        cases hb : List.isPrefixOf CRLF s with
        | false => rfl
        | true => exact absurd (isPrefixOf_iff.1 hb) hs
      rw [if_neg hs]
      have e2 : List.isPrefixOf CRLF2 (13 :: 10 :: s) = false := by
        simpa [List.isPrefixOf] using e
      simp only [List.nil_append, List.cons_append, find, e2]
      simp [List.isPrefixOf, Function.comp_def]
  | cons c t ih =>
    have ht : (10 : UInt8) ∉ t := fun h' => h (by simp [h'])
    have hp : List.isPrefixOf CRLF2 (c :: (t ++ CRLF ++ s)) = false := by
      cases t with
      | nil => simp [List.isPrefixOf]
      | cons d t =>
        have : d ≠ 10 := fun e => ht (by simp [e])
        simp [List.isPrefixOf, Ne.symm this]
    rw [List.cons_append, List.cons_append, find, hp, ih ht]
    by_cases hs : CRLF <+: s
    · simp [hs]
    · simp [hs, Function.comp_def, Nat.add_assoc, Nat.add_comm, Nat.add_left_comm]

theorem not_crlf_prefix {l s : Bytes} (h : (10 : UInt8) ∉ l) (hne : l ≠ []) : ¬ CRLF <+: l ++ CRLF ++ s := by
  intro hp
  match l, hne with
  | [c], _ => simp at hp
  | c :: d :: t, _ =>
    simp at hp
    exact h (by simp [← hp.2])

theorem find_blank_lines : ∀ {ls : List Bytes} {rest : Bytes}, ls ≠ [] → (∀ l ∈ ls, (10 : UInt8) ∉ l ∧ l ≠ []) →
    find CRLF2 ((ls.map (· ++ CRLF)).flatten ++ CRLF ++ rest) = some (((ls.map (· ++ CRLF)).flatten).length - 2)
  | [], _, h, _ => absurd rfl h
  | [l], rest, _, h => by
    have := find_crlf2_step (l := l) (s := CRLF ++ rest) (h l (by simp)).1
    rw [if_pos (by simp)] at this
    simpa using this
  | l :: m :: ls, rest, _, h => by
    have ih := find_blank_lines (ls := m :: ls) (rest := rest) (by simp) (fun l hl => h l (by simp [hl]))
    have := find_crlf2_step (l := l) (s := (((m :: ls).map (· ++ CRLF)).flatten ++ CRLF ++ rest)) (h l (by simp)).1
    rw [if_neg, ih] at this
    · have e : (((l :: m :: ls).map (· ++ CRLF)).flatten ++ CRLF ++ rest) =
          l ++ CRLF ++ (((m :: ls).map (· ++ CRLF)).flatten ++ CRLF ++ rest) := by simp
      rw [e, this]
      simp; omega
    · have hm := h m (by simp)
      have := not_crlf_prefix (s := (ls.map (· ++ CRLF)).flatten ++ CRLF ++ rest) hm.1 hm.2
      simpa using this

theorem find_blank {r : ReqHead} {a b : Nat} (h : r.Wf a b) (rest : Bytes) :
    find CRLF2 (r.wire rest) = some (r.text.length - 2) := by
  unfold ReqHead.wire
  rw [text_eq]
  apply find_blank_lines
  · simp [headLinesOf]
  · intro l hl
    rcases List.mem_cons.1 hl with rfl | hl
    · exact ⟨h.lf, ReqHead.line_ne⟩
    · obtain ⟨f, hf, rfl⟩ := List.mem_map.1 hl
      exact ⟨Field.lf (h.fields f hf), Field.line_ne⟩

theorem text_length (r : ReqHead) : 2 ≤ r.text.length := by simp [ReqHead.text]; omega

/-- The dictionary after the request line. -/
def lineDict (l m u v : Bytes) : HDict :=
  hset (hset (hset (hset [] kMethod (.one m)) kUrl (.one u)) kVersion (.one v)) kLine (.one l)

theorem parse_lines {data : Bytes} {hs : Nat} {ex : List Bytes} {mx mls : Nat} {l0 m u v : Bytes} {ls : List Bytes}
    {ps : List (Bytes × Bytes)} (h : HeadLines (data.take hs) (l0 :: ls)) (h0 : IsRequestLine l0 m u v)
    (hc : ls.length + 1 ≤ mx) (hsz : ∀ l ∈ l0 :: ls, l.length ≤ mls) (hf : ls.map splitField = ps.map some) :
    parse data hs ex mx mls = finish
      { isRequest := true, validReq := true, body := data.drop (hs + 2),
        headers := ps.foldl (fun h q => addField h q.1 q.2) (lineDict l0 m u v),
        list := ps.filter (fun q => ¬ q.1 ∈ ex) } := by
  have hlf : ∀ l ∈ l0 :: ls, (10 : UInt8) ∉ l := by obtain ⟨_, _, hh, _⟩ := h; exact hh
  unfold parse
  rw [crlfLines_headLines h, parseLoop, if_neg (by
    intro hx; rcases hx with hx | hx | hx
    · omega
    · have := hsz l0 (by simp); omega
    · exact hlf l0 (by simp) (contains_singleton.1 hx))]
  rw [if_pos rfl, startLine_req h0, loop_ok (by omega) (fun l hl => ⟨hsz l (by simp [hl]), hlf l (by simp [hl])⟩) hf]
  simp [applyFields, lineDict]

theorem hget_lineDict (l m u v : Bytes) :
    hget (lineDict l m u v) kMethod = some (.one m) ∧ hget (lineDict l m u v) kUrl = some (.one u) ∧
    hget (lineDict l m u v) kVersion = some (.one v) ∧ hget (lineDict l m u v) kLine = some (.one l) ∧
    ∀ k, k ∉ reserved → hget (lineDict l m u v) k = none := by
  unfold lineDict
  simp only [hget_hset]
  refine ⟨by simp, by simp, by simp, by simp, fun k hk => ?_⟩
  simp [reserved] at hk
  rw [if_neg (Ne.symm hk.2.2.2), if_neg (Ne.symm hk.2.2.1),
    if_neg (Ne.symm hk.2.1), if_neg (Ne.symm hk.1)]
  rfl

theorem finish_hget (p : Parsed) (k : Bytes) (hk : k ≠ kHost) : hget (finish p).headers k = hget p.headers k := by
  unfold finish; split
  · rw [hget_hset_ne _ _ (Ne.symm hk)]
  · rfl

theorem finish_fields (p : Parsed) : (finish p).isRequest = p.isRequest ∧ (finish p).list = p.list ∧
    (finish p).body = p.body := by
  unfold finish; split <;> simp

theorem parse_wf {r : ReqHead} {mx mls : Nat} (h : r.Wf mx mls) (ex : List Bytes) (rest : Bytes) :
    parse (r.wire rest) r.text.length ex mx mls = finish
      { isRequest := true, validReq := true, body := rest,
        headers := r.pairs.foldl (fun h q => addField h q.1 q.2) (lineDict r.line r.method r.url r.version),
        list := r.pairs.filter (fun q => ¬ q.1 ∈ ex) } := by
  have ht : (r.wire rest).take r.text.length = r.text := by simp [ReqHead.wire]
  have hd : (r.wire rest).drop (r.text.length + 2) = rest := by
    unfold ReqHead.wire; apply List.drop_left'; simp
  have := parse_lines (data := r.wire rest) (hs := r.text.length) (ex := ex) (mx := mx) (mls := mls) (ps := r.pairs)
    (l0 := r.line) (ls := r.fields.map Field.line) (by rw [ht]; exact headLines_text h) (isRequestLine h)
    (by simpa using h.count) (by
      intro l hl
      rcases List.mem_cons.1 hl with rfl | hl
      · exact h.size0
      · obtain ⟨f, hf, rfl⟩ := List.mem_map.1 hl
        exact h.size f hf)
    (by
      simp only [List.map_map, ReqHead.pairs]
      apply List.map_congr_left
      intro f hf
      exact Field.splitField (h.fields f hf))
  rw [this, hd]

theorem hmem_host {r : ReqHead} {l m u v : Bytes} : hmem (r.pairs.foldl (fun h q => addField h q.1 q.2) (lineDict l m u v)) kHost
    = true ↔ ∃ f ∈ r.fields, lower f.name = b!"host" := by
  unfold hmem
  rw [hget_fold, (hget_lineDict l m u v).2.2.2.2 kHost (by decide), fold_isSome]
  simp [valuesOf, ReqHead.pairs]

end Proofs.HttpParser

/-! ## C03 -/

/-- **C03.** A well-formed request head, followed by any bytes, parses to exactly its parts: a valid request with this
method, URL and version, the field list in order (names lower-cased), the rest as body. -/
theorem C03_parse {r : ReqHead} {mx mls : Nat} (h : r.Wf mx mls) (hn : r.NoReserved) (rest : Bytes) :
    let p := parse (r.wire rest) r.text.length [] mx mls
    p.isRequest = true ∧ p.validReq = true ∧
    getmethod p = some (.one r.method) ∧ geturl p = some (.one r.url) ∧ getversion p = some (.one r.version) ∧
    p.list = r.pairs ∧ p.body = rest := by
  intro p
  have hp : p = _ := parse_wf h [] rest
  have hv : ∀ k ∈ reserved, valuesOf r.pairs k = [] := by
    intro k hk
    rw [valuesOf_eq_nil]
    intro q hq e
    obtain ⟨f, hf, rfl⟩ := List.mem_map.1 hq
    exact hn f hf (by rw [show lower f.name = k from e]; exact hk)
  obtain ⟨d1, d2, d3, _, _⟩ := hget_lineDict r.line r.method r.url r.version
  refine ⟨?_, ?_, ?_, ?_, ?_, ?_, ?_⟩
  · rw [hp, (finish_fields _).1]
  · rw [hp, finish_valid]
    simp only [Bool.true_and, Bool.not_eq_true', Bool.and_eq_false_imp, Bool.not_eq_true']
    intro hm
    rw [hget_fold, d3, hv _ (by decide)]
    simp only [List.foldl_nil]
    by_cases hver : r.version = b!"1.1"
    · rw [hmem_host.2 (h.host hver)] at hm; cases hm
    · simpa using hver
  · rw [hp, getmethod, finish_hget _ _ (by decide), hget_fold, d1, hv _ (by decide)]; rfl
  · rw [hp, geturl, finish_hget _ _ (by decide), hget_fold, d2, hv _ (by decide)]; rfl
  · rw [hp, getversion, finish_hget _ _ (by decide), hget_fold, d3, hv _ (by decide)]; rfl
  · rw [hp, (finish_fields _).2.1]; simp
  · rw [hp, (finish_fields _).2.2]

/-- **C03 (dictionary).** `request.headers[name]` is missing, the single value, or the list of all values in order,
according to the fields with that (lower-case) name.  (`host` gets an empty default.) -/
theorem C03_dictionary {r : ReqHead} {mx mls : Nat} (h : r.Wf mx mls) (rest : Bytes) (k : Bytes)
    (hk : k ∉ reserved) (hh : k ≠ b!"host") :
    hget (parse (r.wire rest) r.text.length [] mx mls).headers k =
      match valuesOf r.pairs k with | [] => none | [v] => some (.one v) | vs => some (.many vs) := by
  rw [parse_wf h, finish_hget _ _ hh, hget_fold, (hget_lineDict _ _ _ _).2.2.2.2 k hk, fold_none]
  all_goals rfl

/-- **C03 (blank line search).** Without an explicit header size the parser finds the end of the head by itself: it
behaves as if given the true size, provided the blank line lies within `header_max_size`. -/
theorem C03_auto {r : ReqHead} {mls : Nat} (h : r.Wf 100 mls) (old : Parsed) (rest : Bytes) (hms : Nat)
    (hsz : r.text.length + 2 ≤ hms) :
    parseAuto old (r.wire rest) hms = parse (r.wire rest) r.text.length := by
  unfold parseAuto
  have h2 := text_length r
  have hf : find CRLF2 ((r.wire rest).take hms) = some (r.text.length - 2) := by
    apply find_of_append (t := (r.wire rest).drop hms)
    · rw [List.take_append_drop]; exact find_blank h rest
    · simp [ReqHead.wire]; omega
  rw [hf]
  simp only
  rw [show r.text.length - 2 + 2 = r.text.length by omega]

/-- The example head used below: `POST /a b?HTTP/ HTTP/1.1`, `Host:x`, `X-A: 1`, `x-a: 2`. -/
def exHead : ReqHead := ⟨b!"POST", b!"/a b?HTTP/", b!"1.1", [⟨b!"Host", false, b!"x"⟩, ⟨b!"X-A", true, b!"1"⟩, ⟨b!"x-a", true, b!" 2"⟩]⟩

theorem exHead_wf : exHead.Wf 100 8190 where
  methodSp := by decide
  lf := by decide
  version := by rw [← find_eq_none_iff']; decide
  fields := by
    intro f hf
    simp [exHead] at hf
    rcases hf with rfl | rfl | rfl <;>
    exact ⟨by decide, by decide, by decide, by decide, by decide, by decide⟩
  host := by intro _; exact ⟨⟨b!"Host", false, b!"x"⟩, by simp [exHead], by decide⟩
  count := by decide
  size0 := by decide
  size := by
    intro f hf
    simp [exHead] at hf
    rcases hf with rfl | rfl | rfl <;> decide

example : exHead.NoReserved := by
  intro f hf
  simp [exHead] at hf
  rcases hf with rfl | rfl | rfl <;> decide
example : (parse (exHead.wire b!"body") exHead.text.length).list = [(b!"host", b!"x"), (b!"x-a", b!"1"), (b!"x-a", b!" 2")] := by
  decide +kernel
example : hget (parse (exHead.wire b!"body") exHead.text.length).headers b!"x-a" = some (.many [b!"1", b!" 2"]) := by
  decide +kernel

/-! ## C04 -/

/-- **C04 (exact validity).** `is_valid_request` holds iff the head consists of CRLF-ended lines without LF inside, at
most `max_lines` of them, none longer than `max_line_size`, the first a request line and the others field lines — and
`version` (as stored after all fields were read) is not `1.1` or there is a Host field. -/
theorem C04_valid_iff (data : Bytes) (hs : Nat) (ex : List Bytes) (mx mls : Nat) :
    (parse data hs ex mx mls).validReq = true ↔
    ∃ l0 ls m u v, ∃ nv : List (Bytes × Bytes), HeadLines (data.take hs) (l0 :: ls) ∧ ls.length + 1 ≤ mx ∧
      (∀ l ∈ l0 :: ls, l.length ≤ mls) ∧ IsRequestLine l0 m u v ∧
      All2 (fun l q => IsFieldLine l q.1 q.2) ls nv ∧
      ((v = b!"1.1" ∧ ∀ q ∈ nv, lower q.1 ≠ b!"_version") → ∃ q ∈ nv, lower q.1 = b!"host") := by
  have key : ∀ (ls : List Bytes) (nv : List (Bytes × Bytes)), All2 (fun l q => IsFieldLine l q.1 q.2) ls nv →
      ls.map splitField = (nv.map (fun q => (lower q.1, if startsWith q.2 [32] then q.2.drop 1 else q.2))).map some := by
    intro ls nv hF
    induction hF with
    | nil => rfl
    | cons h _ ih => simp only [List.map_cons, ih, splitField_ok h]
  have keyInv : ∀ (ls : List Bytes) (ps : List (Bytes × Bytes)), ls.map splitField = ps.map some →
      ∃ nv : List (Bytes × Bytes), All2 (fun l q => IsFieldLine l q.1 q.2) ls nv ∧
        ps = nv.map (fun q => (lower q.1, if startsWith q.2 [32] then q.2.drop 1 else q.2)) := by
    intro ls
    induction ls with
    | nil => intro ps h; cases ps with
      | nil => exact ⟨[], .nil, rfl⟩
      | cons => simp at h
    | cons l ls ih =>
      intro ps h
      cases ps with
      | nil => simp at h
      | cons q ps =>
        simp only [List.map_cons, List.cons.injEq] at h
        obtain ⟨nv, h1, h2⟩ := ih ps h.2
        obtain ⟨n, v, h3, h4⟩ := splitField_some h.1
        exact ⟨(n, v) :: nv, .cons h3 h1, by simp [h2, h4]⟩
  -- the validity of a head whose lines are fine
  have fin : ∀ l0 m u v (nv : List (Bytes × Bytes)) (b : Bytes) (lst : List (Bytes × Bytes)),
      (finish
        { isRequest := true, validReq := true, body := b, list := lst,
          headers := (nv.map (fun q => (lower q.1, if startsWith q.2 [32] then q.2.drop 1 else q.2))).foldl
            (fun h q => addField h q.1 q.2) (lineDict l0 m u v) }).validReq = true ↔
      ((v = b!"1.1" ∧ ∀ q ∈ nv, lower q.1 ≠ b!"_version") → ∃ q ∈ nv, lower q.1 = b!"host") := by
    intro l0 m u v nv b lst
    generalize hps : nv.map (fun q => (lower q.1, if startsWith q.2 [32] then q.2.drop 1 else q.2)) = ps
    rw [finish_valid]
    have hhost : hmem (ps.foldl (fun h q => addField h q.1 q.2) (lineDict l0 m u v)) kHost = true ↔
        ∃ q ∈ nv, lower q.1 = b!"host" := by
      unfold hmem
      rw [hget_fold, (hget_lineDict l0 m u v).2.2.2.2 kHost (by decide), fold_isSome]
      have hne : valuesOf ps kHost = [] ↔ ¬ ∃ q ∈ nv, lower q.1 = b!"host" := by
        rw [valuesOf_eq_nil, ← hps]
        constructor
        · rintro h ⟨q, hq, e⟩
          exact h _ (List.mem_map.2 ⟨q, hq, rfl⟩) e
        · intro h q hq e
          obtain ⟨q', hq', rfl⟩ := List.mem_map.1 hq
          exact h ⟨q', hq', e⟩
      cases hvs : valuesOf ps kHost with
      | nil => simpa using hne.1 hvs
      | cons w ws =>
        simp only [Option.isSome_none, List.isEmpty_cons, Bool.not_false, Bool.or_true, true_iff]
        apply Classical.byContradiction
        intro hc
        rw [hne.2 hc] at hvs; cases hvs
    have hver : hget (ps.foldl (fun h q => addField h q.1 q.2) (lineDict l0 m u v)) kVersion = some (.one b!"1.1") ↔
        (v = b!"1.1" ∧ ∀ q ∈ nv, lower q.1 ≠ b!"_version") := by
      rw [hget_fold, (hget_lineDict l0 m u v).2.2.1]
      cases hvs : valuesOf ps kVersion with
      | nil =>
        have h0 := valuesOf_eq_nil.1 hvs
        simp only [List.foldl_nil, Option.some.injEq, HVal.one.injEq]
        refine ⟨fun h => ⟨h, fun q hq => ?_⟩, fun h => h.1⟩
        exact h0 (lower q.1, if startsWith q.2 [32] then q.2.drop 1 else q.2) (by rw [← hps]; exact List.mem_map.2 ⟨q, hq, rfl⟩)
      | cons w ws =>
        simp only [List.foldl_cons, addVal, fold_many]
        refine ⟨fun h => (by simp at h), fun h => ?_⟩
        have : valuesOf ps kVersion = [] := by
          rw [valuesOf_eq_nil, ← hps]
          intro q hq
          obtain ⟨q', hq', rfl⟩ := List.mem_map.1 hq
          exact h.2 q' hq'
        rw [this] at hvs; cases hvs
    rw [← hver, ← hhost]
    simp only [Bool.true_and, Bool.not_eq_true', Bool.and_eq_false_imp]
    constructor
    · intro h hv
      cases hm : hmem (ps.foldl (fun h q => addField h q.1 q.2) (lineDict l0 m u v)) kHost with
      | true => rfl
      | false => rw [hm, hv] at h; simp at h
    · intro h hm
      cases hb : (hget (ps.foldl (fun h q => addField h q.1 q.2) (lineDict l0 m u v)) kVersion == some (.one b!"1.1")) with
      | false => rfl
      | true => rw [h (by simpa using hb)] at hm; cases hm
  constructor
  · intro h
    have h' := h
    unfold parse at h
    cases hl : crlfLines (data.take hs) with
    | nil => rw [hl, parseLoop, finish_valid] at h; simp at h
    | cons l0 ls =>
      rw [hl, parseLoop] at h
      split at h
      · simp at h
      · rename_i hn
        simp only [not_or, Nat.not_lt] at hn
        rw [if_pos rfl] at h
        obtain ⟨h1, h2, h3, ps, h4⟩ := loop_valid h
        have hreq : ∃ m u v, IsRequestLine l0 m u v := by
          apply Classical.byContradiction; intro hno
          rw [startLine_notReq hno _ rfl] at h1; cases h1
        obtain ⟨m, u, v, hreq⟩ := hreq
        obtain ⟨nv, h5, rfl⟩ := keyInv ls ps h4
        have hlf : ∀ l ∈ crlfLines (data.take hs), (10 : UInt8) ∉ l := by
          rw [hl]; intro l hm
          rcases List.mem_cons.1 hm with rfl | hm
          · exact fun hc => hn.2.2 (contains_singleton.2 hc)
          · exact (h3 l hm).2
        have hhl := headLines_of (Nat.le_refl _) hlf
        rw [hl] at hhl
        have hsz : ∀ l ∈ l0 :: ls, l.length ≤ mls := by
          intro l hm
          rcases List.mem_cons.1 hm with rfl | hm
          · omega
          · exact (h3 l hm).1
        refine ⟨l0, ls, m, u, v, nv, hhl, by omega, hsz, hreq, h5, ?_⟩
        rw [parse_lines hhl hreq (by omega) hsz h4] at h'
        exact (fin _ _ _ _ _ _ _).1 h'
  · rintro ⟨l0, ls, m, u, v, nv, h1, h2, h3, h4, h5, h6⟩
    rw [parse_lines h1 h4 h2 h3 (key ls nv h5)]
    exact (fin _ _ _ _ _ _ _).2 h6

/-- **C04 (soundness, partial).** A valid request obeys all line limits and the grammar, and an HTTP/1.1 request
carries a Host field *unless the client also sent a field named `_version`*.  Missing for the full claim: exactly that
exception, see `C04_refuted_host`. -/
theorem C04_sound_partial {data : Bytes} {hs : Nat} {ex : List Bytes} {mx mls : Nat}
    (h : (parse data hs ex mx mls).validReq = true) :
    ∃ l0 ls m u v, ∃ nv : List (Bytes × Bytes), HeadLines (data.take hs) (l0 :: ls) ∧ ls.length + 1 ≤ mx ∧
      (∀ l ∈ l0 :: ls, l.length ≤ mls) ∧ IsRequestLine l0 m u v ∧
      All2 (fun l q => IsFieldLine l q.1 q.2) ls nv ∧
      (v = b!"1.1" → (∃ q ∈ nv, lower q.1 = b!"host") ∨ ∃ q ∈ nv, lower q.1 = b!"_version") := by
  obtain ⟨l0, ls, m, u, v, nv, h1, h2, h3, h4, h5, h6⟩ := (C04_valid_iff ..).1 h
  refine ⟨l0, ls, m, u, v, nv, h1, h2, h3, h4, h5, fun hv => ?_⟩
  by_cases hx : ∃ q ∈ nv, lower q.1 = b!"_version"
  · exact .inr hx
  · exact .inl (h6 ⟨hv, fun q hq e => hx ⟨q, hq, e⟩⟩)

/-- A client can have a HTTP/1.1 request without Host accepted by adding a `_version` field: the Host clause of C04 is
false of this code. -/
theorem C04_refuted_host :
    (parse b!"GET / HTTP/1.1\r\n_version: 1\r\n\r\n" 29).validReq = true ∧
    (parse b!"GET / HTTP/1.1\r\n_version: 1\r\n\r\n" 29).list = [(b!"_version", b!"1")] := by
  decide +kernel

example : (parse (exHead.wire b!"body") exHead.text.length).validReq = true := by decide +kernel
example : (parse b!"GET / HTTP/1.1\r\nA: b\r\n\r\n" 22).validReq = false := by decide +kernel
example : (parse b!"GET / HTTP/1.0\r\nA : b\r\n\r\n" 23).validReq = false := by decide +kernel

/-! ## C05 -/

namespace Proofs.HttpParser

/-- The normal form a saved head has: lower-case names and exactly one space after the colon. -/
def normal (r : ReqHead) : ReqHead := { r with fields := r.fields.map (fun f => ⟨lower f.name, true, f.value⟩) }

theorem lowerB_ne (c d : UInt8) (hd : d = 58 ∨ d = 10 ∨ d = 32) : lowerB c = d ↔ c = d := by
  rcases hd with rfl | rfl | rfl
  · revert c; apply forall_u8; decide +kernel
  · revert c; apply forall_u8; decide +kernel
  · revert c; apply forall_u8; decide +kernel

theorem lower_mem {s : Bytes} {d : UInt8} (hd : d = 58 ∨ d = 10 ∨ d = 32) : d ∈ lower s ↔ d ∈ s := by
  unfold lower
  rw [List.mem_map]
  constructor
  · rintro ⟨c, hc, e⟩; rw [(lowerB_ne c d hd).1 e] at hc; exact hc
  · intro h; exact ⟨d, h, (lowerB_ne d d hd).2 rfl⟩

theorem lowerB_idem (c : UInt8) : lowerB (lowerB c) = lowerB c := by
  revert c; apply forall_u8; decide +kernel
theorem lower_idem (s : Bytes) : lower (lower s) = lower s := by
  simp [lower, lowerB_idem]

theorem field_wf_lower {f : Field} (h : f.Wf) : (⟨lower f.name, true, f.value⟩ : Field).Wf where
  ne := by simpa [lower] using h.ne
  colon := by rw [lower_mem (by simp)]; exact h.colon
  last := by
    have := h.last
    simp only [lower, List.getLast?_map]
    cases hx : f.name.getLast? with
    | none => simp
    | some c =>
      rw [hx] at this
      simp at this ⊢
      rw [lowerB_ne c 32 (by simp)]; exact this
  lfName := by rw [lower_mem (by simp)]; exact h.lfName
  lfValue := h.lfValue
  sp := by simp

theorem normal_pairs (r : ReqHead) : (normal r).pairs = r.pairs := by
  simp [normal, ReqHead.pairs, lower_idem]

theorem join_crlf (a : Bytes) (ls : List Bytes) : join CRLF (a :: ls) ++ CRLF = a ++ CRLF ++ (ls.map (· ++ CRLF)).flatten := by
  induction ls generalizing a with
  | nil => simp [join]
  | cons b ls ih =>
    have := ih b
    rw [join, List.append_assoc, this]; simp

theorem save_eq {p : Parsed} {l : Bytes} {fs : List Field} (h1 : hget p.headers kLine = some (.one l))
    (h2 : p.list = fs.map (fun f => (f.name, f.value))) :
    save p = some (l ++ CRLF ++ (fs.map (fun f => (⟨f.name, true, f.value⟩ : Field).line ++ CRLF)).flatten ++ CRLF ++ p.body) := by
  unfold save
  rw [h1, h2]
  have : ∀ x : Bytes, x ++ CRLF2 = (x ++ CRLF) ++ CRLF := by intro x; simp
  simp only [this, join_crlf, List.map_map]
  simp [Field.line, join, Function.comp_def]

end Proofs.HttpParser

/-- **C05 (round trip).** Saving a parsed well-formed head gives its normal form (lower-case names, one space after each
colon), and parsing the saved bytes gives again the same request line parts, field list and body. -/
theorem C05_roundtrip {r : ReqHead} {mx mls : Nat} (h : r.Wf mx mls) (hn : r.NoReserved)
    (hsz : ∀ f ∈ r.fields, f.name.length + 2 + f.value.length ≤ mls) (rest : Bytes) :
    let p := parse (r.wire rest) r.text.length [] mx mls
    ∃ saved hs, save p = some saved ∧ find CRLF2 saved = some (hs - 2) ∧ 2 ≤ hs ∧
      let q := parse saved hs [] mx mls
      q.isRequest = true ∧ q.validReq = true ∧
      getmethod q = some (.one r.method) ∧ geturl q = some (.one r.url) ∧ getversion q = some (.one r.version) ∧
      hget q.headers b!"_line" = hget p.headers b!"_line" ∧ q.list = p.list ∧ q.body = p.body ∧ save q = some saved := by
  intro p
  have hp : p = _ := parse_wf h [] rest
  have hn' : (normal r).NoReserved := by
    intro f hf
    obtain ⟨g, hg, rfl⟩ := List.mem_map.1 hf
    simpa [lower_idem] using hn g hg
  have hw : (normal r).Wf mx mls := by
    refine ⟨h.methodSp, h.lf, h.version, ?_, ?_, ?_, h.size0, ?_⟩
    · intro f hf
      obtain ⟨g, hg, rfl⟩ := List.mem_map.1 hf
      exact field_wf_lower (h.fields g hg)
    · intro hv
      obtain ⟨g, hg, e⟩ := h.host hv
      exact ⟨⟨lower g.name, true, g.value⟩, List.mem_map.2 ⟨g, hg, rfl⟩, by simpa [lower_idem] using e⟩
    · simpa [normal] using h.count
    · intro f hf
      obtain ⟨g, hg, rfl⟩ := List.mem_map.1 hf
      have := hsz g hg
      simp [Field.line, lower]; omega
  have line_of : ∀ {r : ReqHead}, r.Wf mx mls → r.NoReserved → ∀ rest,
      hget (parse (r.wire rest) r.text.length [] mx mls).headers kLine = some (.one r.line) := by
    intro r h hn rest
    rw [parse_wf h, finish_hget _ _ (by decide), hget_fold, (hget_lineDict _ _ _ _).2.2.2.1]
    have : valuesOf r.pairs kLine = [] := by
      rw [valuesOf_eq_nil]
      intro q hq e
      obtain ⟨f, hf, rfl⟩ := List.mem_map.1 hq
      exact hn f hf (by rw [show lower f.name = kLine from e]; decide)
    rw [this]; rfl
  have hl := line_of h hn rest
  obtain ⟨-, -, -, -, -, p6, p7⟩ := C03_parse h hn rest
  obtain ⟨q1, q2, q3, q4, q5, q6, q7⟩ := C03_parse hw hn' rest
  have hs1 : save p = some ((normal r).wire rest) := by
    rw [save_eq (fs := r.fields.map (fun f => ⟨lower f.name, true, f.value⟩)) hl (by
      rw [p6]; simp [ReqHead.pairs])]
    show some (_ ++ (parse (r.wire rest) r.text.length [] mx mls).body) = _
    rw [p7]
    simp [ ReqHead.wire, ReqHead.text, normal, ReqHead.line, Function.comp_def]
  have hs2 : save (parse ((normal r).wire rest) (normal r).text.length [] mx mls) = some ((normal r).wire rest) := by
    rw [save_eq (fs := (normal r).fields) (line_of hw hn' rest) (by
      rw [q6]; simp [ReqHead.pairs, normal, lower_idem])]
    rw [q7]
    simp [ReqHead.wire, ReqHead.text, normal, ReqHead.line, Function.comp_def]
  refine ⟨(normal r).wire rest, (normal r).text.length, hs1, find_blank hw rest, text_length _, q1, q2, ?_⟩
  refine ⟨q3, q4, q5, ?_, ?_, ?_, hs2⟩
  · exact (line_of hw hn' rest).trans hl.symm
  · rw [q6, normal_pairs]; exact p6.symm
  · rw [q7]; exact p7.symm

/-- **C05 (edits).** `remove` deletes exactly the fields whose names are given and keeps the order of the others;
`append` adds at the end; neither changes anything else; `save` writes the edited list, one line per field. -/
theorem C05_edits (p : Parsed) (names : List Bytes) (fs : List (Bytes × Bytes)) :
    (remove p names).list = p.list.filter (fun f => decide (f.1 ∉ names)) ∧
    (append p fs).list = p.list ++ fs ∧
    (remove p names).headers = p.headers ∧ (append p fs).headers = p.headers ∧
    (remove p names).body = p.body ∧ (append p fs).body = p.body ∧
    ∀ l q, hget q.headers b!"_line" = some (.one l) →
      save q = some (l ++ CRLF ++ (q.list.map (fun f => f.1 ++ b!": " ++ f.2 ++ CRLF)).flatten ++ CRLF ++ q.body) := by
  refine ⟨rfl, rfl, rfl, rfl, rfl, rfl, fun l q hq => ?_⟩
  rw [save_eq (fs := q.list.map (fun f => ⟨f.1, true, f.2⟩)) hq (by simp [Function.comp_def])]
  simp [Field.line, Function.comp_def]

example : ∀ f ∈ exHead.fields, f.name.length + 2 + f.value.length ≤ 8190 := by
  intro f hf
  simp [exHead] at hf
  rcases hf with rfl | rfl | rfl <;> decide
example : save (remove (parse (exHead.wire b!"B") exHead.text.length) [b!"x-a"]) =
    some b!"POST /a b?HTTP/ HTTP/1.1\r\nhost: x\r\n\r\nB" := by decide +kernel

/-! ## C06 -/

/-- **C06 (exact).** What the application reads as method/URL/version for *any* valid request: the part of the request
line, made into a list with all values of client fields of that reserved name appended. -/
theorem C06_seen_exact {data : Bytes} {hs : Nat} {ex : List Bytes} {mx mls : Nat}
    (h : (parse data hs ex mx mls).validReq = true) :
    ∃ l0 ls m u v, ∃ ps : List (Bytes × Bytes), HeadLines (data.take hs) (l0 :: ls) ∧ IsRequestLine l0 m u v ∧
      All2 (fun l q => ∃ n w, IsFieldLine l n w ∧ q.1 = lower n) ls ps ∧
      let seen := fun (x : Bytes) (extra : List Bytes) => if extra = [] then HVal.one x else .many (x :: extra)
      let p := parse data hs ex mx mls
      getmethod p = some (seen m (valuesOf ps b!"_method")) ∧ geturl p = some (seen u (valuesOf ps b!"_url")) ∧
      getversion p = some (seen v (valuesOf ps b!"_version")) := by
  obtain ⟨l0, ls, m, u, v, nv, h1, h2, h3, h4, h5, -⟩ := (C04_valid_iff ..).1 h
  have hF : ∀ (ls : List Bytes) (nv : List (Bytes × Bytes)), All2 (fun l q => IsFieldLine l q.1 q.2) ls nv →
      ls.map splitField = (nv.map (fun q => (lower q.1, if startsWith q.2 [32] then q.2.drop 1 else q.2))).map some ∧
      All2 (fun l q => ∃ n w, IsFieldLine l n w ∧ q.1 = lower n) ls
        (nv.map (fun q => (lower q.1, if startsWith q.2 [32] then q.2.drop 1 else q.2))) := by
    intro ls nv hF
    induction hF with
    | nil => exact ⟨rfl, .nil⟩
    | cons h _ ih => exact ⟨by simp only [List.map_cons, ih.1, splitField_ok h], .cons ⟨_, _, h, rfl⟩ ih.2⟩
  obtain ⟨k1, k2⟩ := hF ls nv h5
  refine ⟨l0, ls, m, u, v, _, h1, h4, k2, ?_⟩
  have fold_some : ∀ (x : Bytes) (vs : List Bytes), vs.foldl addVal (some (.one x)) =
      some (if vs = [] then HVal.one x else .many (x :: vs)) := by
    intro x vs
    cases vs with
    | nil => rfl
    | cons w ws => simp [addVal, fold_many]
  simp only [getmethod, geturl, getversion]
  rw [parse_lines h1 h4 h2 h3 k1]
  obtain ⟨d1, d2, d3, -, -⟩ := hget_lineDict l0 m u v
  refine ⟨?_, ?_, ?_⟩
  · rw [finish_hget _ _ (by decide), hget_fold, d1, fold_some]
  · rw [finish_hget _ _ (by decide), hget_fold, d2, fold_some]
  · rw [finish_hget _ _ (by decide), hget_fold, d3, fold_some]

/-- **C06 (partial).** If no field is named `_method`, `_url` or `_version` (in any letter case), then method, URL and
version come from the request line only.  Missing for the full claim: requests with such fields, see
`C06_refuted_forge`. -/
theorem C06_request_line_partial {data : Bytes} {hs : Nat} {ex : List Bytes} {mx mls : Nat}
    (h : (parse data hs ex mx mls).validReq = true)
    (hn : ∀ ls n w, HeadLines (data.take hs) ls → ∀ l ∈ ls.tail, IsFieldLine l n w → lower n ∉ reserved) :
    ∃ l0 ls m u v, HeadLines (data.take hs) (l0 :: ls) ∧ IsRequestLine l0 m u v ∧
      let p := parse data hs ex mx mls
      getmethod p = some (.one m) ∧ geturl p = some (.one u) ∧ getversion p = some (.one v) := by
  obtain ⟨l0, ls, m, u, v, ps, h1, h2, h3, h4, h5, h6⟩ := C06_seen_exact h
  have hv : ∀ k ∈ reserved, valuesOf ps k = [] := by
    intro k hk
    rw [valuesOf_eq_nil]
    intro q hq e
    have : ∃ l ∈ ls, ∃ n w, IsFieldLine l n w ∧ q.1 = lower n := by
      clear h1 h4 h5 h6
      induction h3 with
      | nil => cases hq
      | cons hx _ ih =>
        rcases List.mem_cons.1 hq with rfl | hq
        · exact ⟨_, by simp, hx⟩
        · obtain ⟨l, hl, r⟩ := ih hq; exact ⟨l, by simp [hl], r⟩
    obtain ⟨l, hl, n, w, hf, e2⟩ := this
    exact hn _ n w h1 l (by simpa using hl) hf (by rw [← e2, e]; exact hk)
  refine ⟨l0, ls, m, u, v, h1, h2, ?_, ?_, ?_⟩
  · rw [h4, hv _ (by decide)]; rfl
  · rw [h5, hv _ (by decide)]; rfl
  · rw [h6, hv _ (by decide)]; rfl

/-- C06 is false of this code: a field named `_Version` changes the version that the application (and the framing
decision) sees, on a request the parser calls valid. -/
theorem C06_refuted_forge :
    let p := parse b!"GET / HTTP/1.1\r\nHost: a\r\n_Version: 1.0\r\n\r\n" 40
    p.validReq = true ∧ getversion p = some (.many [b!"1.1", b!"1.0"]) := by
  decide +kernel

end Verif
