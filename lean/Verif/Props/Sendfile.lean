import Verif.Proofs.SendfileRun
import Verif.Props.ResponseEnds
/-!
# `sendfile`: C25, C26, C64
-/
namespace Verif
open Verif.Py Verif.Model.Response Verif.Model.Sendfile Verif.Model.HttpParser Verif.Spec.Response Verif.Spec.Sendfile Verif.Proofs.Response Verif.Proofs.Sendfile

/-! ## Parsing ranges -/

/-- The Range header of a request asks for the elements `es`: in one header or spread over several. -/
def Asks (h : HVal) (es : List Elem) : Prop :=
  (h = .one (headerText es) ∧ es ≠ []) ∨ ∃ gs : List (List Elem), h = .many (gs.map headerText) ∧ gs ≠ [] ∧ (∀ g ∈ gs, g ≠ []) ∧ gs.flatten = es

theorem asks_parse {h : HVal} {es : List Elem} (ha : Asks h es) (hok : ∀ e ∈ es, e.Ok) (hl : es.length ≤ 101) (fs : Int) :
    parseRanges fs h = parseList fs (es.map Elem.text) := by
  rcases ha with ⟨rfl, hne⟩ | ⟨gs, rfl, h1, h2, rfl⟩
  · exact parseRanges_header hne hok hl fs
  · exact parseRanges_groups h1 h2 (fun g hg e he => hok e (List.mem_flatten.2 ⟨g, hg, he⟩)) hl fs

/-- **C25**, accepted values: up to 101 ranges that lie within the file, written with any leading zeros and white space,
in one header or several, give exactly their positions and lengths. -/
theorem C25_parse {h : HVal} {es : List Elem} (ha : Asks h es) (hok : ∀ e ∈ es, e.Ok) (hl : es.length ≤ 101) {size : Nat} {ps : List (Nat × Nat)}
    (hp : es.map (fun e => e.range.within size) = ps.map some) :
    parseRanges size h = .ok (ps.map (fun p => ((p.1 : Int), (p.2 : Int), (p.2 : Int) - p.1 + 1))) := by
  rw [asks_parse ha hok hl, (parseList_within hok hp).1]; rfl

/-- A range that does not lie within the file, behind ranges that do, is not satisfiable (except for the two odd forms). -/
theorem C25_unsatisfiable {h : HVal} {es : List Elem} {e : Elem} {post : List Elem} (ha : Asks h (es ++ e :: post)) (hok : ∀ x ∈ es ++ e :: post, x.Ok)
    (hl : (es ++ e :: post).length ≤ 101) {size : Nat} (hin : ∀ x ∈ es, x.range.within size ≠ none) (ho : e.range.within size = none) (no : ¬ e.range.Odd) :
    parseRanges size h = .error (.http 416 b!"Range Not Satisfiable" htmlType) := by
  have hps : ∃ ps : List (Nat × Nat), es.map (fun e => e.range.within size) = ps.map some := by
    clear ha hok hl
    induction es with
    | nil => exact ⟨[], rfl⟩
    | cons x t ih =>
      obtain ⟨ps, h⟩ := ih (fun y hy => hin y (by simp [hy]))
      cases hx : x.range.within size with
      | none => exact absurd hx (hin x (by simp))
      | some p => exact ⟨p :: ps, by simp [hx, h]⟩
  obtain ⟨ps, hps⟩ := hps
  rw [asks_parse ha hok hl, List.map_append, parseList_append, (parseList_within (fun x hx => hok x (by simp [hx])) hps).1]
  simp only [List.map_cons, parseList, strip_elem (hok e (by simp)), parse_beyond (hok e (by simp)).2.1 ho no]

/-- **C25**, every header value: what is accepted is at least one range, and every range starts and ends within the file
and has the matching size; the only exception is an empty range at the end of the file. What is refused is refused with
400 or 416 (or is no text at all). -/
theorem C25_sound (size : Nat) (h : HVal) :
    match parseRanges size h with
    | .ok rs => rs ≠ [] ∧ ∀ r ∈ rs, 0 ≤ r.1 ∧ r.2.1 < (size : Int) ∧ r.2.2 = r.2.1 - r.1 + 1 ∧ (r.1 ≤ r.2.1 ∨ (r.1 = size ∧ r.2.2 = 0))
    | .error e => e = .http 400 b!"Bad Request" htmlType ∨ e = .http 416 b!"Range Not Satisfiable" htmlType ∨ ((∃ n, h = .num n) ∧ e = .other) := by
  unfold parseRanges
  cases hh : rangeText h with
  | error e =>
    cases h with
    | num n => cases hh; exact .inr (.inr ⟨⟨n, rfl⟩, rfl⟩)
    | one b => unfold rangeText at hh; dsimp only at hh; split at hh <;> cases hh; exact .inl rfl
    | many bs => unfold rangeText at hh; dsimp only at hh; split at hh <;> cases hh; exact .inl rfl
  | ok t =>
    dsimp only
    cases hp : parseList size (splitByte 44 100 (replace b!"bytes=" [] t)) with
    | error e => rcases parseList_error hp with h | h <;> simp [h, badRange, notSatisfiable]
    | ok rs =>
      have ⟨h1, h2⟩ := parseList_sound hp
      refine ⟨fun e => ?_, h2⟩
      rw [e] at h1
      have hz : splitByte 44 100 (replace b!"bytes=" [] t) = [] := List.length_eq_zero_iff.1 h1.symm
      by_cases hm : (44 : UInt8) ∈ replace b!"bytes=" [] t
      · obtain ⟨m, r, hr, hm⟩ := Proofs.HttpParser.mem_split_first hm
        rw [hr, Proofs.HttpParser.splitByte_cons hm 99] at hz
        cases hz
      · rw [Proofs.HttpParser.splitByte_notMem hm] at hz
        cases hz

/-- **C25**, malformed values: a value (one of several) without `bytes=` in front is refused with 400. -/
theorem C25_unit (size : Nat) (b : Bytes) (hb : ∀ t, b ≠ b!"bytes=" ++ t) :
    parseRanges size (.one b) = .error (.http 400 b!"Bad Request" htmlType) ∧
    ∀ bs, b ∈ bs → parseRanges size (.many bs) = .error (.http 400 b!"Bad Request" htmlType) := by
  have hs : startsWith b b!"bytes=" = false := by
    cases hc : startsWith b b!"bytes=" with
    | false => rfl
    | true =>
      obtain ⟨t, ht⟩ := List.isPrefixOf_iff_prefix.1 hc
      exact absurd ht.symm (hb t)
  refine ⟨?_, fun bs hbs => ?_⟩
  · unfold parseRanges; simp only [rangeText, hs]; rfl
  · have : bs.all (startsWith · b!"bytes=") = false := by
      rw [List.all_eq_false]; exact ⟨b, hbs, by simp [hs]⟩
    unfold parseRanges; simp only [rangeText, this]; rfl

/-- A list whose first element has no `-`, or a byte that no number contains, is refused with 400. -/
theorem C25_malformed (size : Nat) {v t : Bytes} (hv : (44 : UInt8) ∉ v ∧ (98 : UInt8) ∉ v)
    (hb : (45 : UInt8) ∉ v ∨ ∃ c ∈ v, ¬ (isSpace c = true ∨ c = b!"+"[0] ∨ c = b!"-"[0] ∨ (48 ≤ c ∧ c ≤ 57) ∨ c = b!"_"[0])) :
    parseRanges size (.one (b!"bytes=" ++ v ++ (44 :: t))) = .error (.http 400 b!"Bad Request" htmlType) ∧
    parseRanges size (.one (b!"bytes=" ++ v)) = .error (.http 400 b!"Bad Request" htmlType) := by
  have hr : parseRange size (strip v) = .error badRange := by
    rcases hb with h | ⟨c, hc, hn⟩
    · exact parseRange_noDash (fun hm => h (mem_of_strip hm))
    · exact parseRange_badByte (mem_strip hc (numeric_false hn)) hn
  have hs : ∀ u, startsWith (b!"bytes=" ++ u) b!"bytes=" = true := fun u => List.isPrefixOf_iff_prefix.2 ⟨_, rfl⟩
  refine ⟨?_, ?_⟩
  · unfold parseRanges
    rw [List.append_assoc]
    simp only [rangeText, hs, if_true]
    rw [replace_bytes, replace_skip hv.2]
    have : replace b!"bytes=" [] (44 :: t) = 44 :: replace b!"bytes=" [] t := replace_skip (t := [44]) (by decide) t
    rw [this, Proofs.HttpParser.splitByte_cons hv.1 99, parseList, hr]
  · unfold parseRanges
    simp only [rangeText, hs, if_true]
    rw [replace_bytes, replace_absent hv.2, Proofs.HttpParser.splitByte_notMem hv.1, parseList, hr]

/-- Three ranges in two headers, with white space and zeros; one beyond the end; malformed ones. -/
example : Asks (.many [b!"bytes=0-1, 02-3", b!"bytes= -4"]) [⟨[], .between b!"0" b!"1", []⟩, ⟨b!" ", .between b!"02" b!"3", []⟩, ⟨b!" ", .suffix b!"4", []⟩] ∧
    parseRanges 10 (.many [b!"bytes=0-1, 02-3", b!"bytes= -4"]) = .ok [(0, 1, 2), (2, 3, 2), (6, 9, 4)] ∧
    parseRanges 10 (.one b!"bytes=0-1,10-") = .error notSatisfiable ∧ parseRanges 10 (.one b!"bytes=7") = .error badRange ∧
    parseRanges 10 (.one b!"bytes=a-7") = .error badRange ∧ parseRanges 10 (.one b!"octets=0-1") = .error badRange :=
  ⟨.inr ⟨[[⟨[], .between b!"0" b!"1", []⟩, ⟨b!" ", .between b!"02" b!"3", []⟩], [⟨b!" ", .suffix b!"4", []⟩]], by decide, by simp, by simp, rfl⟩,
    by rfl, by rfl, by rfl, by rfl, by rfl⟩

/-- **C25 fails** in four ways. `5-0` is answered with byte 5; -/
theorem C25_refuted_zero : parseRanges 10 (.one b!"bytes=5-0") = .ok [(5, 5, 1)] := by rfl
/-- a range that begins within the file but ends behind it is refused instead of cut; -/
theorem C25_refuted_cut : parseRanges 10 (.one b!"bytes=0-999") = .error notSatisfiable := by rfl
/-- numbers with signs and underscores are accepted; -/
theorem C25_refuted_number : parseRanges 100 (.one b!"bytes=1_0-+1_2") = .ok [(10, 12, 3)] := by rfl
/-- and for an empty suffix no head is ever sent, only the end markers of `sendfile` and of the handler's return. -/
theorem C25_refuted_empty : (handleRequest {} { handler := handler [] (sendfile {} { range := some (.one b!"bytes=-0") } (some ⟨b!"hello", b!"M"⟩) none) .none }
    { keepalive := true }).log = [.mark true, .mark false] := by decide +kernel

/-! ## Running the calls -/

/-- The arguments of `sendfile` are usable: a buffer, and no LF in the content type and date. -/
structure Usable (a : Args) (f : File) : Prop where
  buffer : 0 < a.o.bufferSize
  marks : a.o.marks = true
  size : a.fileSize = 0
  ctype : (10 : UInt8) ∉ a.ctype
  mdate : (10 : UInt8) ∉ f.mdate

theorem asked_raw (o : SendOpts) (ds : List Bytes) : asked ((ds.map (fun d => Emit.body (framed false d) o)).map Emit.op) = ds.flatten.map some := by
  induction ds with
  | nil => rfl
  | cons d t ih =>
    simp only [List.map_cons, Emit.op, asked, ih, List.flatten_cons, List.map_append]
    rfl

theorem wire_raw {t : Bytes} {o : SendOpts} (ho : 0 < o.bufferSize) (ds : List Bytes) (k : Bool) :
    wire (.head t [] { throttle := false } :: ds.map (fun d => .body (framed false d) o) ++ [.mark k]) = (t ++ ds.flatten).map some ++ [none] := by
  rw [wire_closed]
  · rw [List.map_cons, Emit.op, asked, asked_raw]; simp
  · intro e he
    rcases List.mem_cons.1 he with rfl | he
    · simp [Emit.op, SendOp.Ok]
    · obtain ⟨d, _, rfl⟩ := List.mem_map.1 he
      exact fun _ => ho

theorem wire_chunks {t : Bytes} {o : SendOpts} (ho : 0 < o.bufferSize) (ds : List Bytes) (hd : ∀ d ∈ ds, d ≠ []) (k : Bool) :
    wire (.head t [] { throttle := false } :: (ds ++ [[]]).map (fun d => .body (framed true d) o) ++ [.mark k]) =
      (t ++ Spec.Body.encode (ds.map chunkOf) (Spec.Body.lastChunk b!"0" [] CRLF)).map some ++ [none] := by
  have hf : ds.filter (· ≠ []) = ds := List.filter_eq_self.2 (fun d h => by simpa using hd d h)
  have hb : bodies true o ds = ds.map (fun d => .body (framed true d) o) := by
    unfold bodies; rw [hf]
  rw [wire_closed]
  · rw [List.map_append, ← hb]
    have := asked_bodies o ds (framed true [])
    rw [hf] at this
    have e : (bodies true o ds ++ [[]].map (fun d => Emit.body (framed true d) o)).map Emit.op =
        (bodies true o ds).map Emit.op ++ [.send (framed true []) o] := by simp [Emit.op]
    have e2 : (t ++ Spec.Body.encode (ds.map chunkOf) (framed true [])).map some =
        t.map some ++ (Spec.Body.encode (ds.map chunkOf) (framed true [])).map some := List.map_append
    rw [List.map_cons, Emit.op, asked, e, asked_append, ← last_frame, e2, ← this]
    simp [asked]
  · intro e he
    rcases List.mem_cons.1 he with rfl | he
    · simp [Emit.op, SendOp.Ok]
    · obtain ⟨d, _, rfl⟩ := List.mem_map.1 he
      exact fun _ => ho

/-- The log ends with its only end marker. -/
def Ends (log : List Emit) (k : Bool) : Prop := ∃ l, log = l ++ [.mark k] ∧ marks l = []

/-! ## C26 -/

/-- The whole file is to be sent: the request has no range that counts, and the client's copy is not known to be current. -/
def WantsWhole (c : Cfg) (a : Args) (f : File) : Prop :=
  (a.range ≠ none ∧ c.version = b!"1.1" ∧ a.ifRange ≠ none ∧ a.ifRange ≠ some (.one f.mdate)) ∨
  ((a.range = none ∨ c.version ≠ b!"1.1") ∧ a.ifModified ≠ some (.one f.mdate))

theorem wants_whole {c : Cfg} {a : Args} {f : File} (u : Usable a f) (w : WantsWhole c a f) :
    sendfile c a (some f) none = (whole c a f.content.length f.mdate f.content, none) := by
  unfold sendfile
  simp only [u.size, if_true, Option.getD_none]
  rcases w with ⟨h1, h2, h3, h4⟩ | ⟨h1, h2⟩
  · cases hr : a.range with
    | none => exact absurd hr h1
    | some r => simp only [h2, if_true, if_pos (And.intro h3 h4)]
  · have hn : sendfile.noRange c a f.content.length f.mdate f.content = (whole c a f.content.length f.mdate f.content, none) := by
      unfold sendfile.noRange; rw [if_neg h2]
    cases hr : a.range with
    | none => exact hn
    | some r =>
      rcases h1 with h1 | h1
      · rw [hr] at h1; cases h1
      · simp only [if_neg h1]; exact hn

/-- The calls of the head of a whole file. -/
def wholeCalls (c : Cfg) (a : Args) (f : File) : List Call :=
  [.setContentType a.ctype, .setHeader b!"Last-Modified" f.mdate, .setHeader b!"Content-Length" (fmtNat f.content.length)] ++
    if c.version = b!"1.1" then [.setHeader b!"Accept-Ranges" b!"bytes"] else []

theorem whole_eq (c : Cfg) (a : Args) (f : File) : whole c a f.content.length f.mdate f.content =
    (wholeCalls c a f).map call ++ ((readAll a.o.bufferSize f.content).map (fun d => call (.write (some d) (some false) a.o)) ++ [call (.close true)]) := by
  unfold whole wholeCalls plain
  split <;> simp

theorem wholeCalls_sets {c : Cfg} {a : Args} {f : File} (u : Usable a f) : ∀ x ∈ wholeCalls c a f, Sets x := by
  intro x hx
  unfold wholeCalls at hx
  simp only [List.mem_append, List.mem_cons, List.not_mem_nil, or_false] at hx
  rcases hx with (rfl | rfl | rfl) | hx
  · exact u.ctype
  · exact ⟨by decide, u.mdate, by decide, by decide⟩
  · exact ⟨by decide, fmtNat_noLF _, by decide, by decide⟩
  · split at hx
    · simp only [List.mem_singleton] at hx; subst hx; exact ⟨by decide, by decide, by decide, by decide⟩
    · cases hx

theorem whole_lines {c : Cfg} {a : Args} {f : File} (u : Usable a f) (calls : List Call) :
    linesFor kCL (calls ++ wholeCalls c a f) = [line b!"Content-Length" (fmtNat f.content.length)] ∧
    linesFor b!"last-modified" (calls ++ wholeCalls c a f) = [b!"Last-Modified: " ++ f.mdate] ∧
    lastStatus (calls ++ wholeCalls c a f) = lastStatus calls ∧ lastType (calls ++ wholeCalls c a f) = a.ctype := by
  have e : calls ++ wholeCalls c a f = calls ++ [.setContentType a.ctype] ++ [.setHeader b!"Last-Modified" f.mdate] ++
      [.setHeader b!"Content-Length" (fmtNat f.content.length)] ++ if c.version = b!"1.1" then [.setHeader b!"Accept-Ranges" b!"bytes"] else [] := by
    unfold wholeCalls; simp
  rw [e]
  have base : linesFor kCL (calls ++ [.setContentType a.ctype] ++ [.setHeader b!"Last-Modified" f.mdate] ++ [.setHeader b!"Content-Length" (fmtNat f.content.length)]) =
      [line b!"Content-Length" (fmtNat f.content.length)] := linesFor_set (by decide) (fmtNat_noLF _) (by decide) _
  have base2 : linesFor b!"last-modified" (calls ++ [.setContentType a.ctype] ++ [.setHeader b!"Last-Modified" f.mdate] ++
      [.setHeader b!"Content-Length" (fmtNat f.content.length)]) = [b!"Last-Modified: " ++ f.mdate] := by
    rw [untouched_snoc (by intro x hx; simp only [List.mem_singleton] at hx; subst hx; simp only [touches, decide_eq_false_iff_not]; decide)]
    exact linesFor_set (by decide) u.mdate (by decide) _
  have base3 : lastStatus (calls ++ [.setContentType a.ctype] ++ [.setHeader b!"Last-Modified" f.mdate] ++ [.setHeader b!"Content-Length" (fmtNat f.content.length)]) =
      lastStatus calls := by simp only [lastStatus_snoc]
  have base4 : lastType (calls ++ [.setContentType a.ctype] ++ [.setHeader b!"Last-Modified" f.mdate] ++ [.setHeader b!"Content-Length" (fmtNat f.content.length)]) =
      a.ctype := by
    rw [lastType_snoc]; simp only
    rw [if_neg (by rintro ⟨_, _, h⟩; revert h; decide), lastType_snoc]; simp only
    rw [if_neg (by rintro ⟨_, _, h⟩; revert h; decide), lastType_snoc]; simp only [if_neg u.ctype]
  by_cases hv : c.version = b!"1.1"
  · rw [if_pos hv]
    refine ⟨?_, ?_, ?_, ?_⟩
    · rw [untouched_snoc (by intro x hx; simp only [List.mem_singleton] at hx; subst hx; simp only [touches, decide_eq_false_iff_not]; decide)]; exact base
    · rw [untouched_snoc (by intro x hx; simp only [List.mem_singleton] at hx; subst hx; simp only [touches, decide_eq_false_iff_not]; decide)]; exact base2
    · rw [lastStatus_snoc]; exact base3
    · rw [lastType_snoc]; simp only
      rw [if_neg (by rintro ⟨_, _, h⟩; revert h; decide)]; exact base4
  · rw [if_neg hv, List.append_nil]; exact ⟨base, base2, base3, base4⟩

/-- **C26**, the whole file: after any calls that set up the head, `sendfile` sends one head with the status and headers asked
for, the file's type, its date and its exact length, then exactly the content of the file and one end marker, which
keeps the connection if the request asked for that. -/
theorem C26_whole {c : Cfg} (hc : CfgOk c) {s s1 : St} (fs : Fresh s) {pre : Script} (hf : Script.Fine pre)
    (hr : runScript c ((.setBaseHeader, false) :: pre) s = (.ok (), s1)) {a : Args} {f : File} (u : Usable a f) (w : WantsWhole c a f)
    (nb : bodyless c (lastStatus (callsOf pre)).1 = false) :
    ∃ sc s' t rest v x, sendfile c a (some f) none = (sc, none) ∧ runScript c sc s1 = (.ok (), s') ∧
      HeadIs t (statusLine c (lastStatus (callsOf pre))) rest ∧
      named b!"content-type" rest = [x] ∧ Spec.Response.valueOf x = lstrip a.ctype ∧ named b!"last-modified" rest = [b!"Last-Modified: " ++ f.mdate] ∧
      named b!"content-length" rest = [b!"Content-Length: " ++ v] ∧ Spec.Head.Canonical v ∧ Spec.Head.valueOf v = f.content.length ∧
      (∀ n, n ∉ ownNames → n ∉ [b!"last-modified", b!"accept-ranges"] → named n rest = linesFor n (callsOf pre)) ∧
      named b!"transfer-encoding" rest = linesFor b!"transfer-encoding" (callsOf pre) ∧
      wire s'.log = (t ++ f.content).map some ++ [none] ∧ Ends s'.log s.keepalive := by
  have i := script_inv hc fs hf hr
  obtain ⟨s2, r2, i2⟩ := sets_all hc (wholeCalls c a f) i (wholeCalls_sets u)
  have ⟨l1, l2, l3, l4⟩ := whole_lines (c := c) u (callsOf pre)
  obtain ⟨d, ds, hd⟩ := readAll_ne a.o.bufferSize f.content
  obtain ⟨s', t, rest, run, sl, hl⟩ := sends hc fs.upgraded i2 (some false) a.o u.marks (by rw [l3]; exact nb) d ds
  obtain ⟨y, ey, oy⟩ := genOwn c { chunked := some false } (callsOf pre ++ wholeCalls c a f) s.keepalive
  have ⟨n1, n2, n3⟩ := own_neutral oy (callsOf pre ++ wholeCalls c a f)
  have hwc : wantsChunked c { chunked := some false } (lastStatus (callsOf pre ++ wholeCalls c a f)).1 = false := rfl
  have hcl : named kCL rest = [line b!"Content-Length" (fmtNat f.content.length)] := by
    have := sl.lines kCL (by decide)
    unfold genCalls at this
    rw [hwc, untouched_snoc (by intro x hx; simp only [List.mem_singleton] at hx; subst hx; simp only [touches, decide_eq_false_iff_not]; decide)] at this
    simp only [teCalls, Bool.false_eq_true, if_false, List.append_nil] at this
    exact this.trans l1
  have hte : named kTE rest = linesFor kTE (callsOf pre) := by
    have := sl.lines kTE (by decide)
    unfold genCalls at this
    rw [hwc, untouched_snoc (by intro x hx; simp only [List.mem_singleton] at hx; subst hx; simp only [touches, decide_eq_false_iff_not]; decide)] at this
    simp only [teCalls, Bool.false_eq_true, if_false, List.append_nil] at this
    refine this.trans (untouched_snoc (fun x hx => ?_) _)
    unfold wholeCalls at hx
    simp only [List.mem_append, List.mem_cons, List.not_mem_nil, or_false] at hx
    rcases hx with (rfl | rfl | rfl) | hx
    · rfl
    · simp only [touches, decide_eq_false_iff_not]; decide
    · simp only [touches, decide_eq_false_iff_not]; decide
    · split at hx
      · simp only [List.mem_singleton] at hx; subst hx; simp only [touches, decide_eq_false_iff_not]; decide
      · cases hx
  obtain ⟨v, v1, v2, v3⟩ := length_line hcl
  rw [ey] at sl
  have sy := sl.says (calls' := callsOf pre ++ wholeCalls c a f) n1 n2 n3
  obtain ⟨x, x1, x2⟩ := sy.ctype rfl
  refine ⟨_, s', t, rest, v, x, wants_whole u w, ?_, ?_, x1, ?_, ?_, v1, v2, v3, ?_, ?_, ?_, ?_⟩
  · rw [whole_eq, runScript_append r2, hd]; exact run
  · rw [← l3]; exact sy.is
  · rw [x2, l4]
  · rw [sy.lines _ (by decide), l2]
  · intro n hn hn'
    rw [sy.lines n hn]
    refine untouched_snoc (fun x hx => ?_) _
    have hk : ∀ m, m ∈ [b!"last-modified", b!"accept-ranges", b!"content-length"] → m ≠ n := by
      rintro m hm rfl
      simp only [List.mem_cons, List.not_mem_nil, or_false] at hm hn'
      rcases hm with h | h | h
      · exact hn' (.inl h)
      · exact hn' (.inr h)
      · exact hn (by rw [h]; decide)
    unfold wholeCalls at hx
    simp only [List.mem_append, List.mem_cons, List.not_mem_nil, or_false] at hx
    rcases hx with (rfl | rfl | rfl) | hx
    · rfl
    · simp only [touches, decide_eq_false_iff_not]; exact hk _ (by decide)
    · simp only [touches, decide_eq_false_iff_not]; exact hk _ (by decide)
    · split at hx
      · simp only [List.mem_singleton] at hx; subst hx; simp only [touches, decide_eq_false_iff_not]; exact hk _ (by decide)
      · cases hx
  · exact hte
  · rw [hl, fs.log, hwc, List.nil_append, wire_raw u.buffer, ← hd, readAll_flatten u.buffer]
  · have hk : genKeep c { chunked := some false } (callsOf pre ++ wholeCalls c a f) s.keepalive = s.keepalive := by
      unfold genKeep; rw [l1]; simp
    have : ∀ l : List Bytes, marks (l.map (fun d => .body (framed (wantsChunked c { chunked := some false } (lastStatus (callsOf pre ++ wholeCalls c a f)).1) d) a.o)) = [] := by
      intro l; induction l with
      | nil => rfl
      | cons x t ih => simpa [marks] using ih
    exact ⟨_, by rw [hl, hk, fs.log, List.nil_append], by
      rw [show ∀ (e : Emit) (l : List Emit), e :: l = [e] ++ l from fun _ _ => rfl, marks_append, this]; rfl⟩

end Verif
