import Verif.Props.Sendfile
/-!
# `sendfile` with ranges, for HEAD, 304, refused ranges, and several calls on one connection: C25, C26, C64
-/
namespace Verif
open Verif.Py Verif.Model.Response Verif.Model.Sendfile Verif.Model.HttpParser Verif.Spec.Response Verif.Spec.Sendfile Verif.Proofs.Response Verif.Proofs.Sendfile

theorem marks_raw (ch : Bool) (o : SendOpts) (l : List Bytes) : marks (l.map (fun d => .body (framed ch d) o)) = [] := by
  induction l with
  | nil => rfl
  | cons x t ih => simpa [marks] using ih

/-- Calls that prepare a head with a Content-Length, then writes with `chunked=False`, then `close(keepalive=True)`. -/
theorem raw_sent {c : Cfg} (hc : CfgOk c) {s s1 : St} (fs : Fresh s) {pre : Script} (hf : Script.Fine pre)
    (hr : runScript c ((.setBaseHeader, false) :: pre) s = (.ok (), s1)) {l : List Call} (hs : ∀ x ∈ l, Sets x) {n : Nat}
    (hcl : linesFor kCL (callsOf pre ++ l) = [line b!"Content-Length" (fmtNat n)]) (nb : bodyless c (lastStatus (callsOf pre ++ l)).1 = false)
    {o : SendOpts} (ho : 0 < o.bufferSize) (hm : o.marks = true) (d : Bytes) (ds : List Bytes) :
    ∃ s' t rest, runScript c (l.map call ++ ((d :: ds).map (fun d => call (.write (some d) (some false) o)) ++ [call (.close true)])) s1 = (.ok (), s') ∧
      Says c (callsOf pre ++ l) true t rest ∧ named kCL rest = [line b!"Content-Length" (fmtNat n)] ∧ named kTE rest = linesFor kTE (callsOf pre ++ l) ∧
      wire s'.log = (t ++ (d :: ds).flatten).map some ++ [none] ∧ Ends s'.log s.keepalive := by
  have i := script_inv hc fs hf hr
  obtain ⟨s2, r2, i2⟩ := sets_all hc l i hs
  obtain ⟨s', t, rest, run, sl, hl⟩ := sends hc fs.upgraded i2 (some false) o hm nb d ds
  obtain ⟨y, ey, oy⟩ := genOwn c { chunked := some false } (callsOf pre ++ l) s.keepalive
  have ⟨n1, n2, n3⟩ := own_neutral oy (callsOf pre ++ l)
  have hwc : wantsChunked c { chunked := some false } (lastStatus (callsOf pre ++ l)).1 = false := rfl
  have hcl' : named kCL rest = [line b!"Content-Length" (fmtNat n)] := by
    have := sl.lines kCL (by decide)
    unfold genCalls at this
    rw [hwc, untouched_snoc (by intro x hx; simp only [List.mem_singleton] at hx; subst hx; simp only [touches, decide_eq_false_iff_not]; decide)] at this
    simp only [teCalls, Bool.false_eq_true, if_false, List.append_nil] at this
    exact this.trans hcl
  have hte : named kTE rest = linesFor kTE (callsOf pre ++ l) := by
    have := sl.lines kTE (by decide)
    unfold genCalls at this
    rw [hwc, untouched_snoc (by intro x hx; simp only [List.mem_singleton] at hx; subst hx; simp only [touches, decide_eq_false_iff_not]; decide)] at this
    simp only [teCalls, Bool.false_eq_true, if_false, List.append_nil] at this
    exact this
  rw [ey] at sl
  refine ⟨s', t, rest, by rw [runScript_append r2]; exact run, sl.says n1 n2 n3, hcl', hte, ?_, ?_⟩
  · rw [hl, fs.log, hwc, List.nil_append, wire_raw ho]
  · have hk : genKeep c { chunked := some false } (callsOf pre ++ l) s.keepalive = s.keepalive := by
      unfold genKeep; rw [hcl]; simp
    exact ⟨_, by rw [hl, hk, fs.log, List.nil_append], by
      rw [show ∀ (e : Emit) (l : List Emit), e :: l = [e] ++ l from fun _ _ => rfl, marks_append, marks_raw]; rfl⟩

/-- Calls that prepare a head, then a write where no body is allowed: whatever follows, the client sees the head and the
end of the connection. -/
theorem head_sent {c : Cfg} (hc : CfgOk c) {s s1 : St} (fs : Fresh s) {pre : Script} (hf : Script.Fine pre)
    (hr : runScript c ((.setBaseHeader, false) :: pre) s = (.ok (), s1)) {l : List Call} (hs : ∀ x ∈ l, Sets x)
    (nb : bodyless c (lastStatus (callsOf pre ++ l)).1 = true) (nu : (lastStatus (callsOf pre ++ l)).1 ≠ 101 ∧ (lastStatus (callsOf pre ++ l)).1 ≠ 426)
    (d : Option Bytes) (ch : Option Bool) (o : SendOpts) (post : Script) :
    ∃ t rest, seen (runScript c (l.map call ++ call (.write d ch o) :: post) s1).2.log = [.head t [] { throttle := false }, .mark false] ∧
      Says c (callsOf pre ++ l) (!noBody (lastStatus (callsOf pre ++ l)).1) t rest ∧
      named kCL rest = linesFor kCL (callsOf pre ++ l) := by
  have i := script_inv hc fs hf hr
  obtain ⟨s2, r2, i2⟩ := sets_all hc l i hs
  obtain ⟨t, rest, s3, run, sl, hl, hk, hh, hch, hu⟩ := write_spec hc d ch o fs.upgraded i2 (fun h => by rw [nb] at h; cases h)
  rw [nb] at run
  simp only [if_true] at run
  rw [writeBody_none] at run
  have hk' : s3.keepalive = false := by
    rw [hk, writeKeep, nb]
    simp [nu.1, nu.2]
  rw [hl, fs.log, hk'] at run
  obtain ⟨y, ey, oy⟩ := genOwn c { chunked := ch } (callsOf pre ++ l) s.keepalive
  have ⟨n1, n2, n3⟩ := own_neutral oy (callsOf pre ++ l)
  have hcl : named kCL rest = linesFor kCL (callsOf pre ++ l) := by
    have := sl.lines kCL (by decide)
    unfold genCalls at this
    rw [untouched_snoc (by intro x hx; simp only [List.mem_singleton] at hx; subst hx; simp only [touches, decide_eq_false_iff_not]; decide)] at this
    rw [untouched_snoc (by
      intro x hx; unfold teCalls at hx; split at hx
      · simp only [List.mem_singleton] at hx; subst hx; simp only [touches, decide_eq_false_iff_not]; decide
      · cases hx)] at this
    exact this
  rw [ey] at sl
  refine ⟨t, rest, ?_, sl.says n1 n2 n3, hcl⟩
  rw [runScript_append r2]
  have run : (Call.write d ch o).run c s2 = _ := run
  rw [call, runScript_ok run]
  obtain ⟨⟨l, hl', _⟩, _⟩ := good_script c post { s3 with keepalive := false, log := [] ++ [.head t [] { throttle := false }] ++ [.mark false] }
  rw [hl']
  exact seen_closed [.head t [] { throttle := false }] rfl l

/-! ## C26 -/

/-- **C26**, HEAD: the head is that of the whole file, with its exact length; no byte of the file is sent. -/
theorem C26_head {c : Cfg} (hc : CfgOk c) {s s1 : St} (fs : Fresh s) {pre : Script} (hf : Script.Fine pre)
    (hr : runScript c ((.setBaseHeader, false) :: pre) s = (.ok (), s1)) {a : Args} {f : File} (u : Usable a f) (w : WantsWhole c a f)
    (hm : c.method = b!"HEAD") (nu : (lastStatus (callsOf pre)).1 ≠ 101 ∧ (lastStatus (callsOf pre)).1 ≠ 426) :
    ∃ t rest v, seen (runScript c (sendfile c a (some f) none).1 s1).2.log = [.head t [] { throttle := false }, .mark false] ∧
      HeadIs t (statusLine c (lastStatus (callsOf pre))) rest ∧ named b!"last-modified" rest = [b!"Last-Modified: " ++ f.mdate] ∧
      named b!"content-length" rest = [b!"Content-Length: " ++ v] ∧ Spec.Head.Canonical v ∧ Spec.Head.valueOf v = f.content.length := by
  have ⟨l1, l2, l3, _⟩ := whole_lines (c := c) u (callsOf pre)
  obtain ⟨d, ds, hd⟩ := readAll_ne a.o.bufferSize f.content
  obtain ⟨t, rest, h1, h2, h3⟩ := head_sent hc fs hf hr (wholeCalls_sets (c := c) u) (by simp [bodyless, hm]) (by rw [l3]; exact nu) (some d) (some false) a.o
    (ds.map (fun d => call (.write (some d) (some false) a.o)) ++ [call (.close true)])
  rw [l1] at h3
  obtain ⟨v, v1, v2, v3⟩ := length_line h3
  refine ⟨t, rest, v, ?_, by rw [← l3]; exact h2.is, by rw [h2.lines _ (by decide), l2], v1, v2, v3⟩
  rw [wants_whole u w, whole_eq, hd]
  exact h1

/-- The client's copy is current: no range counts, and If-Modified-Since is the date of the file. -/
def IsCurrent (c : Cfg) (a : Args) (f : File) : Prop :=
  (a.range = none ∨ c.version ≠ b!"1.1") ∧ a.ifModified = some (.one f.mdate)

/-- **C26**, 304: no byte of the file is sent, the head says 304 Not Modified. -/
theorem C26_current {c : Cfg} (hc : CfgOk c) {s s1 : St} (fs : Fresh s) {pre : Script} (hf : Script.Fine pre)
    (hr : runScript c ((.setBaseHeader, false) :: pre) s = (.ok (), s1)) {a : Args} {f : File} (w : IsCurrent c a f) :
    ∃ t rest, seen (runScript c (sendfile c a (some f) none).1 s1).2.log = [.head t [] { throttle := false }, .mark false] ∧
      HeadIs t (statusLine c (304, b!"Not Modified")) rest := by
  have e : (sendfile c a (some f) none).1 = [Call.setStatus 304 b!"Not Modified"].map call ++ call (.write none none {}) :: [] := by
    unfold sendfile
    obtain ⟨h1, h2⟩ := w
    have hn : ∀ fs data, sendfile.noRange c a fs f.mdate data = ([call (.setStatus 304 b!"Not Modified"), call (.write none none {})], none) := by
      intro fs data; unfold sendfile.noRange; rw [if_pos h2]
    cases hr : a.range with
    | none => simp only [hn]; rfl
    | some r =>
      rcases h1 with h1 | h1
      · rw [hr] at h1; cases h1
      · simp only [if_neg h1, hn]; rfl
  have hl : lastStatus (callsOf pre ++ [.setStatus 304 b!"Not Modified"]) = (304, b!"Not Modified") := by
    rw [lastStatus_snoc]; rfl
  obtain ⟨t, rest, h1, h2, _⟩ := head_sent hc fs hf hr (l := [.setStatus 304 b!"Not Modified"])
    (by intro x hx; simp only [List.mem_singleton] at hx; subst hx; exact show (10 : UInt8) ∉ b!"Not Modified" by decide)
    (by rw [hl]; simp [bodyless, noBody]) (by rw [hl]; decide) none none {} []
  exact ⟨t, rest, by rw [e]; exact h1, by rw [← hl]; exact h2.is⟩

/-- A file of five bytes read in pieces of two: whole, for HEAD, and not modified. -/
example : let f : File := ⟨b!"hello", b!"M"⟩
    let a : Args := { o := { bufferSize := 2 } }
    Usable a f ∧ WantsWhole {} a f ∧ bodyBytes (runScript {} ((.setBaseHeader, false) :: (sendfile {} a (some f) none).1) { keepalive := true }).2.log = b!"hello" ∧
    IsCurrent {} { a with ifModified := some (.one b!"M") } f ∧
    (runScript {} ((.setBaseHeader, false) :: (sendfile {} { a with ifModified := some (.one b!"M") } (some f) none).1) { keepalive := true }).2.log.map (fun e => (isHead e, isBody e)) =
      [(true, false), (false, false)] :=
  ⟨⟨by decide, by decide, rfl, by decide, by decide⟩, .inr ⟨.inl rfl, by decide⟩, by decide +kernel, ⟨.inl rfl, rfl⟩, by decide +kernel⟩

/-! ## C25 -/

/-- The ranges of the request count: HTTP/1.1, and If-Range is absent or the date of the file. -/
def Counts (c : Cfg) (a : Args) (f : File) : Prop :=
  c.version = b!"1.1" ∧ (a.ifRange = none ∨ a.ifRange = some (.one f.mdate))

theorem counts_eq {c : Cfg} {a : Args} {f : File} (u : Usable a f) (hc : Counts c a f) {h : HVal} (ha : a.range = some h) :
    sendfile c a (some f) none = (match parseRanges f.content.length h with
      | .error e => ([], some e)
      | .ok [r] => (single a f.content.length f.content r, none)
      | .ok rs => (multi a f.content.length f.content rs, none)) := by
  unfold sendfile
  simp only [u.size, if_true, Option.getD_none, ha, hc.1]
  rw [if_neg (by rintro ⟨h1, h2⟩; rcases hc.2 with h | h <;> contradiction)]
  rfl

theorem within_lt {e : Range} {size : Nat} {p : Nat × Nat} (h : e.within size = some p) : p.1 ≤ p.2 ∧ p.2 < size := by
  cases e <;> simp only [Range.within] at h <;> split at h <;> cases h <;> simp only <;> omega

/-- The calls of the head of a single range. -/
def singleCalls (a : Args) (f : File) (p : Nat × Nat) : List Call :=
  [.setStatus 206 b!"Partial Content", .setContentType a.ctype, .setHeader b!"Content-Length" (fmtNat (p.2 + 1 - p.1)),
    .setHeader b!"Content-Range" (Spec.Sendfile.contentRange p f.content.length)]

theorem single_eq {a : Args} {f : File} {p : Nat × Nat} (hp : p.1 ≤ p.2) :
    single a f.content.length f.content ((p.1 : Int), (p.2 : Int), (p.2 : Int) - p.1 + 1) =
      (singleCalls a f p).map call ++ ((readN a.o.bufferSize ((p.2 + 1 - p.1 : Nat) : Int) (f.content.drop p.1)).map
        (fun d => call (.write (some d) (some false) a.o)) ++ [call (.close true)]) := by
  have e : (p.2 : Int) - p.1 + 1 = ((p.2 + 1 - p.1 : Nat) : Int) := by omega
  unfold single singleCalls plain
  rw [e]
  simp only [Proofs.Numeral.fmtInt_natCast, Int.toNat_natCast, Model.Sendfile.contentRange, Spec.Sendfile.contentRange]
  simp

theorem contentRange_noLF (p : Nat × Nat) (n : Nat) : (10 : UInt8) ∉ Spec.Sendfile.contentRange p n := by
  unfold Spec.Sendfile.contentRange
  simp only [List.mem_append, not_or]
  exact ⟨⟨⟨⟨⟨by decide, fmtNat_noLF _⟩, by decide⟩, fmtNat_noLF _⟩, by decide⟩, fmtNat_noLF _⟩

theorem singleCalls_sets {a : Args} {f : File} (u : Usable a f) (p : Nat × Nat) : ∀ x ∈ singleCalls a f p, Sets x := by
  intro x hx
  unfold singleCalls at hx
  simp only [List.mem_cons, List.not_mem_nil, or_false] at hx
  rcases hx with rfl | rfl | rfl | rfl
  · exact show (10 : UInt8) ∉ b!"Partial Content" by decide
  · exact u.ctype
  · exact ⟨by decide, fmtNat_noLF _, by decide, by decide⟩
  · exact ⟨by decide, contentRange_noLF _ _, by decide, by decide⟩

theorem single_lines {a : Args} {f : File} (u : Usable a f) (p : Nat × Nat) (calls : List Call) :
    linesFor kCL (calls ++ singleCalls a f p) = [line b!"Content-Length" (fmtNat (p.2 + 1 - p.1))] ∧
    linesFor b!"content-range" (calls ++ singleCalls a f p) = [b!"Content-Range: " ++ Spec.Sendfile.contentRange p f.content.length] ∧
    lastStatus (calls ++ singleCalls a f p) = (206, b!"Partial Content") ∧ lastType (calls ++ singleCalls a f p) = a.ctype := by
  have e : calls ++ singleCalls a f p = calls ++ [.setStatus 206 b!"Partial Content"] ++ [.setContentType a.ctype] ++ [.setHeader b!"Content-Length" (fmtNat (p.2 + 1 - p.1))] ++
      [.setHeader b!"Content-Range" (Spec.Sendfile.contentRange p f.content.length)] := by
    unfold singleCalls; simp
  rw [e]
  refine ⟨?_, ?_, ?_, ?_⟩
  · rw [untouched_snoc (by intro x hx; simp only [List.mem_singleton] at hx; subst hx; simp only [touches, decide_eq_false_iff_not]; decide)]
    exact linesFor_set (by decide) (fmtNat_noLF _) (by decide) _
  · exact linesFor_set (by decide) (contentRange_noLF _ _) (by decide) _
  · simp only [lastStatus_snoc]
    exact if_neg (by decide)
  · rw [lastType_snoc]; simp only
    rw [if_neg (by rintro ⟨_, _, h⟩; revert h; decide), lastType_snoc]; simp only
    rw [if_neg (by rintro ⟨_, _, h⟩; revert h; decide), lastType_snoc]; simp only [if_neg u.ctype]

/-- **C25**, a single range within the file: one head with 206, the file's type, the exact length and the range, then exactly
the bytes of the range and one end marker. -/
theorem C25_single {c : Cfg} (hc : CfgOk c) {s s1 : St} (fs : Fresh s) {pre : Script} (hf : Script.Fine pre)
    (hr : runScript c ((.setBaseHeader, false) :: pre) s = (.ok (), s1)) {a : Args} {f : File} (u : Usable a f) (k : Counts c a f)
    {h : HVal} (ha : a.range = some h) {e : Elem} (hh : Asks h [e]) (he : e.Ok) {p : Nat × Nat} (hp : e.range.within f.content.length = some p)
    (hm : c.method ≠ b!"HEAD") :
    ∃ sc s' t rest v x, sendfile c a (some f) none = (sc, none) ∧ runScript c sc s1 = (.ok (), s') ∧
      HeadIs t (statusLine c (206, b!"Partial Content")) rest ∧
      named b!"content-type" rest = [x] ∧ Spec.Response.valueOf x = lstrip a.ctype ∧
      named b!"content-range" rest = [b!"Content-Range: " ++ Spec.Sendfile.contentRange p f.content.length] ∧
      named b!"content-length" rest = [b!"Content-Length: " ++ v] ∧ Spec.Head.Canonical v ∧ Spec.Head.valueOf v = (slice f.content p).length ∧
      named b!"transfer-encoding" rest = linesFor b!"transfer-encoding" (callsOf pre) ∧
      wire s'.log = (t ++ slice f.content p).map some ++ [none] ∧ Ends s'.log s.keepalive := by
  have hin : p.1 ≤ p.2 ∧ p.2 < f.content.length := within_lt hp
  have ⟨l1, l2, l3, l4⟩ := single_lines u p (callsOf pre)
  obtain ⟨d, ds, hd⟩ := readN_cons u.buffer (n := p.2 + 1 - p.1) (by omega) (f.content.drop p.1)
  obtain ⟨s', t, rest, run, sy, cl, te, hw, hk⟩ := raw_sent hc fs hf hr (singleCalls_sets u p) l1
    (by rw [l3]; simp only [bodyless, hm, decide_false, Bool.false_or]; decide) u.buffer u.marks d ds
  obtain ⟨v, v1, v2, v3⟩ := length_line cl
  obtain ⟨x, x1, x2⟩ := sy.ctype rfl
  have hpr := C25_parse hh (by intro y hy; simp only [List.mem_singleton] at hy; subst hy; exact he) (by simp) (ps := [p]) (size := f.content.length) (by simp [hp])
  refine ⟨single a f.content.length f.content ((p.1 : Int), (p.2 : Int), (p.2 : Int) - p.1 + 1), s', t, rest, v, x, ?_, ?_, by rw [← l3]; exact sy.is, x1, by rw [x2, l4],
    by rw [sy.lines _ (by decide), l2], v1, v2, ?_, ?_, ?_, hk⟩
  · rw [counts_eq u k ha, hpr]; rfl
  · rw [single_eq hin.1, hd]; exact run
  · rw [v3]; simp only [slice, List.length_take, List.length_drop]; omega
  · rw [te]
    refine untouched_snoc (fun y hy => ?_) _
    unfold singleCalls at hy
    simp only [List.mem_cons, List.not_mem_nil, or_false] at hy
    rcases hy with rfl | rfl | rfl | rfl <;> first | rfl | (simp only [touches, decide_eq_false_iff_not]; decide)
  · rw [hw, ← hd, readN_flatten u.buffer]; rfl

/-- **C25**, HEAD with a single range: the same head and no byte of the file. -/
theorem C25_head {c : Cfg} (hc : CfgOk c) {s s1 : St} (fs : Fresh s) {pre : Script} (hf : Script.Fine pre)
    (hr : runScript c ((.setBaseHeader, false) :: pre) s = (.ok (), s1)) {a : Args} {f : File} (u : Usable a f) (k : Counts c a f)
    {h : HVal} (ha : a.range = some h) {e : Elem} (hh : Asks h [e]) (he : e.Ok) {p : Nat × Nat} (hp : e.range.within f.content.length = some p)
    (hm : c.method = b!"HEAD") :
    ∃ t rest v, seen (runScript c (sendfile c a (some f) none).1 s1).2.log = [.head t [] { throttle := false }, .mark false] ∧
      HeadIs t (statusLine c (206, b!"Partial Content")) rest ∧
      named b!"content-range" rest = [b!"Content-Range: " ++ Spec.Sendfile.contentRange p f.content.length] ∧
      named b!"content-length" rest = [b!"Content-Length: " ++ v] ∧ Spec.Head.Canonical v ∧ Spec.Head.valueOf v = (slice f.content p).length := by
  have hin : p.1 ≤ p.2 ∧ p.2 < f.content.length := within_lt hp
  have ⟨l1, l2, l3, l4⟩ := single_lines u p (callsOf pre)
  obtain ⟨d, ds, hd⟩ := readN_cons u.buffer (n := p.2 + 1 - p.1) (by omega) (f.content.drop p.1)
  obtain ⟨t, rest, h1, h2, h3⟩ := head_sent hc fs hf hr (singleCalls_sets u p) (by simp [bodyless, hm]) (by rw [l3]; decide) (some d) (some false) a.o
    (ds.map (fun d => call (.write (some d) (some false) a.o)) ++ [call (.close true)])
  rw [l1] at h3
  obtain ⟨v, v1, v2, v3⟩ := length_line h3
  have hpr := C25_parse hh (by intro y hy; simp only [List.mem_singleton] at hy; subst hy; exact he) (by simp) (ps := [p]) (size := f.content.length) (by simp [hp])
  refine ⟨t, rest, v, ?_, by rw [← l3]; exact h2.is, by rw [h2.lines _ (by decide), l2], v1, v2, ?_⟩
  · have e : (sendfile c a (some f) none).1 = single a f.content.length f.content ((p.1 : Int), (p.2 : Int), (p.2 : Int) - p.1 + 1) := by
      rw [counts_eq u k ha, hpr]; rfl
    rw [e, single_eq hin.1, hd]; exact h1
  · rw [v3]; simp only [slice, List.length_take, List.length_drop]; omega

/-! Several ranges. -/

/-- The data written for the ranges `ps`. -/
def pieces (a : Args) (f : File) (ps : List (Nat × Nat)) : List Bytes :=
  ps.flatMap (fun p => (b!"--" ++ a.boundary ++ b!"\r\nContent-Type: " ++ a.ctype ++ b!"\r\nContent-Range: " ++ Spec.Sendfile.contentRange p f.content.length ++ CRLF2) ::
    readN a.o.bufferSize ((p.2 + 1 - p.1 : Nat) : Int) (f.content.drop p.1) ++ [CRLF]) ++ [b!"--" ++ a.boundary ++ b!"--\r\n"]

theorem pieces_flatten {a : Args} {f : File} (hb : 0 < a.o.bufferSize) (ps : List (Nat × Nat)) :
    (pieces a f ps).flatten = multipart a.boundary a.ctype f.content ps := by
  unfold pieces multipart
  rw [List.flatten_append]
  have : ∀ ps : List (Nat × Nat), (ps.flatMap (fun p => (b!"--" ++ a.boundary ++ b!"\r\nContent-Type: " ++ a.ctype ++ b!"\r\nContent-Range: " ++ Spec.Sendfile.contentRange p f.content.length ++ CRLF2) ::
      readN a.o.bufferSize ((p.2 + 1 - p.1 : Nat) : Int) (f.content.drop p.1) ++ [CRLF])).flatten =
      (ps.map (fun p => b!"--" ++ a.boundary ++ b!"\r\nContent-Type: " ++ a.ctype ++ b!"\r\nContent-Range: " ++ Spec.Sendfile.contentRange p f.content.length ++ CRLF2 ++
        slice f.content p ++ CRLF)).flatten := by
    intro ps
    induction ps with
    | nil => rfl
    | cons p t ih =>
      rw [List.flatMap_cons, List.flatten_append, ih, List.map_cons, List.flatten_cons]
      congr 1
      rw [List.cons_append, List.flatten_cons, List.flatten_append, readN_flatten hb]
      simp only [slice, List.append_assoc, List.flatten_cons, List.flatten_nil, List.append_nil]
  rw [this]
  simp only [List.append_assoc, List.flatten_cons, List.flatten_nil, List.append_nil]

theorem pieces_nonempty {a : Args} {f : File} {ps : List (Nat × Nat)} (hp : ∀ p ∈ ps, p.1 ≤ p.2 ∧ p.2 < f.content.length) : ∀ x ∈ pieces a f ps, x ≠ [] := by
  intro x hx
  unfold pieces at hx
  simp only [List.mem_append, List.mem_flatMap, List.mem_cons, List.not_mem_nil, or_false] at hx
  rcases hx with ⟨p, h, (rfl | h2) | rfl⟩ | rfl
  · simp
  · exact readN_nonempty _ _ (by have := hp p h; simp only [List.length_drop]; omega) x h2
  · decide
  · simp

theorem multi_eq {a : Args} {f : File} {ps : List (Nat × Nat)} (hp : ∀ p ∈ ps, p.1 ≤ p.2 ∧ p.2 < f.content.length) :
    multi a f.content.length f.content (ps.map (fun p => ((p.1 : Int), (p.2 : Int), (p.2 : Int) - p.1 + 1))) =
      [Call.setStatus 206 b!"Partial Content", .setContentType (b!"multipart/byteranges; boundary=" ++ a.boundary)].map call ++
        ((pieces a f ps ++ [[]]).map (fun d => call (.write (some d) none a.o)) ++ [call (.close true)]) := by
  have e : (ps.map (fun p => ((p.1 : Int), (p.2 : Int), (p.2 : Int) - p.1 + 1))).flatMap (part a f.content.length f.content) ++ [b!"--" ++ a.boundary ++ b!"--\r\n", []] =
      pieces a f ps ++ [[]] := by
    unfold pieces
    rw [List.append_assoc (_ : List Bytes) [_] [[]]]
    congr 1
    induction ps with
    | nil => rfl
    | cons p t ih =>
      have h := hp p (by simp)
      rw [List.map_cons, List.flatMap_cons, List.flatMap_cons, ih (fun q hq => hp q (by simp [hq]))]
      congr 1
      have e : (p.2 : Int) - p.1 + 1 = ((p.2 + 1 - p.1 : Nat) : Int) := by omega
      unfold part
      simp only [e, Proofs.Numeral.fmtInt_natCast, Int.toNat_natCast, Model.Sendfile.contentRange, Spec.Sendfile.contentRange]
      simp
  unfold multi auto
  rw [e]
  simp

/-- **C25**, two to 101 ranges within the file, in any order, overlapping or not: one head with 206 and the type
multipart/byteranges, chunked; the payload has exactly one part for each range, in order, with its Content-Range and
exactly its bytes. -/
theorem C25_multi {c : Cfg} (hc : CfgOk c) {s s1 : St} (fs : Fresh s) {pre : Script} (hf : Script.Fine pre)
    (hr : runScript c ((.setBaseHeader, false) :: pre) s = (.ok (), s1)) {a : Args} {f : File} (u : Usable a f) (k : Counts c a f)
    {h : HVal} (ha : a.range = some h) {es : List Elem} (hh : Asks h es) (he : ∀ e ∈ es, e.Ok) (h1 : 1 < es.length) (h2 : es.length ≤ 101)
    {ps : List (Nat × Nat)} (hp : es.map (fun e => e.range.within f.content.length) = ps.map some) (hm : c.method ≠ b!"HEAD") (hbd : (10 : UInt8) ∉ a.boundary) :
    ∃ sc s' t rest x cs, sendfile c a (some f) none = (sc, none) ∧ runScript c sc s1 = (.ok (), s') ∧
      HeadIs t (statusLine c (206, b!"Partial Content")) rest ∧
      named b!"content-type" rest = [x] ∧ Spec.Response.valueOf x = b!"multipart/byteranges; boundary=" ++ a.boundary ∧
      named b!"transfer-encoding" rest = [b!"Transfer-Encoding: chunked"] ∧ (∀ y ∈ cs, y.Wf) ∧
      Spec.Body.payload cs = multipart a.boundary a.ctype f.content ps ∧
      wire s'.log = (t ++ Spec.Body.encode cs (Spec.Body.lastChunk b!"0" [] CRLF)).map some ++ [none] ∧ Ends s'.log s.keepalive := by
  have hin := (parseList_within he hp).2
  have hlen : ps.length = es.length := by have := congrArg List.length hp; simpa using this.symm
  have hct : (10 : UInt8) ∉ b!"multipart/byteranges; boundary=" ++ a.boundary := by
    simp only [List.mem_append, not_or]; exact ⟨by decide, hbd⟩
  have hst : lastStatus (callsOf pre ++ [.setStatus 206 b!"Partial Content", .setContentType (b!"multipart/byteranges; boundary=" ++ a.boundary)]) = (206, b!"Partial Content") := by
    rw [show callsOf pre ++ [Call.setStatus 206 b!"Partial Content", .setContentType (b!"multipart/byteranges; boundary=" ++ a.boundary)] =
      callsOf pre ++ [.setStatus 206 b!"Partial Content"] ++ [.setContentType (b!"multipart/byteranges; boundary=" ++ a.boundary)] by simp]
    simp only [lastStatus_snoc]
    exact if_neg (by decide)
  have hty : lastType (callsOf pre ++ [.setStatus 206 b!"Partial Content", .setContentType (b!"multipart/byteranges; boundary=" ++ a.boundary)]) =
      b!"multipart/byteranges; boundary=" ++ a.boundary := by
    rw [show callsOf pre ++ [Call.setStatus 206 b!"Partial Content", .setContentType (b!"multipart/byteranges; boundary=" ++ a.boundary)] =
      callsOf pre ++ [.setStatus 206 b!"Partial Content"] ++ [.setContentType (b!"multipart/byteranges; boundary=" ++ a.boundary)] by simp]
    rw [lastType_snoc]; simp only [if_neg hct]
  have i := script_inv hc fs hf hr
  obtain ⟨s2, r2, i2⟩ := sets_all hc [.setStatus 206 b!"Partial Content", .setContentType (b!"multipart/byteranges; boundary=" ++ a.boundary)] i (by
    intro x hx
    simp only [List.mem_cons, List.not_mem_nil, or_false] at hx
    rcases hx with rfl | rfl
    · exact show (10 : UInt8) ∉ b!"Partial Content" by decide
    · exact hct)
  have hne : ∃ d ds, pieces a f ps ++ [[]] = d :: ds := by
    cases hx : pieces a f ps with
    | nil => exact ⟨_, _, rfl⟩
    | cons d t => exact ⟨_, _, rfl⟩
  obtain ⟨d, ds, hd⟩ := hne
  obtain ⟨s', t, rest, run, sl, hl⟩ := sends hc fs.upgraded i2 none a.o u.marks (by rw [hst]; simp only [bodyless, hm, decide_false, Bool.false_or]; decide) d ds
  obtain ⟨y, ey, oy⟩ := genOwn c { chunked := none } (callsOf pre ++ [.setStatus 206 b!"Partial Content", .setContentType (b!"multipart/byteranges; boundary=" ++ a.boundary)]) s.keepalive
  have ⟨n1, n2, n3⟩ := own_neutral oy (callsOf pre ++ [.setStatus 206 b!"Partial Content", .setContentType (b!"multipart/byteranges; boundary=" ++ a.boundary)])
  have wc : wantsChunked c { chunked := none } (lastStatus (callsOf pre ++ [.setStatus 206 b!"Partial Content", .setContentType (b!"multipart/byteranges; boundary=" ++ a.boundary)])).1 = true := by
    rw [hst]; simp only [wantsChunked, k.1]; rfl
  have hte := sl.lines kTE (by decide)
  rw [gen_te c _ _ _ wc] at hte
  rw [ey] at sl
  have sy := sl.says n1 n2 n3
  obtain ⟨x, x1, x2⟩ := sy.ctype rfl
  have hpr := C25_parse hh he h2 hp
  refine ⟨multi a f.content.length f.content (ps.map (fun p => ((p.1 : Int), (p.2 : Int), (p.2 : Int) - p.1 + 1))), s', t, rest, x, (pieces a f ps).map chunkOf, ?_, ?_, by rw [← hst]; exact sy.is, x1, ?_, hte, ?_, ?_, ?_, ?_⟩
  · rw [counts_eq u k ha, hpr]
    match ps, hlen with
    | p :: q :: t, _ => rfl
    | [p], h => simp at h; omega
    | [], h => simp at h; omega
  · rw [multi_eq hin, runScript_append r2, hd]; exact run
  · rw [x2, hty]; rfl
  · intro z hz
    obtain ⟨y, hy, rfl⟩ := List.mem_map.1 hz
    exact chunkOf_wf (pieces_nonempty hin y hy)
  · have := payload_chunks (pieces a f ps)
    rw [List.filter_eq_self.2 (fun d h => by simpa using pieces_nonempty hin d h)] at this
    rw [this, pieces_flatten u.buffer]
  · rw [hl, fs.log, wc, List.nil_append, ← hd, wire_chunks u.buffer _ (pieces_nonempty hin)]
  · have hk : genKeep c { chunked := none } (callsOf pre ++ [.setStatus 206 b!"Partial Content", .setContentType (b!"multipart/byteranges; boundary=" ++ a.boundary)]) s.keepalive = s.keepalive := by
      unfold genKeep; rw [wc]; simp
    exact ⟨_, by rw [hl, hk, fs.log, List.nil_append], by
      rw [show ∀ (e : Emit) (l : List Emit), e :: l = [e] ++ l from fun _ _ => rfl, marks_append, marks_raw]; rfl⟩

/-- A file of ten bytes: one range, three ranges (one of them twice), and HEAD. -/
example : let f : File := ⟨b!"0123456789", b!"M"⟩
    let a : Args := { range := some (.one b!"bytes=2-5"), o := { bufferSize := 3 } }
    let m : Args := { range := some (.one b!"bytes=-1,0-0, 0-0"), o := { bufferSize := 3 }, boundary := b!"B", ctype := b!"t" }
    Usable a f ∧ Counts {} a f ∧ Asks (.one b!"bytes=2-5") [⟨[], .between b!"2" b!"5", []⟩] ∧ (Range.between b!"2" b!"5").within 10 = some (2, 5) ∧
    bodyBytes (runScript {} ((.setBaseHeader, false) :: (sendfile {} a (some f) none).1) { keepalive := true }).2.log = b!"2345" ∧
    Asks (.one b!"bytes=-1,0-0, 0-0") [⟨[], .suffix b!"1", []⟩, ⟨[], .between b!"0" b!"0", []⟩, ⟨b!" ", .between b!"0" b!"0", []⟩] ∧
    multipart m.boundary m.ctype f.content [(9, 9), (0, 0), (0, 0)] =
      b!"--B\r\nContent-Type: t\r\nContent-Range: bytes 9-9/10\r\n\r\n9\r\n--B\r\nContent-Type: t\r\nContent-Range: bytes 0-0/10\r\n\r\n0\r\n--B\r\nContent-Type: t\r\nContent-Range: bytes 0-0/10\r\n\r\n0\r\n--B--\r\n" ∧
    (bodyBytes (runScript {} ((.setBaseHeader, false) :: (sendfile {} m (some f) none).1) { keepalive := true }).2.log).length = 233 :=
  ⟨⟨by decide, by decide, rfl, by decide, by decide⟩, ⟨rfl, .inl rfl⟩, .inl ⟨by decide, by simp⟩, by decide, by decide +kernel, .inl ⟨by decide, by simp⟩, by decide +kernel, by decide +kernel⟩

theorem fine_clean {x : Call} (h : Call.Fine x) : Call.Clean x := by
  cases x <;> first | trivial | exact h | exact ⟨h.1, h.2.2.2.1, h.2.1, h.2.2.1⟩

/-- **C25**, ranges that are refused: whenever parsing fails with 400 or 416 (see `C25_sound`, `C25_unsatisfiable`, `C25_unit`
and `C25_malformed`), the client gets one response with that status and the connection is closed. -/
theorem C25_refused {c : Cfg} (hc : CfgOk c) {s s1 : St} (fs : Fresh s) {pre : Script} (hf : Script.Fine pre)
    (hr : runScript c ((.setBaseHeader, false) :: pre) s = (.ok (), s1)) {a : Args} {f : File} (u : Usable a f) (k : Counts c a f)
    {h : HVal} (ha : a.range = some h) {st : Int × Bytes} (hst : st = (400, b!"Bad Request") ∨ st = (416, b!"Range Not Satisfiable"))
    (he : parseRanges f.content.length h = .error (.http st.1 st.2 htmlType)) (err : ErrHandler) (e1 : Script.Fine err.script)
    (e2 : ∀ x ∈ callsOf err.script, setsStatus x = false) (e3 : ∀ p ∈ err.script, Call.NoHeader p.1) (r : Ret) :
    ∃ t rest d, HeadIs t (statusLine c st) rest ∧ named b!"connection" rest = [b!"Connection: close"] ∧
      (handleRequest c { handler := handler pre (sendfile c a (some f) none) r, err := err } s).log = [.head t d { throttle := false }, .mark false] := by
  have hx : sendfile c a (some f) none = ([], some (.http st.1 st.2 htmlType)) := by rw [counts_eq u k ha, he]
  have hh : handler pre (sendfile c a (some f) none) r = .coro pre (.raise (.http st.1 st.2 htmlType)) := by
    rw [hx]; simp [handler]
  have i := script_inv hc fs hf hr
  have run : serve c { handler := .coro pre (.raise (.http st.1 st.2 htmlType)), err := err } s = (.error (.http st.1 st.2 htmlType), s1) := by
    obtain ⟨ok, _⟩ := inv_base (s := s) hc (inv_fresh (c := c) fs)
    have e : runScript c ((.setBaseHeader, false) :: pre) s = runScript c pre (setBaseHeader c s).2 := by
      rw [runScript_ok (x := .setBaseHeader) (s' := (setBaseHeader c s).2) (by rw [← ok]; rfl)]
    have hb : setBaseHeader c s = (.ok (), (setBaseHeader c s).2) := by rw [← ok]
    rw [e] at hr
    show (do
      applyOpts none none
      setBaseHeader c
      runScript c pre
      raise (.http st.1 st.2 htmlType)) s = _
    rw [bind_ok (show applyOpts none none s = (.ok (), s) from rfl), bind_ok hb, bind_ok hr]; rfl
  have hs : s1.headers ≠ none := by
    obtain ⟨h, e, _⟩ := i.ex
    rw [e]; simp
  have hcl : App.Clean { handler := .coro pre (.raise (.http st.1 st.2 htmlType)), err := err } :=
    ⟨by simp, by simp, fun p hp => fine_clean (hf p hp), e3⟩
  obtain ⟨t, rest, d, h1, h2, h3⟩ := C28_status_partial hc hcl e1 e2 fs run hs (by intro code h; cases h) (by intro h; cases h)
    (by rcases hst with rfl | rfl <;> decide) (by rcases hst with rfl | rfl <;> decide)
  rw [hh]
  refine ⟨t, rest, d, h1, h2, ?_⟩
  rw [h3, i.same.log, fs.log]; rfl

/-! ## C64 -/

/-- The calls of `sendfile` on one connection, in order: the handle of the first file that was opened is kept. -/
def sendfiles : List (Cfg × Args × Option File) → Option Bytes → List (Script × Option Exc)
  | [], _ => []
  | (c, a, f) :: t, h => sendfile c a f h :: sendfiles t (handleAfter f h)

/-- **C64 fails.** The second file is announced with its own length and date, but the bytes are those of the first. -/
theorem C64_refuted : ∃ (f g : File), f.content ≠ g.content ∧ f.content.length = g.content.length ∧
    ∃ x y, sendfiles [({}, {}, some f), ({}, {}, some g)] none = [x, y] ∧
      bodyBytes (runScript {} ((.setBaseHeader, false) :: y.1) { keepalive := true }).2.log = f.content :=
  ⟨⟨b!"hello", b!"M"⟩, ⟨b!"world", b!"N"⟩, by decide, rfl, _, _, rfl, by decide +kernel⟩

/-- With files of different lengths the response does not even have the announced length. -/
theorem C64_refuted_length : ∃ (f g : File), f.content.length < g.content.length ∧
    ∃ x y, sendfiles [({}, {}, some f), ({}, {}, some g)] none = [x, y] ∧
      bodyBytes (runScript {} ((.setBaseHeader, false) :: y.1) { keepalive := true }).2.log = f.content ∧
      y.1 = (wholeCalls {} {} g).map call ++ ((readAll 16384 f.content).map (fun d => call (.write (some d) (some false) {})) ++ [call (.close true)]) :=
  ⟨⟨b!"hi", b!"M"⟩, ⟨b!"world", b!"N"⟩, by decide, _, _, rfl, by decide +kernel, by decide +kernel⟩

/-- **C64**, exactly: every call behaves as on a fresh connection, except that the bytes come from the first file opened
on the connection. -/
theorem C64_exact (l : List (Cfg × Args × Option File)) (f : File) (c : Cfg) (a : Args) :
    sendfiles ((c, a, some f) :: l) none = sendfile c a (some f) none :: l.map (fun x => sendfile x.1 x.2.1 x.2.2 (some f.content)) := by
  have : ∀ l : List (Cfg × Args × Option File), sendfiles l (some f.content) = l.map (fun x => sendfile x.1 x.2.1 x.2.2 (some f.content)) := by
    intro l
    induction l with
    | nil => rfl
    | cons x t ih => obtain ⟨c, a, g⟩ := x; simp [sendfiles, handleAfter, ih]
  rw [sendfiles, show handleAfter (some f) none = some f.content from rfl, this]

/-- **C64**, the part that holds: as long as all files sent on a connection have the same content (one file, say), every call
behaves as on a fresh connection. Missing: different files. -/
theorem C64_same_partial (content : Bytes) (l : List (Cfg × Args × Option File)) (h : ∀ x ∈ l, ∀ f, x.2.2 = some f → f.content = content) :
    sendfiles l none = l.map (fun x => sendfile x.1 x.2.1 x.2.2 none) := by
  suffices H : ∀ (l : List (Cfg × Args × Option File)) (hd : Option Bytes), (hd = none ∨ hd = some content) →
      (∀ x ∈ l, ∀ f, x.2.2 = some f → f.content = content) → sendfiles l hd = l.map (fun x => sendfile x.1 x.2.1 x.2.2 none) from H l none (.inl rfl) h
  intro l
  induction l with
  | nil => intros; rfl
  | cons x t ih =>
    obtain ⟨c, a, g⟩ := x
    intro hd hh hx
    have ht := fun y hy => hx y (List.mem_cons_of_mem _ hy)
    have hg := hx (c, a, g) (by simp)
    dsimp only at hg
    rw [sendfiles, ih (handleAfter g hd) ?_ ht, List.map_cons]
    · congr 1
      cases g with
      | none => rfl
      | some f =>
        have := hg f rfl
        rcases hh with rfl | rfl
        · rfl
        · unfold sendfile; simp [this]
    · cases g with
      | none => rcases hh with rfl | rfl <;> simp [handleAfter]
      | some f => rcases hh with rfl | rfl <;> simp [handleAfter, hg f rfl]

/-- Twice the same file. -/
example : ∃ l : List (Cfg × Args × Option File), l.length = 2 ∧ (∀ x ∈ l, ∀ f, x.2.2 = some f → f.content = b!"hello") ∧
    sendfiles l none = l.map (fun x => sendfile x.1 x.2.1 x.2.2 none) :=
  ⟨[({}, {}, some ⟨b!"hello", b!"M"⟩), ({}, {}, some ⟨b!"hello", b!"M"⟩)], rfl, by simp, C64_same_partial b!"hello" _ (by simp)⟩

end Verif
