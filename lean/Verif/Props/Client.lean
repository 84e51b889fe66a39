import Verif.Props.ResponseEnds
import Verif.Proofs.Client
/-!
# C89: a client can tell where each response ends
-/
namespace Verif
open Verif.Py Verif.Model.Response Verif.Spec.Response Verif.Proofs.Response Verif.Spec.Client Verif.Proofs.Client

namespace ClientProps

/-- The chunks in which the pieces `ds` are sent. -/
def chunksOf (ds : List Bytes) : List Spec.Body.Chunk := (ds.filter (· ≠ [])).map chunkOf

theorem chunksOf_wf (ds : List Bytes) : ∀ x ∈ chunksOf ds, x.Wf := by
  intro x hx
  obtain ⟨y, hy, rfl⟩ := List.mem_map.1 hx
  exact chunkOf_wf (by simpa using (List.mem_filter.1 hy).2)

/-- The bytes behind the head. -/
def bodyOf (c : Cfg) (o : Opt) (st : Int) (ds : List Bytes) : Bytes :=
  if bodyless c st then [] else if wantsChunked c o st then Spec.Body.encode (chunksOf ds) (Spec.Body.lastChunk b!"0" [] CRLF) else ds.flatten

theorem asked_plain (o : SendOpts) (ds : List Bytes) : asked ((bodies false o ds).map Emit.op) = ds.flatten.map some := by
  induction ds with
  | nil => rfl
  | cons d t ih =>
    by_cases hd : d = []
    · simpa [bodies, hd] using ih
    · have e : bodies false o (d :: t) = .body (framed false d) o :: bodies false o t := by simp [bodies, hd]
      rw [e]; simp [Emit.op, asked, framed, ih]

theorem bodies_ok {ch : Bool} {o : SendOpts} (ho : o.throttle = true → 0 < o.bufferSize) (ds : List Bytes) : ∀ e ∈ bodies ch o ds, SendOp.Ok e.op := by
  intro e he
  obtain ⟨y, _, rfl⟩ := List.mem_map.1 he; exact ho

theorem wire_tail {c : Cfg} {o : Opt} {st : Int} {ds : List Bytes} {k : Bool} {t : Bytes} {so lo : SendOpts} (ho : so.throttle = true → 0 < so.bufferSize) (hl : lo.throttle = false)
    {log : List Emit} (h : log = [.head t [] { throttle := false }] ++ if bodyless c st then [.mark k] else
      bodies (wantsChunked c o st) so ds ++ [.body (framed (wantsChunked c o st) []) lo, .mark k]) :
    wire log = (t ++ bodyOf c o st ds).map some ++ [none] := by
  subst h
  unfold bodyOf
  by_cases hb : bodyless c st = true
  · rw [if_pos hb, if_pos hb]
    have := wire_closed (log := [.head t [] { throttle := false }]) (by simp [Emit.op, SendOp.Ok]) k
    simpa [Emit.op, asked] using this
  · rw [if_neg hb, if_neg hb]
    have := wire_closed (log := [.head t [] { throttle := false }] ++ (bodies (wantsChunked c o st) so ds ++ [.body (framed (wantsChunked c o st) []) lo])) (by
      intro e he
      simp only [List.mem_append, List.mem_singleton] at he
      rcases he with h | h | h
      · subst h; simp [Emit.op, SendOp.Ok]
      · exact bodies_ok ho ds e h
      · subst h; simp [Emit.op, SendOp.Ok, hl]) k
    simp only [List.append_assoc, List.cons_append, List.nil_append] at this ⊢
    rw [this]
    simp only [List.map_cons, List.map_append, asked, Emit.op, List.append_nil, asked_append, List.map_nil, List.append_assoc]
    cases hw : wantsChunked c o st with
    | true =>
      rw [if_pos rfl, ← last_frame]
      have := asked_bodies so ds (framed true [])
      unfold chunksOf
      rw [← this]
      simp
    | false =>
      rw [if_neg (by simp), asked_plain]
      simp [framed]

/-- When the client of RFC 9112 expects no body, the server sends none, and conversely; but for 205. -/
theorem bodyless_iff {c : Cfg} {st : Int} (h1 : 200 ≤ st) (h5 : st ≠ 205 ∨ c.method = b!"HEAD") :
    bodyless c st = true ↔ (c.method = b!"HEAD" ∨ st.toNat < 200 ∨ st.toNat = 204 ∨ st.toNat = 304) := by
  unfold bodyless noBody
  simp only [Bool.or_eq_true, decide_eq_true_eq, beq_iff_eq, Bool.and_eq_true]
  constructor
  · rintro (h | ((h | h) | h) | h)
    · exact .inl h
    · right; right; left; omega
    · rcases h5 with h5 | h5
      · exact absurd h h5
      · exact .inl h5
    · right; right; right; omega
    · omega
  · rintro (h | h | h | h)
    · exact .inl h
    · omega
    · right; left; left; left; omega
    · right; left; right; omega

theorem untouched_nil {k : Bytes} {x : List Call} (hx : ∀ y ∈ x, touches k y = false) : linesFor k x = [] := by
  have := untouched_snoc hx []
  rw [List.nil_append] at this
  rw [this]; rfl

end ClientProps
open ClientProps

/-- **C89**, returned data: what is sent for it, up to its end marker, is a response that the client reads from the front of
the stream whatever follows; it has the status and the header lines asked for, and its body is what the handler returned
(empty for HEAD, 204 and 304). For final statuses other than 205, if nobody but the server sets Transfer-Encoding, and the
response middlewares set neither a status nor Content-Length. -/
theorem C89_returned {c : Cfg} (hc : CfgOk c) (hv : (32 : UInt8) ∉ c.version) {a : App} (hq : ∀ m ∈ a.qms, Script.Fine m.script) (hr : ∀ m ∈ a.rms, Script.Fine m.script)
    (pq : Pass a.qms) (pr : Pass a.rms) {sc : Script} (hs : Script.Fine sc) {d : Bytes} (hh : a.handler = .coro sc (.data d)) {s s' : St} (fs : Fresh s)
    (run : serve c a s = (.ok (), s')) (hb : 0 < a.opt.bufferSize)
    (h1 : 200 ≤ (lastStatus (before a sc)).1) (h2 : (lastStatus (before a sc)).1 < 1000) (h5 : (lastStatus (before a sc)).1 ≠ 205 ∨ c.method = b!"HEAD")
    (nt : ∀ x ∈ before a sc ++ mwCalls a.rms, touches b!"transfer-encoding" x = false)
    (nr : ∀ x ∈ mwCalls a.rms, setsStatus x = false ∧ touches b!"content-length" x = false) :
    ∃ bs r, wire s'.log = bs.map some ++ [none] ∧ marks s'.log = [s.keepalive] ∧ Delimited c.method bs r ∧
      (r.status : Int) = (lastStatus (before a sc)).1 ∧ (∀ n, n ∉ ownNames → named n r.fields = linesFor n (before a sc ++ mwCalls a.rms)) ∧
      r.body = if bodyless c (lastStatus (before a sc)).1 then [] else d := by
  obtain ⟨t, ls, hl, sl⟩ := (returned_sent hc hq hr pq pr hs hh fs run).ex
  obtain ⟨x, ex, ox⟩ := dataOwn c a.opt (before a sc) d s.keepalive
  have sl' := sl
  rw [ex] at sl'
  have ⟨n1, n2, n3⟩ := own_mid ox (before a sc) (mwCalls a.rms)
  have hst : lastStatus (before a sc ++ mwCalls a.rms) = lastStatus (before a sc) := setsStatus_snoc (fun y hy => (nr y hy).1) _
  have his := sl'.is
  rw [n1, hst] at his
  have hsr := status_read hv (st := (lastStatus (before a sc)).1) (by omega) h2 (lastStatus (before a sc)).2
  have hw : wire s'.log = (t ++ bodyOf c a.opt (lastStatus (before a sc)).1 [d]).map some ++ [none] := by
    refine wire_tail (k := s.keepalive) (so := { bufferSize := a.opt.bufferSize }) (lo := { throttle := false }) (fun _ => hb) rfl ?_
    rw [hl]
    unfold dataTail
    rw [show (if d = [] then [] else [Emit.body (framed (wantsChunked c a.opt (lastStatus (before a sc)).1) d) { bufferSize := a.opt.bufferSize }]) =
      bodies (wantsChunked c a.opt (lastStatus (before a sc)).1) { bufferSize := a.opt.bufferSize } [d] by by_cases hd : d = [] <;> simp [bodies, hd]]
    rfl
  have hm : marks s'.log = [s.keepalive] := by
    rw [hl, dataTail]
    split
    · rfl
    · split <;> rfl
  refine ⟨_, ⟨(lastStatus (before a sc)).1.toNat, ls, if bodyless c (lastStatus (before a sc)).1 then [] else d⟩, hw, hm, ?_, by
    show ((lastStatus (before a sc)).1.toNat : Int) = _; omega, fun n hn => ?_, rfl⟩
  · intro closed tail
    rw [List.append_assoc]
    refine read_of his hsr ?_
    by_cases hbl : bodyless c (lastStatus (before a sc)).1 = true
    · unfold bodyOf
      rw [if_pos hbl, if_pos hbl]
      exact body_none ((bodyless_iff h1 h5).1 hbl) _ _
    · have hcl := fun h => hbl ((bodyless_iff h1 h5).2 h)
      have hbf : bodyless c (lastStatus (before a sc)).1 = false := by simpa using hbl
      unfold bodyOf
      rw [if_neg hbl, if_neg hbl]
      cases hwc : wantsChunked c a.opt (lastStatus (before a sc)).1 with
      | true =>
        rw [if_pos rfl]
        have hte : named b!"transfer-encoding" ls = [b!"Transfer-Encoding: chunked"] := by
          have := sl.lines kTE (by decide)
          rw [untouched_snoc (fun y hy => nt y (by simp [hy])), data_te c a.opt _ d _ hwc] at this
          exact this
        have := body_chunked (closed := closed) (m := c.method) hcl hte (chunksOf_wf [d]) tail
        rw [this]
        have hp := payload_chunks [d]
        simp only [List.flatten_cons, List.flatten_nil, List.append_nil] at hp
        unfold chunksOf; rw [hp]
      | false =>
        rw [if_neg (by simp)]
        have hnb : noBody (lastStatus (before a sc)).1 = false := by
          unfold bodyless at hbf; simp only [Bool.or_eq_false_iff] at hbf; exact hbf.2
        have hte : named b!"transfer-encoding" ls = [] := by
          have := sl.lines kTE (by decide)
          rw [untouched_snoc (fun y hy => nt y (by simp [hy]))] at this
          unfold dataCalls at this
          rw [untouched_snoc (by simp [touches]; decide), if_neg (by rw [hnb, hwc]; simp)] at this
          rw [untouched_snoc (by simp [touches]; decide)] at this
          rw [hwc] at this
          exact this.trans ((untouched_snoc (by simp [teCalls]) _).trans (untouched_nil (fun y hy => nt y (List.mem_append_left _ hy))))
        have hln : named kCL ls = [line b!"Content-Length" (fmtNat d.length)] := by
          have := sl.lines kCL (by decide)
          rw [untouched_snoc (fun y hy => (nr y hy).2), data_cl c a.opt _ d _ hnb hwc] at this
          exact this
        obtain ⟨v, g1, g2, g3⟩ := length_line hln
        simp only [List.flatten_cons, List.flatten_nil, List.append_nil]
        exact body_length hcl hte g1 g2 g3 tail
  · have := sl'.lines n (fun hx => hn (List.Sublist.subset (l₁ := reserved) (by decide) hx))
    exact this.trans (n3 n hn)

/-- Yielded data: sent chunked, or without a body (HEAD, 204, 304), the client reads it whatever follows; else, if nobody sets
Content-Length, the connection is closed at its end and the client takes everything up to there. In each case its body is the
concatenation of the values. -/
theorem C89_streamed {c : Cfg} (hc : CfgOk c) (hv : (32 : UInt8) ∉ c.version) {a : App} (hq : ∀ m ∈ a.qms, Script.Fine m.script) (hr : ∀ m ∈ a.rms, Script.Fine m.script)
    (pq : Pass a.qms) (pr : Pass a.rms) {sc : Script} (hs : Script.Fine sc) {d : Bytes} {rest : List (Script × Bytes)} (hy : ∀ y ∈ rest, Script.Fine y.1)
    {fin : Script} (hf : Script.Fine fin) {ex : Option Exc} (hh : a.handler = .gen ((sc, d) :: rest) fin ex) {s s' : St} (fs : Fresh s)
    (run : serve c a s = (.ok (), s')) (hb : 0 < a.opt.bufferSize)
    (h1 : 200 ≤ (lastStatus (before a sc)).1) (h2 : (lastStatus (before a sc)).1 < 1000)
    (h5 : (lastStatus (before a sc)).1 = 205 → c.method = b!"HEAD" ∨ wantsChunked c a.opt 205 = false)
    (nt : ∀ x ∈ before a sc ++ (mwCalls a.rms ++ lateCalls rest fin), touches b!"transfer-encoding" x = false)
    (ns : ∀ x ∈ mwCalls a.rms ++ lateCalls rest fin, setsStatus x = false)
    (nl : wantsChunked c a.opt (lastStatus (before a sc)).1 = false → bodyless c (lastStatus (before a sc)).1 = false ∨ (lastStatus (before a sc)).1 = 205 →
      ∀ x ∈ before a sc ++ (mwCalls a.rms ++ lateCalls rest fin), touches b!"content-length" x = false) :
    ∃ bs r k, wire s'.log = bs.map some ++ [none] ∧ marks s'.log = [k] ∧ (Delimited c.method bs r ∨ k = false ∧ Final c.method bs r) ∧
      (wantsChunked c a.opt (lastStatus (before a sc)).1 = true → k = s.keepalive) ∧
      (r.status : Int) = (lastStatus (before a sc)).1 ∧ r.body = if bodyless c (lastStatus (before a sc)).1 then [] else (d :: rest.map (·.2)).flatten := by
  obtain ⟨t, ls, hl, sl⟩ := (streamed_sent hc hq hr pq pr hs hy hf hh fs run).2.ex
  obtain ⟨x, ex, ox⟩ := genOwn c a.opt (before a sc) s.keepalive
  have sub : ∀ {P : Call → Prop}, (∀ y ∈ mwCalls a.rms ++ lateCalls rest fin, P y) → ∀ y ∈ mwCalls a.rms ++ genLate c (lastStatus (before a sc)).1 d rest fin, P y := by
    intro P hP y hy
    rcases List.mem_append.1 hy with h | h
    · exact hP y (List.mem_append_left _ h)
    · refine hP y (List.mem_append_right _ ?_)
      unfold genLate at h
      split at h
      · cases h
      · split at h
        · exact h
        · cases h
  have his : HeadIs t (statusLine c (lastStatus (before a sc))) ls := by
    have := sl.is
    rw [ex, List.append_assoc (before a sc ++ x), (own_mid ox _ _).1, setsStatus_snoc (sub ns)] at this
    exact this
  have hsr := status_read hv (st := (lastStatus (before a sc)).1) (by omega) h2 (lastStatus (before a sc)).2
  have hw : wire s'.log = (t ++ bodyOf c a.opt (lastStatus (before a sc)).1 (d :: rest.map (·.2))).map some ++ [none] := by
    refine wire_tail (k := genKeep c a.opt (before a sc) s.keepalive) (so := a.opt.sendOpts) (lo := lastOpts a.opt.sendOpts) (fun _ => hb) rfl ?_
    rw [hl]; rfl
  have hm : marks s'.log = [genKeep c a.opt (before a sc) s.keepalive] := by
    obtain ⟨l, e, hm⟩ := genTail_last c a.opt (lastStatus (before a sc)).1 (d :: rest.map (·.2)) (genKeep c a.opt (before a sc) s.keepalive)
    rw [hl, e]; simp [marks_append, hm, marks]
  refine ⟨_, ⟨(lastStatus (before a sc)).1.toNat, ls, if bodyless c (lastStatus (before a sc)).1 then [] else (d :: rest.map (·.2)).flatten⟩, _, hw, hm, ?_,
    fun hwc => (by unfold genKeep; rw [hwc]; simp), by show ((lastStatus (before a sc)).1.toNat : Int) = _; omega, rfl⟩
  -- closed: no length and no chunks
  have closedCase : wantsChunked c a.opt (lastStatus (before a sc)).1 = false → (bodyless c (lastStatus (before a sc)).1 = false ∨ (lastStatus (before a sc)).1 = 205) →
      ¬ (c.method = b!"HEAD" ∨ (lastStatus (before a sc)).1.toNat < 200 ∨ (lastStatus (before a sc)).1.toNat = 204 ∨ (lastStatus (before a sc)).1.toNat = 304) →
      genKeep c a.opt (before a sc) s.keepalive = false ∧ ∀ y, readBody true c.method (lastStatus (before a sc)).1.toNat ls y = some (y, []) := by
    intro hwc hbl hcl
    have nl := nl hwc hbl
    have hte : named b!"transfer-encoding" ls = [] := by
      have := sl.lines kTE (by decide)
      rw [List.append_assoc, untouched_snoc (sub (fun y hy => nt y (List.mem_append_right _ hy)))] at this
      unfold genCalls at this
      rw [untouched_snoc (by simp [touches]; decide), hwc] at this
      exact this.trans ((untouched_snoc (by simp [teCalls]) _).trans (untouched_nil (fun y hy => nt y (List.mem_append_left _ hy))))
    have hcln : linesFor kCL (before a sc) = [] := untouched_nil (fun y hy => nl y (List.mem_append_left _ hy))
    have hlen : named b!"content-length" ls = [] := by
      have := sl.lines kCL (by decide)
      rw [List.append_assoc, untouched_snoc (sub (fun y hy => nl y (List.mem_append_right _ hy)))] at this
      unfold genCalls at this
      rw [untouched_snoc (by simp [touches]; decide), hwc] at this
      exact this.trans ((untouched_snoc (by simp [teCalls]) _).trans hcln)
    refine ⟨?_, fun y => body_close hcl hte hlen y⟩
    unfold genKeep
    rw [hwc, hcln]
    have : ((lastStatus (before a sc)).1 == 101) = false := beq_eq_false_iff_ne.2 (by omega)
    rw [this]; simp
  by_cases h205 : (lastStatus (before a sc)).1 ≠ 205 ∨ c.method = b!"HEAD"
  · by_cases hbl : bodyless c (lastStatus (before a sc)).1 = true
    · left
      intro closed tail
      rw [List.append_assoc]
      refine read_of his hsr ?_
      unfold bodyOf
      rw [if_pos hbl, if_pos hbl]
      exact body_none ((bodyless_iff h1 h205).1 hbl) _ _
    · have hcl := fun h => hbl ((bodyless_iff h1 h205).2 h)
      have hbf : bodyless c (lastStatus (before a sc)).1 = false := by simpa using hbl
      cases hwc : wantsChunked c a.opt (lastStatus (before a sc)).1 with
      | true =>
        left
        intro closed tail
        rw [List.append_assoc]
        refine read_of his hsr ?_
        unfold bodyOf
        rw [if_neg hbl, if_neg hbl, if_pos hwc]
        have hte : named b!"transfer-encoding" ls = [b!"Transfer-Encoding: chunked"] := by
          have := sl.lines kTE (by decide)
          rw [List.append_assoc, untouched_snoc (sub (fun y hy => nt y (List.mem_append_right _ hy))), gen_te c a.opt _ _ hwc] at this
          exact this
        have := body_chunked (closed := closed) (m := c.method) hcl hte (chunksOf_wf (d :: rest.map (·.2))) tail
        rw [this]
        unfold chunksOf; rw [payload_chunks]
      | false =>
        right
        obtain ⟨hk, hrd⟩ := closedCase hwc (.inl hbf) hcl
        refine ⟨hk, read_of his hsr ?_⟩
        unfold bodyOf
        rw [if_neg hbl, if_neg hbl, if_neg (by rw [hwc]; simp)]
        exact hrd _
  · have e205 : (lastStatus (before a sc)).1 = 205 := Classical.byContradiction (fun h => h205 (.inl h))
    have hne : c.method ≠ b!"HEAD" := fun h => h205 (.inr h)
    have hwc : wantsChunked c a.opt (lastStatus (before a sc)).1 = false := by
      rw [e205]; rcases h5 e205 with h | h
      · exact absurd h hne
      · exact h
    have hcl : ¬ (c.method = b!"HEAD" ∨ (lastStatus (before a sc)).1.toNat < 200 ∨ (lastStatus (before a sc)).1.toNat = 204 ∨ (lastStatus (before a sc)).1.toNat = 304) := by
      rw [e205]; simp [hne]
    right
    obtain ⟨hk, hrd⟩ := closedCase hwc (.inr e205) hcl
    refine ⟨hk, read_of his hsr ?_⟩
    have hbl : bodyless c (lastStatus (before a sc)).1 = true := by rw [e205]; simp [bodyless, noBody]
    unfold bodyOf
    rw [if_pos hbl, if_pos hbl]
    exact hrd _

namespace ClientProps

/-- What `end` sends is delimited. -/
theorem ended_delimited {c : Cfg} (hv : (32 : UInt8) ∉ c.version) {calls : List Call} {d : Bytes} {k : Bool} {t : Bytes} {ls : List Bytes}
    (e : EndLines c calls d.length k t ls) (h1 : 200 ≤ (lastStatus calls).1) (h2 : (lastStatus calls).1 < 1000)
    (h5 : (lastStatus calls).1 ≠ 205 ∨ c.method = b!"HEAD" ∨ d = []) :
    Delimited c.method (t ++ if bodyless c (lastStatus calls).1 then [] else d) ⟨(lastStatus calls).1.toNat, ls, if bodyless c (lastStatus calls).1 then [] else d⟩ := by
  intro closed tail
  rw [List.append_assoc]
  refine read_of e.is (status_read hv (by omega) h2 _) ?_
  obtain ⟨v, g1, g2, g3⟩ := length_line e.clen
  by_cases hx : c.method = b!"HEAD" ∨ (lastStatus calls).1.toNat < 200 ∨ (lastStatus calls).1.toNat = 204 ∨ (lastStatus calls).1.toNat = 304
  · by_cases h : (lastStatus calls).1 ≠ 205 ∨ c.method = b!"HEAD"
    · rw [if_pos ((bodyless_iff h1 h).2 hx)]
      exact body_none hx _ _
    · exfalso
      have : (lastStatus calls).1 = 205 := Classical.byContradiction (fun h' => h (.inl h'))
      rcases hx with hx | hx | hx | hx
      · exact h (.inr hx)
      · omega
      · omega
      · omega
  · have hd : (if bodyless c (lastStatus calls).1 = true then [] else d) = d := by
      by_cases h : (lastStatus calls).1 ≠ 205 ∨ c.method = b!"HEAD"
      · rw [if_neg (fun hb => hx ((bodyless_iff h1 h).1 hb))]
      · rcases h5 with h5 | h5 | h5
        · exact absurd (.inl h5) h
        · exact absurd (.inr h5) h
        · rw [h5]; split <;> rfl
    rw [hd]
    exact body_length hx e.te g1 g2 g3 tail

end ClientProps

/-- `end`: the same, with whatever headers were set; the status is not 205 unless the data is empty. -/
theorem C89_end {c : Cfg} (hc : CfgOk c) (hv : (32 : UInt8) ∉ c.version) {s s1 : St} (fs : Fresh s) {sc : Script} (hf : Script.Fine sc)
    (hr : runScript c ((.setBaseHeader, false) :: sc) s = (.ok (), s1)) (d : Bytes) (k : Bool) {o : SendOpts} (ho : o.throttle = true → 0 < o.bufferSize)
    (h1 : 200 ≤ (lastStatus (callsOf sc)).1) (h2 : (lastStatus (callsOf sc)).1 < 1000) (h5 : (lastStatus (callsOf sc)).1 ≠ 205 ∨ c.method = b!"HEAD" ∨ d = []) :
    ∃ s' bs r, end_ c d k o s1 = (.ok (), s') ∧ wire s'.log = bs.map some ++ [none] ∧ marks s'.log = [k && s.keepalive] ∧ Delimited c.method bs r ∧
      (r.status : Int) = (lastStatus (callsOf sc)).1 ∧ r.body = if bodyless c (lastStatus (callsOf sc)).1 then [] else d := by
  obtain ⟨s', run, en, _⟩ := end_spec hc (script_inv hc fs hf hr) d k o
  obtain ⟨t, ls, hl, e⟩ := en.ex
  rw [fs.log, endBody_eq] at hl
  refine ⟨s', _, _, run, ?_, ?_, ended_delimited hv e h1 h2 h5, by show ((lastStatus (callsOf sc)).1.toNat : Int) = _; omega, rfl⟩
  · rw [hl]
    have := wire_closed (log := [.head t (if bodyless c (lastStatus (callsOf sc)).1 then [] else d) o]) (by simpa [Emit.op, SendOp.Ok] using ho) (k && s.keepalive)
    simpa [Emit.op, asked] using this
  · rw [hl]; rfl

/-- A request middleware that returns data. -/
theorem C89_middleware {c : Cfg} (hc : CfgOk c) (hv : (32 : UInt8) ∉ c.version) {a : App} (hq : ∀ m ∈ a.qms, Script.Fine m.script) {pre post : List Mw} {m : Mw} {d : Bytes}
    (hm : a.qms = pre ++ m :: post) (pp : Pass pre) (hd : m.ret = .data d) {s s' : St} (fs : Fresh s) (run : serve c a s = (.ok (), s'))
    (h1 : 200 ≤ (lastStatus (mwCalls pre ++ callsOf m.script ++ optCalls m.status m.ctype)).1)
    (h2 : (lastStatus (mwCalls pre ++ callsOf m.script ++ optCalls m.status m.ctype)).1 < 1000)
    (h5 : (lastStatus (mwCalls pre ++ callsOf m.script ++ optCalls m.status m.ctype)).1 ≠ 205 ∨ c.method = b!"HEAD" ∨ d = []) :
    ∃ bs r, wire s'.log = bs.map some ++ [none] ∧ marks s'.log = [s.keepalive] ∧ Delimited c.method bs r ∧
      (r.status : Int) = (lastStatus (mwCalls pre ++ callsOf m.script ++ optCalls m.status m.ctype)).1 ∧
      r.body = if bodyless c (lastStatus (mwCalls pre ++ callsOf m.script ++ optCalls m.status m.ctype)).1 then [] else d := by
  obtain ⟨t, ls, hl, e⟩ := (mw_ended hc hq hm pp hd fs run).ex
  rw [endBody_eq] at hl
  refine ⟨_, _, ?_, ?_, ended_delimited hv e h1 h2 h5, by show ((lastStatus (mwCalls pre ++ callsOf m.script ++ optCalls m.status m.ctype)).1.toNat : Int) = _; omega, rfl⟩
  · rw [hl]
    have := wire_closed (log := [.head t (if bodyless c (lastStatus (mwCalls pre ++ callsOf m.script ++ optCalls m.status m.ctype)).1 then [] else d) { throttle := false }])
      (by simp [Emit.op, SendOp.Ok]) s.keepalive
    simpa [Emit.op, asked] using this
  · rw [hl]; rfl

/-- An exception before anything was sent: the error response, with the status of the exception unless the error handler sets
another, is delimited and then the connection is closed. -/
theorem C89_error {c : Cfg} (hc : CfgOk c) (hv : (32 : UInt8) ∉ c.version) {a : App} (ha : App.Clean a) (ef : Script.Fine a.err.script)
    (es : ∀ x ∈ callsOf a.err.script, setsStatus x = false) {s s1 : St} (fs : Fresh s) {e : Exc}
    (run : serve c a s = (.error e, s1)) (hl1 : s1.log = []) (hs : s1.headers ≠ none) (g1 : ∀ code, e ≠ .wsServer code) (g2 : e ≠ .ws)
    (hm : (10 : UInt8) ∉ (errStatus e).2) (ht : (10 : UInt8) ∉ errType e)
    (h1 : 200 ≤ (errStatus e).1) (h2 : (errStatus e).1 < 1000) (h5 : (errStatus e).1 ≠ 205 ∨ c.method = b!"HEAD") :
    ∃ bs r, wire (handleRequest c a s).log = bs.map some ++ [none] ∧ marks (handleRequest c a s).log = [false] ∧ Delimited c.method bs r ∧
      (r.status : Int) = (errStatus e).1 := by
  have w := serve_wf hc ha s (wf_fresh fs)
  rw [run] at w
  obtain ⟨pre, d, hp, en⟩ := errorResponse_spec hc (eh := a.err) ef ha.err (e := asHttp e) (by rw [asHttp_eq]; exact hm) (by rw [asHttp_eq]; exact ht) w hs
  obtain ⟨t, ls, hl, el⟩ := en.ex
  have hst : lastStatus (errCalls (asHttp e) ++ pre) = errStatus e := by
    rw [asHttp_eq]
    rw [setsStatus_snoc (fun x hx => es x (hp.subset hx))]
    show lastStatus [.setStatus (errStatus e).1 (errStatus e).2, .setContentType (errType e)] = _
    simp [lastStatus, hm]
  have hh : handleRequest c a s = (errorResponse c a.err (asHttp e) s1).2 := by
    unfold handleRequest
    rw [run]
    dsimp only
    unfold handleException
    rw [bind_ok (get_run _)]
    have hsent : headersSent s1 = false := by
      cases h : s1.headers with
      | none => exact absurd h hs
      | some _ => simp [headersSent, h]
    rw [if_neg (by simp [hsent])]
    cases e with
    | wsServer code => exact absurd rfl (g1 code)
    | ws => exact absurd rfl g2
    | _ => rfl
  rw [endBody_eq, hl1] at hl
  refine ⟨_, _, ?_, ?_, ended_delimited hv el (by rw [hst]; exact h1) (by rw [hst]; exact h2) (by rw [hst]; rcases h5 with h | h; exact .inl h; exact .inr (.inl h)), ?_⟩
  · rw [hh, hl]
    have := wire_closed (log := [.head t (if bodyless c (lastStatus (errCalls (asHttp e) ++ pre)).1 then [] else d) { throttle := false }])
      (by simp [Emit.op, SendOp.Ok]) false
    simpa [Emit.op, asked] using this
  · rw [hh, hl]; rfl
  · show ((lastStatus (errCalls (asHttp e) ++ pre)).1.toNat : Int) = _
    rw [hst]; omega

/-- The bytes of a wire. -/
def wireBytes (log : List Emit) : Bytes := (wire log).filterMap id

/-- The hypotheses on concrete requests; what the client reads when four responses follow each other: chunked, with a length,
without a body, and one that lasts until the connection is closed. -/
example : (readAll true [b!"GET", b!"GET", b!"HEAD", b!"GET", b!"GET"]
    (wireBytes (handleRequest {} { handler := .coro [(.setHeader b!"X" b!"1", false)] (.data b!"hello") } { keepalive := true }).log ++
     wireBytes (handleRequest {} { opt := { chunked := some false, status := some (404, b!"Not Found") }, handler := .coro [] (.data b!"nothing here") } { keepalive := true }).log ++
     wireBytes (handleRequest { method := b!"HEAD" } { handler := .gen [([], b!"x")] [] none } { keepalive := true }).log ++
     wireBytes (handleRequest {} { handler := .gen [([], b!"ab"), ([], []), ([], b!"0123456789abcdefg")] [] none } { keepalive := true }).log ++
     wireBytes (handleRequest { version := b!"1.0" } { handler := .gen [([], b!"old"), ([], b!" client")] [] none } { keepalive := true }).log)).map
       (fun p => (p.1.map (fun r => (r.status, r.body)), p.2)) =
    some ([(200, b!"hello"), (404, b!"nothing here"), (200, []), (200, b!"ab0123456789abcdefg"), (200, b!"old client")], []) := by decide +kernel

/-- **C89 fails** for status 205, which the server takes for one without a body; the client does not. `end` announces the length
of data that it does not send, on a connection that is kept: the client takes the next response for the body. -/
theorem C89_refuted_end : ∃ a : App,
    let log := (handleRequest {} a { keepalive := true }).log
    let next := (handleRequest {} { handler := .coro [] (.data b!"next") } { keepalive := true }).log
    marks log = [true] ∧ (readAll false [b!"GET"] (wireBytes log ++ wireBytes next)).map (fun p => p.1.map (fun r => (r.status, r.body))) = some [(205, b!"HTTP/")] :=
  ⟨{ qms := [{ ret := .data b!"hello", status := some (205, b!"Reset Content") }], handler := .coro [] .none }, by decide +kernel⟩

/-- Returned data: the head has no length, the connection is kept, and the client waits for its end. -/
theorem C89_refuted_returned : ∃ a : App,
    let log := (handleRequest {} a { keepalive := true }).log
    marks log = [true] ∧ a.handler = .coro [] (.data b!"hello") ∧ readResponse false b!"GET" (wireBytes log) = none ∧
      (readResponse true b!"GET" (wireBytes log)).map (fun p => p.1.status) = some 205 :=
  ⟨{ opt := { status := some (205, b!"Reset Content") }, handler := .coro [] (.data b!"hello") }, by decide +kernel⟩

/-- A response middleware that sets the status 204 behind the decision to send a body: the body is taken for the next response. -/
theorem C89_refuted_middleware : ∃ a : App,
    let log := (handleRequest {} a { keepalive := true }).log
    marks log = [true] ∧ (readResponse false b!"GET" (wireBytes log)).map (fun p => (p.1.status, p.1.body, p.2)) = some (204, [], b!"5\r\nhello\r\n0\r\n\r\n") :=
  ⟨{ rms := [{ script := [(.setStatus 204 b!"No Content", false)] }], handler := .coro [] (.data b!"hello") }, by decide +kernel⟩

end Verif
