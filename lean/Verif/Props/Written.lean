import Verif.Props.Client
import Verif.Props.SendfileRange
import Verif.Spec.Written
/-!
# C105: a client reads what a handler writes
-/
namespace Verif
open Verif.Py Verif.Model.Response Verif.Spec.Response Verif.Proofs.Response Verif.Spec.Client Verif.Proofs.Client Verif.Spec.Written
open ClientProps

namespace Written

theorem runScript_bind (c : Cfg) : ∀ (a b : Script) (s : St), runScript c (a ++ b) s = (runScript c a >>= fun _ => runScript c b) s
  | [], b, s => rfl
  | (x, g) :: a, b, s => by
    have ih := runScript_bind c a b
    show (match x.run c s with
      | (.ok _, s') => runScript c (a ++ b) s'
      | (.error e, s') => if g = true then runScript c (a ++ b) s' else (.error e, s')) = _
    have e : runScript c ((x, g) :: a) s = (match x.run c s with
      | (.ok _, s') => runScript c a s'
      | (.error e, s') => if g = true then runScript c a s' else (.error e, s')) := rfl
    rw [bind_run, e]
    rcases x.run c s with ⟨r, s'⟩
    cases r with
    | ok _ => dsimp only; rw [ih, bind_run]
    | error e =>
      dsimp only
      cases g with
      | true => simp only [if_true]; rw [ih, bind_run]
      | false => simp

/-- The bodies that are queued for the pieces. -/
def bodiesOf (ch : Bool) (ps : List Put) : List Emit := ps.map (fun p => .body (framed ch p.data) p.o)

theorem puts_sent {c : Cfg} (post : Script) : ∀ (ps : List Put) {s : St}, s.headers = none → s.upgraded = false →
    runScript c (ps.map Put.calls ++ post) s = runScript c post { s with log := s.log ++ bodiesOf s.chunked ps }
  | [], s, _, _ => by simp [bodiesOf]
  | p :: ps, s, hh, hu => by
    have h1 : (Call.write (some p.data) p.chunked p.o).run c s = (.ok (), { s with log := s.log ++ [.body (framed s.chunked p.data) p.o] }) := by
      show write c (some p.data) p.chunked p.o s = _
      rw [write_sent hh, writeBody_some, hu]; simp
    rw [List.map_cons, List.cons_append, Put.calls, Proofs.Sendfile.runScript_ok h1, puts_sent post ps (by exact hh) (by exact hu)]
    simp [bodiesOf]

/-- What `Fin` queues, and what the server adds when the handler has returned None. -/
def finLog (ch ka : Bool) : Fin → List Emit
  | .nothing => [.mark false]
  | .ends d k => [.body (framed ch d) { throttle := false }, .mark (k && ka), .mark false]
  | .closes k => [.mark (k && ka), .mark false]

theorem fin_sent {c : Cfg} (f : Fin) {s : St} (hh : s.headers = none) (hu : s.upgraded = false) :
    ∃ s', (runScript c f.calls >>= fun _ => close false) s = (.ok (), s') ∧ s'.log = s.log ++ finLog s.chunked s.keepalive f := by
  cases f with
  | nothing => exact ⟨_, rfl, rfl⟩
  | closes k =>
    cases k with
    | true => exact ⟨_, rfl, by show s.log ++ [_] ++ [_] = _; simp [finLog]⟩
    | false => exact ⟨_, rfl, by show s.log ++ [_] ++ [_] = _; simp [finLog]⟩
  | ends d k =>
    have h1 : endSend c d k { throttle := false } s = (.ok (), { s with log := s.log ++ [.body (framed s.chunked d) { throttle := false }] }) := by
      unfold endSend
      rw [bind_ok (get_run _), if_pos (by simp [headersSent, hh]), write_sent hh, writeBody_some, hu]; simp
    have h2 : (Call.end_ d k { throttle := false }).run c s = close k { s with log := s.log ++ [.body (framed s.chunked d) { throttle := false }] } := by
      show end_ c d k { throttle := false } s = _
      unfold end_
      rw [bind_ok h1]
    have h3 : ∀ s5 : St, close k s5 = (.ok (), { s5 with keepalive := k && s5.keepalive, log := s5.log ++ [.mark (k && s5.keepalive)] }) := by
      intro s5; cases k <;> rfl
    rw [h3] at h2
    refine ⟨{ s with keepalive := false, log := s.log ++ [.body (framed s.chunked d) { throttle := false }] ++ [.mark (k && s.keepalive)] ++ [.mark false] }, ?_, ?_⟩
    · rw [bind_run, Fin.calls, Proofs.Sendfile.runScript_ok h2]; rfl
    · simp [finLog]

theorem marks_of {p : Put} (h : p.Fits) : p.o.marks = true := by
  unfold SendOpts.marks
  split
  · next m hm => have := h m hm; simp; omega
  · rfl

end Written
open Written

/-- What is queued for a request whose handler writes its response itself. -/
theorem written_sent {c : Cfg} (hc : CfgOk c) {a : App} (hq : ∀ m ∈ a.qms, Script.Fine m.script) (pq : Pass a.qms) {pre : Script} (hs : Script.Fine pre)
    {p : Put} {ps : List Put} {f : Fin} (hh : a.handler = .coro (scriptOf pre p ps f) .none) {s s' : St} (fs : Fresh s) (run : serve c a s = (.ok (), s'))
    (hb : bodyless c (lastStatus (before a pre)).1 = false) (hm : p.Fits) :
    ∃ t rest, SentLines c (genCalls c { chunked := p.chunked } (before a pre) s.keepalive) true t rest ∧
      s'.log = .head t [] { throttle := false } :: bodiesOf (wantsChunked c { chunked := p.chunked } (lastStatus (before a pre)).1) (p :: ps) ++
        finLog (wantsChunked c { chunked := p.chunked } (lastStatus (before a pre)).1) (genKeep c { chunked := p.chunked } (before a pre) s.keepalive) f := by
  have nb : noBody (lastStatus (before a pre)).1 = false := by
    unfold bodyless at hb; simp only [Bool.or_eq_false_iff] at hb; exact hb.2
  have key : Tri (fun s' => Inv c false s false (mwCalls a.qms) s') (handleResponse c a.opt a.rms a.handler) (fun _ s' => ∃ t rest,
      SentLines c (genCalls c { chunked := p.chunked } (before a pre) s.keepalive) true t rest ∧
      s'.log = .head t [] { throttle := false } :: bodiesOf (wantsChunked c { chunked := p.chunked } (lastStatus (before a pre)).1) (p :: ps) ++
        finLog (wantsChunked c { chunked := p.chunked } (lastStatus (before a pre)).1) (genKeep c { chunked := p.chunked } (before a pre) s.keepalive) f) (fun _ => True) := by
    rw [hh]
    unfold handleResponse
    refine Tri.bind (Q := fun _ x => Inv c false s false (mwCalls a.qms ++ optCalls a.opt.status a.opt.ctype) x ∧ True)
      (Tri.pre (inv_opts hc (stable_true c)) (fun _ h => ⟨h, trivial⟩)) (fun _ => Tri.bind (inv_base' hc (stable_true c)) (fun _ => ?_))
    intro s1 i1
    have e1 : (runScript c (scriptOf pre p ps f) >>= fun _ => close false) s1 = (runScript c pre >>= fun _ => (runScript c ((p :: ps).map Put.calls ++ f.calls) >>= fun _ => close false)) s1 := by
      rw [bind_run, scriptOf, List.append_assoc, runScript_bind, bind_run, bind_run]
      generalize runScript c pre s1 = x
      obtain ⟨x, s2⟩ := x
      cases x <;> rfl
    show Post _ _ ((runScript c (scriptOf pre p ps f) >>= fun _ => close false) s1)
    rw [e1]
    refine Tri.bind (inv_script' hc (stable_true c) pre hs) (fun _ => ?_) s1 i1
    intro s2 i2
    have i2 : Inv c true s false (before a pre) s2 := i2.1
    obtain ⟨t, rest, s3, run, sl, hl, hk, hd, hch, hu⟩ := write_spec hc (some p.data) p.chunked p.o fs.upgraded i2 (fun _ => marks_of hm)
    rw [hb] at run
    simp only [Bool.false_eq_true, if_false] at run
    rw [writeBody_some] at run
    have hk : s3.keepalive = genKeep c { chunked := p.chunked } (before a pre) s.keepalive := by rw [hk, writeKeep, hb]; simp
    rw [nb] at sl
    obtain ⟨s4, r4, l4⟩ := fin_sent (c := c) f (s := { s3 with log := s3.log ++ bodiesOf s3.chunked (p :: ps) }) hd (hu nb)
    have e2 : (runScript c ((p :: ps).map Put.calls ++ f.calls) >>= fun _ => close false) s2 = (.ok (), s4) := by
      rw [← r4, bind_run, bind_run]
      have run : (Call.write (some p.data) p.chunked p.o).run c s2 = _ := run
      rw [List.map_cons, List.cons_append, Put.calls, Proofs.Sendfile.runScript_ok run, puts_sent f.calls ps (by exact hd) (by exact hu nb)]
      simp [bodiesOf, hu nb]
    rw [e2]
    refine ⟨t, rest, sl, ?_⟩
    rw [l4]
    simp only [hl, fs.log, hch, hk]
    simp
  rcases serve_spec hc hq fs key run with ⟨_, h⟩ | h | h
  · exact h
  · exact absurd h (not_ended pq)
  · exact absurd h.1 (not_odd pq)

namespace Written

/-- The end markers that a handler of this kind leaves: those of its own end, if any, and that of its return. -/
def ownMarks (ka : Bool) : Fin → List Bool
  | .nothing => [false]
  | .ends _ k => [k && ka, false]
  | .closes k => [k && ka, false]

def PutsOk (ps : List Put) : Prop := ∀ p ∈ ps, p.o.throttle = true → 0 < p.o.bufferSize

theorem asked_bodiesOf (ch : Bool) (ps : List Put) : asked ((bodiesOf ch ps).map Emit.op) = ((ps.map (fun p => framed ch p.data)).flatten).map some := by
  induction ps with
  | nil => rfl
  | cons p t ih =>
    have e : bodiesOf ch (p :: t) = .body (framed ch p.data) p.o :: bodiesOf ch t := rfl
    rw [e, List.map_cons]
    simp only [Emit.op, asked, ih, List.map_cons, List.flatten_cons, List.map_append]

theorem marks_bodiesOf (ch : Bool) (ps : List Put) : marks (bodiesOf ch ps) = [] := by
  induction ps with
  | nil => rfl
  | cons p t ih => exact ih

theorem wire_written {t : Bytes} {ch ka : Bool} {p : Put} {ps : List Put} (ho : PutsOk (p :: ps)) (f : Fin) {log : List Emit}
    (h : log = .head t [] { throttle := false } :: bodiesOf ch (p :: ps) ++ finLog ch ka f) :
    ∃ more, wire log = (t ++ ((piecesOf p ps f).map (framed ch)).flatten).map some ++ none :: more ∧ marks log = ownMarks ka f := by
  have okb : ∀ e ∈ Emit.head t [] { throttle := false } :: bodiesOf ch (p :: ps), SendOp.Ok e.op := by
    intro e he
    rcases List.mem_cons.1 he with rfl | he
    · simp [Emit.op, SendOp.Ok]
    · obtain ⟨y, hy, rfl⟩ := List.mem_map.1 he
      exact ho y hy
  have hm : marks (Emit.head t [] { throttle := false } :: bodiesOf ch (p :: ps)) = [] := marks_bodiesOf ch (p :: ps)
  have ha : asked ((Emit.head t [] { throttle := false } :: bodiesOf ch (p :: ps)).map Emit.op) = (t ++ (((p :: ps).map (·.data)).map (framed ch)).flatten).map some := by
    rw [List.map_cons]
    simp only [Emit.op, asked, List.append_nil]
    rw [asked_bodiesOf, List.map_map, List.map_append]; rfl
  generalize hL : Emit.head t [] { throttle := false } :: bodiesOf ch (p :: ps) = L at h okb hm ha
  subst h
  have snoc : ∀ {l : List Emit} (e : Emit), (∀ x ∈ l, SendOp.Ok x.op) → SendOp.Ok e.op → ∀ x ∈ l ++ [e], SendOp.Ok x.op := by
    intro l e h1 h2 x hx
    rcases List.mem_append.1 hx with hx | hx
    · exact h1 x hx
    · rw [List.mem_singleton.1 hx]; exact h2
  cases f with
  | nothing =>
    refine ⟨[], ?_, ?_⟩
    · rw [show finLog ch ka .nothing = [.mark false] from rfl, wire_closed okb, ha]; rfl
    · rw [marks_append, hm]; rfl
  | closes k =>
    refine ⟨[none], ?_, ?_⟩
    · rw [show L ++ finLog ch ka (.closes k) = (L ++ [.mark (k && ka)]) ++ [.mark false] by simp [finLog], wire_closed (snoc (.mark (k && ka)) okb trivial), List.map_append, asked_append, ha]
      simp [asked, Emit.op, piecesOf]
    · rw [marks_append, hm]; rfl
  | ends d k =>
    refine ⟨[none], ?_, ?_⟩
    · rw [show L ++ finLog ch ka (.ends d k) = (L ++ [.body (framed ch d) { throttle := false }] ++ [.mark (k && ka)]) ++ [.mark false] by simp [finLog],
        wire_closed (snoc (.mark (k && ka)) (snoc (.body (framed ch d) { throttle := false }) okb (by simp [Emit.op, SendOp.Ok])) trivial), List.map_append, asked_append, List.map_append, asked_append, ha]
      simp [asked, Emit.op, piecesOf]
    · rw [marks_append, hm]; rfl

/-- One chunk is read. -/
theorem chunk_read {ch : Spec.Body.Chunk} (h : ch.Wf) (n : Nat) (X : Bytes) :
    readChunks (n + 1) (ch.size ++ ch.ext ++ CRLF ++ ch.data ++ CRLF ++ X) = (readChunks n X).map (fun p => (ch.data ++ p.1, p.2)) := by
  obtain ⟨hw, hd⟩ := h
  obtain ⟨h1, h2⟩ := sizeLine_read hw
  have hr := readLine_line h2 (ch.data ++ CRLF ++ X)
  rw [show ch.size ++ ch.ext ++ CRLF ++ ch.data ++ CRLF ++ X = ch.size ++ ch.ext ++ CRLF ++ (ch.data ++ CRLF ++ X) by simp [List.append_assoc], readChunks, hr]
  dsimp only
  rw [h1]
  obtain ⟨k, hk⟩ : ∃ k, ch.data.length = k + 1 := by
    cases hc : ch.data with
    | nil => exact absurd hc hd
    | cons _ t => exact ⟨t.length, rfl⟩
  rw [hk]
  dsimp only
  rw [if_neg (by simp only [List.length_append]; omega), ← hk]
  rw [List.append_assoc, List.drop_left, List.take_left]
  rfl

/-- Without a last chunk the client reads no end. -/
theorem chunks_open : ∀ {ds : List Bytes}, upToEmpty ds = none → ∀ n, readChunks n ((ds.map (framed true)).flatten) = none
  | _, _, 0 => rfl
  | [], _, n + 1 => by simp [readChunks, readLine]
  | d :: ds, h, n + 1 => by
    have hd : d ≠ [] := by
      intro e
      unfold upToEmpty at h
      rw [if_pos e] at h
      cases h
    have hr : upToEmpty ds = none := by
      unfold upToEmpty at h
      rw [if_neg hd] at h
      simpa using h
    have := chunk_read (chunkOf_wf hd) n ((ds.map (framed true)).flatten)
    rw [List.map_cons, List.flatten_cons]
    rw [chunks_open hr n] at this
    simpa [chunkOf, framed] using this

theorem split_empty : ∀ {ds x r : List Bytes}, upToEmpty ds = some (x, r) → ds = x ++ [] :: r ∧ ∀ d ∈ x, d ≠ []
  | [], _, _, h => by cases h
  | d :: ds, x, r, h => by
    unfold upToEmpty at h
    split at h
    · next hd => cases h; exact ⟨by rw [hd]; rfl, by simp⟩
    · next hd =>
      cases hu : upToEmpty ds with
      | none => rw [hu] at h; cases h
      | some y =>
        obtain ⟨y1, y2⟩ := y
        rw [hu] at h
        cases h
        obtain ⟨e1, e2⟩ := split_empty hu
        refine ⟨by rw [e1]; rfl, ?_⟩
        intro z hz
        rcases List.mem_cons.1 hz with rfl | hz
        · exact hd
        · exact e2 z hz

theorem chunks_closed {x r : List Bytes} (hx : ∀ d ∈ x, d ≠ []) : ((x ++ [] :: r).map (framed true)).flatten =
    Spec.Body.encode (x.map chunkOf) (Spec.Body.lastChunk b!"0" [] CRLF) ++ (r.map (framed true)).flatten := by
  rw [List.map_append, List.flatten_append, List.map_cons, List.flatten_cons, ← List.append_assoc, ← last_frame]
  congr 1
  induction x with
  | nil => rfl
  | cons d t ih =>
    rw [List.map_cons, List.flatten_cons, List.append_assoc, ih (fun y hy => hx y (by simp [hy])), List.map_cons, Spec.Body.encode]
    simp [chunkOf, framed]

theorem payload_of (x : List Bytes) : Spec.Body.payload (x.map chunkOf) = x.flatten := by
  unfold Spec.Body.payload
  rw [List.map_map]
  congr 1
  induction x with
  | nil => rfl
  | cons d t ih => simp only [List.map_cons, ih]; rfl

theorem has_body {c : Cfg} {st : Int} (h1 : 200 ≤ st) (hb : bodyless c st = false) : ¬ (c.method = b!"HEAD" ∨ st.toNat < 200 ∨ st.toNat = 204 ∨ st.toNat = 304) := by
  intro h
  by_cases h5 : st ≠ 205 ∨ c.method = b!"HEAD"
  · rw [(bodyless_iff h1 h5).2 h] at hb; cases hb
  · have : st = 205 := Classical.byContradiction (fun h' => h5 (.inl h'))
    rcases h with h | h | h | h
    · exact h5 (.inr h)
    all_goals omega

end Written

/-- Each piece is queued with the options of its own call, so that `rate` (C49) and the buffer sizes (C24) apply to every `write`, not only to the first. -/
theorem C105_options {c : Cfg} (hc : CfgOk c) {a : App} (hq : ∀ m ∈ a.qms, Script.Fine m.script) (pq : Pass a.qms) {pre : Script} (hs : Script.Fine pre)
    {p : Put} {ps : List Put} {f : Fin} (hh : a.handler = .coro (scriptOf pre p ps f) .none) {s s' : St} (fs : Fresh s) (run : serve c a s = (.ok (), s'))
    (hb : bodyless c (lastStatus (before a pre)).1 = false) (hm : p.Fits) :
    ∃ rest, (s'.log.filterMap (fun e => match e with | .body _ o => some o | _ => none)) = (p :: ps).map (·.o) ++ rest ∧ ∀ o ∈ rest, o = { throttle := false } := by
  obtain ⟨t, ls, sl, hl⟩ := written_sent hc hq pq hs hh fs run hb hm
  generalize wantsChunked c { chunked := p.chunked } (lastStatus (before a pre)).1 = W at hl
  generalize genKeep c { chunked := p.chunked } (before a pre) s.keepalive = K at hl
  have key : ∀ l : List Put, (bodiesOf W l).filterMap (fun e => match e with | .body _ o => some o | _ => none) = l.map (·.o) := by
    intro l
    induction l with
    | nil => rfl
    | cons x l ih => rw [List.map_cons, ← ih]; rfl
  refine ⟨(finLog W K f).filterMap (fun e => match e with | .body _ o => some o | _ => none), ?_, ?_⟩
  · rw [hl, List.cons_append, List.filterMap_cons, List.filterMap_append, key]
  · cases f <;> simp [finLog]

/-- **C105**, chunked, exactly: the client reads the piecesOf before the first empty one as the body; those behind it are left over. If no piece is empty, it reads no end of the
response, whether or not the connection is closed. The head has the lines asked for; response middlewares play no part. -/
theorem C105_chunked {c : Cfg} (hc : CfgOk c) (hv : (32 : UInt8) ∉ c.version) {a : App} (hq : ∀ m ∈ a.qms, Script.Fine m.script) (pq : Pass a.qms) {pre : Script} (hs : Script.Fine pre)
    {p : Put} {ps : List Put} {f : Fin} (hh : a.handler = .coro (scriptOf pre p ps f) .none) {s s' : St} (fs : Fresh s) (run : serve c a s = (.ok (), s'))
    (hm : p.Fits) (ho : PutsOk (p :: ps)) (hb : bodyless c (lastStatus (before a pre)).1 = false)
    (h1 : 200 ≤ (lastStatus (before a pre)).1) (h2 : (lastStatus (before a pre)).1 < 1000) (hw : wantsChunked c { chunked := p.chunked } (lastStatus (before a pre)).1 = true) :
    ∃ bs ls more, wire s'.log = bs.map some ++ none :: more ∧ marks s'.log = ownMarks s.keepalive f ∧ (∀ n, n ∉ ownNames → named n ls = linesFor n (before a pre)) ∧
      (∀ x r, upToEmpty (piecesOf p ps f) = some (x, r) → ∀ closed tail,
        readResponse closed c.method (bs ++ tail) = some (⟨(lastStatus (before a pre)).1.toNat, ls, x.flatten⟩, (r.map (framed true)).flatten ++ tail)) ∧
      (upToEmpty (piecesOf p ps f) = none → ∀ closed, readResponse closed c.method bs = none) := by
  obtain ⟨t, ls, sl, hl⟩ := written_sent hc hq pq hs hh fs run hb hm
  rw [hw] at hl
  have hk : genKeep c { chunked := p.chunked } (before a pre) s.keepalive = s.keepalive := by unfold genKeep; rw [hw]; simp
  rw [hk] at hl
  obtain ⟨more, hwire, hmarks⟩ := wire_written ho f hl
  have hte : named b!"transfer-encoding" ls = [b!"Transfer-Encoding: chunked"] := by
    have := sl.lines kTE (by decide)
    rw [gen_te c _ _ _ hw] at this
    exact this
  obtain ⟨x, ex, ox⟩ := genOwn c { chunked := p.chunked } (before a pre) s.keepalive
  rw [ex] at sl
  have ⟨n1, n2, n3⟩ := own_neutral ox (before a pre)
  have sy := sl.says n1 n2 n3
  have hsr := status_read hv (st := (lastStatus (before a pre)).1) (by omega) h2 (lastStatus (before a pre)).2
  have hcl := has_body h1 hb
  refine ⟨_, ls, more, hwire, hmarks, sy.lines, ?_, ?_⟩
  · intro x r hx closed tail
    obtain ⟨e1, e2⟩ := split_empty hx
    rw [e1, chunks_closed e2, List.append_assoc, List.append_assoc]
    refine read_of sy.is hsr ?_
    have wf : ∀ y ∈ x.map chunkOf, y.Wf := by
      intro y hy
      obtain ⟨z, hz, rfl⟩ := List.mem_map.1 hy
      exact chunkOf_wf (e2 z hz)
    rw [body_chunked hcl hte wf, payload_of]
  · intro hx closed
    unfold readResponse
    have hf : statusLine c (lastStatus (before a pre)) ≠ [] := by simp [statusLine]
    rw [head_read sy.is hf]
    dsimp only
    unfold statusLine
    rw [hsr]
    dsimp only
    have hval : values b!"transfer-encoding" ls = [b!"chunked"] := values_one (n := b!"Transfer-Encoding") (v := b!"chunked") (by rw [hte]; rfl) (by decide)
      (fun b hb => (by
        have := List.all_eq_true.1 (show (b!"chunked").all (fun b => decide (b ≠ 32 ∧ b ≠ 9)) = true by decide) b hb
        simpa using this))
    unfold readBody
    rw [if_neg hcl, hval]
    dsimp only
    rw [if_pos (by decide), chunks_open hx]; rfl

/-- **C105.** The handler gives its data in non-empty piecesOf and ends with `end()`: the client reads one response, whatever follows, and its body is what was written. -/
theorem C105_partial {c : Cfg} (hc : CfgOk c) (hv : (32 : UInt8) ∉ c.version) {a : App} (hq : ∀ m ∈ a.qms, Script.Fine m.script) (pq : Pass a.qms) {pre : Script} (hs : Script.Fine pre)
    {p : Put} {ps : List Put} {k : Bool} (hh : a.handler = .coro (scriptOf pre p ps (.ends [] k)) .none) {s s' : St} (fs : Fresh s) (run : serve c a s = (.ok (), s'))
    (hm : p.Fits) (ho : PutsOk (p :: ps)) (ne : ∀ x ∈ p :: ps, x.data ≠ []) (hb : bodyless c (lastStatus (before a pre)).1 = false)
    (h1 : 200 ≤ (lastStatus (before a pre)).1) (h2 : (lastStatus (before a pre)).1 < 1000) (hw : wantsChunked c { chunked := p.chunked } (lastStatus (before a pre)).1 = true) :
    ∃ bs r more, wire s'.log = bs.map some ++ none :: more ∧ marks s'.log = [k && s.keepalive, false] ∧ Delimited c.method bs r ∧
      (r.status : Int) = (lastStatus (before a pre)).1 ∧ (∀ n, n ∉ ownNames → named n r.fields = linesFor n (before a pre)) ∧ r.body = ((p :: ps).map (·.data)).flatten := by
  obtain ⟨bs, ls, more, e1, e2, e3, e4, -⟩ := C105_chunked hc hv hq pq hs hh fs run hm ho hb h1 h2 hw
  have hu : ∀ l : List Bytes, (∀ d ∈ l, d ≠ []) → upToEmpty (l ++ [[]]) = some (l, []) := by
    intro l
    induction l with
    | nil => intro _; simp [upToEmpty]
    | cons d t ih =>
      intro h
      rw [List.cons_append, upToEmpty, if_neg (h d (by simp)), ih (fun y hy => h y (by simp [hy]))]; rfl
  have := e4 ((p :: ps).map (fun y : Put => y.data)) [] (hu ((p :: ps).map (fun y : Put => y.data)) (by
    intro d hd
    obtain ⟨y, hy, rfl⟩ := List.mem_map.1 hd
    exact ne y hy))
  refine ⟨bs, ⟨(lastStatus (before a pre)).1.toNat, ls, ((p :: ps).map (·.data)).flatten⟩, more, e1, e2, fun closed tail => this closed tail, by
    show ((lastStatus (before a pre)).1.toNat : Int) = _; omega, e3, rfl⟩

namespace Written

/-- The header lines of a response that is not chunked. -/
theorem plain_lines {c : Cfg} {p : Put} {calls : List Call} {ka : Bool} {t : Bytes} {ls : List Bytes} (sl : SentLines c (genCalls c { chunked := p.chunked } calls ka) true t ls)
    (hw : wantsChunked c { chunked := p.chunked } (lastStatus calls).1 = false) (nt : ∀ x ∈ calls, touches b!"transfer-encoding" x = false) :
    named b!"transfer-encoding" ls = [] ∧ named kCL ls = linesFor kCL calls := by
  constructor
  · have := sl.lines kTE (by decide)
    unfold genCalls at this
    rw [untouched_snoc (by simp [touches]; decide), hw] at this
    exact this.trans ((untouched_snoc (by simp [teCalls]) _).trans (untouched_nil nt))
  · have := sl.lines kCL (by decide)
    unfold genCalls at this
    rw [untouched_snoc (by simp [touches]; decide), hw] at this
    exact this.trans (untouched_snoc (by simp [teCalls]) _)

theorem flatten_plain (l : List Bytes) : (l.map (framed false)).flatten = l.flatten := by
  congr 1
  induction l with
  | nil => rfl
  | cons d t ih => rw [List.map_cons, ih]; rfl

end Written

/-- Without chunks, with a Content-Length that the handler has set: the client reads that many bytes of what was written, and the rest is left over; if less was written, it reads
no response. -/
theorem C105_sized {c : Cfg} (hc : CfgOk c) (hv : (32 : UInt8) ∉ c.version) {a : App} (hq : ∀ m ∈ a.qms, Script.Fine m.script) (pq : Pass a.qms) {pre : Script} (hs : Script.Fine pre)
    {p : Put} {ps : List Put} {f : Fin} (hh : a.handler = .coro (scriptOf pre p ps f) .none) {s s' : St} (fs : Fresh s) (run : serve c a s = (.ok (), s'))
    (hm : p.Fits) (ho : PutsOk (p :: ps)) (hb : bodyless c (lastStatus (before a pre)).1 = false)
    (h1 : 200 ≤ (lastStatus (before a pre)).1) (h2 : (lastStatus (before a pre)).1 < 1000) (hw : wantsChunked c { chunked := p.chunked } (lastStatus (before a pre)).1 = false)
    (nt : ∀ x ∈ before a pre, touches b!"transfer-encoding" x = false) {n : Nat} (hn : linesFor b!"content-length" (before a pre) = [b!"Content-Length: " ++ fmtNat n]) :
    ∃ bs ls more, wire s'.log = bs.map some ++ none :: more ∧ marks s'.log = ownMarks s.keepalive f ∧
      (n ≤ (piecesOf p ps f).flatten.length → ∀ closed tail, readResponse closed c.method (bs ++ tail) =
        some (⟨(lastStatus (before a pre)).1.toNat, ls, (piecesOf p ps f).flatten.take n⟩, (piecesOf p ps f).flatten.drop n ++ tail)) ∧
      ((piecesOf p ps f).flatten.length < n → ∀ closed, readResponse closed c.method bs = none) := by
  obtain ⟨t, ls, sl, hl⟩ := written_sent hc hq pq hs hh fs run hb hm
  rw [hw] at hl
  have hn' : linesFor kCL (before a pre) = [line b!"Content-Length" (fmtNat n)] := hn
  have hk : genKeep c { chunked := p.chunked } (before a pre) s.keepalive = s.keepalive := by unfold genKeep; rw [hn']; simp
  rw [hk] at hl
  obtain ⟨more, hwire, hmarks⟩ := wire_written ho f hl
  obtain ⟨hte, hcln⟩ := plain_lines sl hw nt
  rw [hn'] at hcln
  obtain ⟨v, g1, g2, g3⟩ := length_line hcln
  obtain ⟨x, ex, ox⟩ := genOwn c { chunked := p.chunked } (before a pre) s.keepalive
  rw [ex] at sl
  have ⟨n1, n2, n3⟩ := own_neutral ox (before a pre)
  have sy := sl.says n1 n2 n3
  have hsr := status_read hv (st := (lastStatus (before a pre)).1) (by omega) h2 (lastStatus (before a pre)).2
  have hcl := has_body h1 hb
  rw [flatten_plain] at hwire
  refine ⟨_, ls, more, hwire, hmarks, ?_, ?_⟩
  · intro hle closed tail
    rw [List.append_assoc]
    refine read_of sy.is hsr ?_
    have hlen : ((piecesOf p ps f).flatten.take n).length = n := by rw [List.length_take]; omega
    have := body_length (closed := closed) hcl hte (d := (piecesOf p ps f).flatten.take n) g1 g2 (by rw [hlen, g3]) ((piecesOf p ps f).flatten.drop n ++ tail)
    rw [← List.append_assoc, List.take_append_drop] at this
    exact this
  · intro hlt closed
    unfold readResponse
    have hf : statusLine c (lastStatus (before a pre)) ≠ [] := by simp [statusLine]
    rw [head_read sy.is hf]
    dsimp only
    unfold statusLine
    rw [hsr]
    dsimp only
    obtain ⟨k1, k2⟩ := length_read g1 g2 g3
    unfold readBody
    rw [if_neg hcl, values_nil hte]
    dsimp only
    rw [k1]
    dsimp only
    rw [k2]
    dsimp only
    rw [if_pos hlt]; rfl

/-- Without chunks and without a length: the connection is closed behind the response, and the client reads all that was written. -/
theorem C105_closed {c : Cfg} (hc : CfgOk c) (hv : (32 : UInt8) ∉ c.version) {a : App} (hq : ∀ m ∈ a.qms, Script.Fine m.script) (pq : Pass a.qms) {pre : Script} (hs : Script.Fine pre)
    {p : Put} {ps : List Put} {f : Fin} (hh : a.handler = .coro (scriptOf pre p ps f) .none) {s s' : St} (fs : Fresh s) (run : serve c a s = (.ok (), s'))
    (hm : p.Fits) (ho : PutsOk (p :: ps)) (hb : bodyless c (lastStatus (before a pre)).1 = false)
    (h1 : 200 ≤ (lastStatus (before a pre)).1) (h2 : (lastStatus (before a pre)).1 < 1000) (hw : wantsChunked c { chunked := p.chunked } (lastStatus (before a pre)).1 = false)
    (nt : ∀ x ∈ before a pre, touches b!"transfer-encoding" x = false ∧ touches b!"content-length" x = false) :
    ∃ bs r more, wire s'.log = bs.map some ++ none :: more ∧ (∀ k ∈ marks s'.log, k = false) ∧ Final c.method bs r ∧
      (r.status : Int) = (lastStatus (before a pre)).1 ∧ r.body = (piecesOf p ps f).flatten := by
  obtain ⟨t, ls, sl, hl⟩ := written_sent hc hq pq hs hh fs run hb hm
  rw [hw] at hl
  have hn' : linesFor kCL (before a pre) = [] := untouched_nil (fun y hy => (nt y hy).2)
  have hne : ((lastStatus (before a pre)).1 == 101) = false := beq_eq_false_iff_ne.2 (by omega)
  have hk : genKeep c { chunked := p.chunked } (before a pre) s.keepalive = false := by unfold genKeep; rw [hn', hw, hne]; simp
  rw [hk] at hl
  obtain ⟨more, hwire, hmarks⟩ := wire_written ho f hl
  obtain ⟨hte, hcln⟩ := plain_lines sl hw (fun x hx => (nt x hx).1)
  rw [hn'] at hcln
  obtain ⟨x, ex, ox⟩ := genOwn c { chunked := p.chunked } (before a pre) s.keepalive
  rw [ex] at sl
  have ⟨n1, n2, n3⟩ := own_neutral ox (before a pre)
  have sy := sl.says n1 n2 n3
  have hsr := status_read hv (st := (lastStatus (before a pre)).1) (by omega) h2 (lastStatus (before a pre)).2
  have hcl := has_body h1 hb
  rw [flatten_plain] at hwire
  refine ⟨_, ⟨(lastStatus (before a pre)).1.toNat, ls, (piecesOf p ps f).flatten⟩, more, hwire, ?_, read_of sy.is hsr (body_close hcl hte hcln _), by
    show ((lastStatus (before a pre)).1.toNat : Int) = _; omega, rfl⟩
  rw [hmarks]
  cases f <;> simp [ownMarks]

/-- A response without a body (HEAD, 204, 304): whatever the handler writes, the client reads the head alone, and the connection is closed behind it. -/
theorem C105_bodyless {c : Cfg} (hc : CfgOk c) (hv : (32 : UInt8) ∉ c.version) {a : App} (hq : ∀ m ∈ a.qms, Script.Fine m.script) (pq : Pass a.qms) {pre : Script} (hs : Script.Fine pre)
    {p : Put} {ps : List Put} {f : Fin} (hh : a.handler = .coro (scriptOf pre p ps f) .none) {s s' : St} (fs : Fresh s) (run : serve c a s = (.ok (), s'))
    (hb : bodyless c (lastStatus (before a pre)).1 = true) (h1 : 200 ≤ (lastStatus (before a pre)).1) (h2 : (lastStatus (before a pre)).1 < 1000)
    (h5 : (lastStatus (before a pre)).1 ≠ 205 ∨ c.method = b!"HEAD") (h6 : (lastStatus (before a pre)).1 ≠ 426) :
    ∃ t r, seen s'.log = [.head t [] { throttle := false }, .mark false] ∧ Delimited c.method t r ∧ (r.status : Int) = (lastStatus (before a pre)).1 ∧
      (∀ n, n ∉ ownNames → named n r.fields = linesFor n (before a pre)) ∧ r.body = [] := by
  have key : Tri (fun s' => Inv c false s false (mwCalls a.qms) s') (handleResponse c a.opt a.rms a.handler) (fun _ s' => ∃ t rest,
      SentLines c (genCalls c { chunked := p.chunked } (before a pre) s.keepalive) (!noBody (lastStatus (before a pre)).1) t rest ∧
      seen s'.log = [.head t [] { throttle := false }, .mark false]) (fun _ => True) := by
    rw [hh]
    unfold handleResponse
    refine Tri.bind (Q := fun _ x => Inv c false s false (mwCalls a.qms ++ optCalls a.opt.status a.opt.ctype) x ∧ True)
      (Tri.pre (inv_opts hc (stable_true c)) (fun _ h => ⟨h, trivial⟩)) (fun _ => Tri.bind (inv_base' hc (stable_true c)) (fun _ => ?_))
    intro s1 i1
    have e1 : (runScript c (scriptOf pre p ps f) >>= fun _ => close false) s1 = (runScript c pre >>= fun _ => (runScript c ((p :: ps).map Put.calls ++ f.calls) >>= fun _ => close false)) s1 := by
      rw [bind_run, scriptOf, List.append_assoc, runScript_bind, bind_run, bind_run]
      generalize runScript c pre s1 = x
      obtain ⟨x, s2⟩ := x
      cases x <;> rfl
    show Post _ _ ((runScript c (scriptOf pre p ps f) >>= fun _ => close false) s1)
    rw [e1]
    refine Tri.bind (inv_script' hc (stable_true c) pre hs) (fun _ => ?_) s1 i1
    intro s2 i2
    have i2 : Inv c true s false (before a pre) s2 := i2.1
    obtain ⟨t, rest, s3, run, sl, hl, hk, hd, hch, hu⟩ := write_spec hc (some p.data) p.chunked p.o fs.upgraded i2 (fun h => by rw [hb] at h; cases h)
    rw [hb] at run
    simp only [if_true] at run
    rw [writeBody_none] at run
    have hk' : s3.keepalive = false := by
      rw [hk, writeKeep, hb, beq_eq_false_iff_ne.2 h6, beq_eq_false_iff_ne.2 (show (lastStatus (before a pre)).1 ≠ 101 by omega)]
      simp only [Bool.not_true, Bool.or_false, Bool.and_false]
    rw [hl, fs.log, hk'] at run
    have run : (Call.write (some p.data) p.chunked p.o).run c s2 = _ := run
    rw [bind_run, List.map_cons, List.cons_append, Put.calls, Proofs.Sendfile.runScript_ok run]
    obtain ⟨⟨l, hl', _⟩, _⟩ := good_script c (ps.map Put.calls ++ f.calls) { s3 with keepalive := false, log := [] ++ [.head t [] { throttle := false }] ++ [.mark false] }
    generalize runScript c (ps.map Put.calls ++ f.calls) { s3 with keepalive := false, log := [] ++ [.head t [] { throttle := false }] ++ [.mark false] } = x at hl'
    obtain ⟨x, s4⟩ := x
    cases x with
    | error e => trivial
    | ok u =>
      dsimp only
      refine ⟨t, rest, sl, ?_⟩
      show seen (s4.log ++ [Emit.mark false]) = _
      have hl' : s4.log = _ := hl'
      rw [hl', List.append_assoc, List.append_assoc]
      exact seen_closed [.head t [] { throttle := false }] rfl _
  have res : ∃ t rest, SentLines c (genCalls c { chunked := p.chunked } (before a pre) s.keepalive) (!noBody (lastStatus (before a pre)).1) t rest ∧
      seen s'.log = [.head t [] { throttle := false }, .mark false] := by
    rcases serve_spec hc hq fs key run with ⟨_, h⟩ | h | h
    · exact h
    · exact absurd h (not_ended pq)
    · exact absurd h.1 (not_odd pq)
  obtain ⟨t, ls, sl, hl⟩ := res
  obtain ⟨x, ex, ox⟩ := genOwn c { chunked := p.chunked } (before a pre) s.keepalive
  rw [ex] at sl
  have ⟨n1, n2, n3⟩ := own_neutral ox (before a pre)
  have sy := sl.says n1 n2 n3
  have hsr := status_read hv (st := (lastStatus (before a pre)).1) (by omega) h2 (lastStatus (before a pre)).2
  have hcl := (bodyless_iff h1 h5).1 hb
  exact ⟨t, ⟨(lastStatus (before a pre)).1.toNat, ls, []⟩, hl, fun closed tail => read_of sy.is hsr (body_none hcl ls tail), by
    show ((lastStatus (before a pre)).1.toNat : Int) = _; omega, sy.lines, rfl⟩

/-! ## Cases -/

namespace Written

def answered (sc : Script) (r : Ret := .none) (c : Cfg := {}) : List Emit := (handleRequest c { handler := .coro sc r } { keepalive := true }).log

def readsOf (sc : Script) (r : Ret := .none) (c : Cfg := {}) (closed : Bool := true) : Option (Nat × Bytes × Bytes) :=
  (readResponse closed c.method (wireBytes (answered sc r c))).map (fun p => (p.1.status, p.1.body, p.2))

end Written

/-- Two writes of different sizes, the second without throttling, and `end()`: the connection may be kept until the handler has returned. -/
example : let pre : Script := [(.setStatus 201 b!"Created", false), (.setHeader b!"X-A" b!"1", false)]
    let p : Put := { data := b!"hello " }
    let ps : List Put := [{ data := b!"big world", o := { throttle := false } }]
    readsOf (scriptOf pre p ps (.ends [] true)) = some (201, b!"hello big world", []) ∧ marks (answered (scriptOf pre p ps (.ends [] true))) = [true, false] ∧
    p.o.marks = true ∧ PutsOk (p :: ps) ∧ (∀ x ∈ p :: ps, x.data ≠ []) ∧ bodyless {} 201 = false ∧ wantsChunked {} { chunked := p.chunked } 201 = true ∧
    lastStatus (before { handler := .coro (scriptOf pre p ps (.ends [] true)) .none } pre) = (201, b!"Created") := by
  refine ⟨by decide +kernel, by decide +kernel, rfl, ?_, ?_, rfl, rfl, by decide +kernel⟩
  · intro x hx; simp only [List.mem_cons, List.not_mem_nil, or_false] at hx; rcases hx with rfl | rfl <;> decide
  · intro x hx; simp only [List.mem_cons, List.not_mem_nil, or_false] at hx; rcases hx with rfl | rfl <;> decide

/-- With a Content-Length that is right, too small and too large; without chunks and without a length; and in answer to HEAD. -/
example : let cl (n : Bytes) : Script := [(.setHeader b!"Content-Length" n, false)]
    let p : Put := { data := b!"hello ", chunked := some false }
    let ps : List Put := [{ data := b!"world" }]
    readsOf (scriptOf (cl b!"11") p ps .nothing) .none {} false = some (200, b!"hello world", []) ∧
    readsOf (scriptOf (cl b!"8") p ps (.closes true)) .none {} false = some (200, b!"hello wo", b!"rld") ∧
    readsOf (scriptOf (cl b!"12") p ps .nothing) = none ∧
    readsOf (scriptOf [] p ps (.ends b!"!" true)) = some (200, b!"hello world!", []) ∧ marks (answered (scriptOf [] p ps (.ends b!"!" true))) = [false, false] ∧
    (seen (answered (scriptOf [] p ps (.ends b!"!" true)) .none { method := b!"HEAD" })).map isBody = [false, false] := by decide +kernel

/-- **C105 fails** when the handler writes and then gives its last data to `end`: there is no last chunk, and the client never learns that the response has ended, although the
connection is closed behind it. -/
theorem C105_refuted_end : ∃ sc : Script, sc = scriptOf [] { data := b!"hello " } [] (.ends b!"world" true) ∧ readsOf sc = none ∧ readsOf sc .none {} false = none ∧
    marks (answered sc) = [true, false] := ⟨_, rfl, by decide +kernel⟩

/-- An empty write in the middle is the last chunk: the client takes what follows for another response. -/
theorem C105_refuted_empty : ∃ sc : Script, sc = scriptOf [] { data := b!"hello " } [{ data := [] }, { data := b!"world" }] (.ends [] true) ∧
    readsOf sc = some (200, b!"hello ", b!"5\r\nworld\r\n0\r\n\r\n") := ⟨_, rfl, by decide +kernel⟩

/-- A handler that writes and returns nothing: no last chunk. -/
theorem C105_refuted_none : ∃ sc : Script, sc = scriptOf [] { data := b!"hello" } [] .nothing ∧ readsOf sc = none ∧ marks (answered sc) = [false] := ⟨_, rfl, by decide +kernel⟩

/-- A handler that writes and then returns data: the data is lost, and the response has no end. -/
theorem C105_refuted_returned : ∃ sc : Script, sc = scriptOf [] { data := b!"hello " } [] .nothing ∧ readsOf sc (.data b!"world") = none ∧
    wireBytes (answered sc (.data b!"world")) = wireBytes (answered sc) := ⟨_, rfl, by decide +kernel⟩

/-- A `buffer_min_size` that is more than four times the `buffer_size`: the head is not sent, and the client reads an error. -/
theorem C105_refuted_marks : ∃ sc : Script, sc = scriptOf [] { data := b!"hello", o := { bufferSize := 4096, bufferMin := some 16385 } } [] (.ends [] true) ∧
    (readsOf sc).map (·.1) = some 500 := ⟨_, rfl, by decide +kernel⟩

end Verif
