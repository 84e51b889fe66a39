import Verif.Proofs.AsgiWs
/-!
# ASGI WebSocket: C70–C73
-/
namespace Verif
open Verif.Py Verif.Model.Response Verif.Spec.Response Verif.Proofs.Response Verif.Spec.Asgi Verif.Proofs.Asgi Verif.Model.AsgiWs Verif.Spec.AsgiWs Verif.Proofs.AsgiWs
open Verif.Spec.WebSocket Verif.Model.BodyStream

/-! ## C70 -/

namespace AsgiWs

theorem linesFor_hand {n : Bytes} (hn : n ∉ [b!"upgrade", b!"sec-websocket-accept"]) (key : Bytes) (calls : List Call) : linesFor n (calls ++ handCalls key) = linesFor n calls := by
  simp only [List.mem_cons, List.not_mem_nil, or_false, not_or] at hn
  apply untouched_snoc
  intro y hy
  simp only [handCalls, List.mem_cons, List.not_mem_nil, or_false] at hy
  rcases hy with rfl | rfl | rfl
  · rfl
  · simp only [touches, decide_eq_false_iff_not]; exact fun h => hn.1 (h.symm.trans (by decide))
  · simp only [touches, decide_eq_false_iff_not]; exact fun h => hn.2 (h.symm.trans (by decide))

theorem linesFor_gen {c : Cfg} {calls : List Call} (hst : lastStatus calls = (101, b!"Switching Protocols")) {ka : Bool} {n : Bytes} (hn : n ≠ b!"connection") :
    linesFor n (genCalls c {} calls ka) = linesFor n calls := by
  have hw : wantsChunked c {} (lastStatus calls).1 = false := by rw [hst]; simp [wantsChunked]; exact fun _ => by decide
  unfold genCalls
  rw [hw]
  apply (untouched_snoc (x := [_]) ?_ _).trans
  · simp [teCalls]
  · intro y hy
    simp only [List.mem_singleton] at hy; subst hy
    simp only [touches, decide_eq_false_iff_not]; exact fun h => hn (h.symm.trans (by decide))

end AsgiWs
open AsgiWs

/-- **C70 (partial).** `websocket.accept` on a connection that is to be kept: one head goes out and the end marker behind it.
The head is `101 Switching Protocols` with exactly one Upgrade line, one Connection line (`upgrade`), one accept line with
the key, one Date and one Server line, no Transfer-Encoding line, one subprotocol line if the application chose one; and for
every other name exactly the application's lines in their order and spelling. The connection is upgraded, and the session open
for messages. `receive` may have been called before; it has given `websocket.connect`. Missing: header names with a colon or
`_line`, LF in a header or in the subprotocol (the error response of C46), and the cases of `C70_refuted_close` and
`C70_refuted_key`. -/
theorem C70_partial {c : Cfg} (hc : CfgOk c) {e : WEnv} {key : Bytes} (he : e.key = some key) (hk : (10 : UInt8) ∉ key) {sub : Bytes} (hs : (10 : UInt8) ∉ sub)
    {l : List (Bytes × Bytes)} (hl : ∀ h ∈ l, bad h = false ∧ plain h = true) (hcl : ∀ h ∈ l, closes h = false) (n : Nat) {w : W} (hf : Fresh w.a.resp)
    (hka : w.a.resp.keepalive = true) (hws : w.ws = true) (hwt : w.waiting = false) :
    ∃ t rest w', Model.AsgiWs.run c e w (List.replicate n .receive ++ [.send (.accept sub l)]) = w' ∧ Open w' ∧ w'.reader = w.reader ∧
      w'.got = w.got ++ List.replicate n .connect ∧ w'.a.resp.headers = none ∧
      w'.a.resp.log = [.head t [] { throttle := false }, .mark true] ∧
      HeadIs t (b!"HTTP/" ++ c.version ++ b!" 101 Switching Protocols") rest ∧
      named b!"upgrade" rest = [b!"Upgrade: websocket"] ∧ named b!"connection" rest = [b!"Connection: upgrade"] ∧
      named b!"sec-websocket-accept" rest = [b!"Sec-WebSocket-Accept: " ++ key] ∧
      named b!"date" rest = [b!"Date: " ++ c.date] ∧ named b!"server" rest = [b!"Server: " ++ c.server] ∧ named b!"transfer-encoding" rest = [] ∧
      (sub ≠ [] → named b!"sec-websocket-protocol" rest = [b!"Sec-WebSocket-Protocol: " ++ sub]) ∧
      (∀ n, lower n = n → n ∉ [b!"upgrade", b!"connection", b!"sec-websocket-accept", b!"date", b!"server", b!"transfer-encoding", b!"content-type", b!"_line"] →
        (sub = [] ∨ n ≠ b!"sec-websocket-protocol") → named n rest = (l.filter (fun h => lower h.1 = n)).map (fun h => h.1 ++ b!": " ++ h.2)) := by
  have hany : l.any closes = false := by rw [List.any_eq_false]; exact fun h hh => by simp [hcl h hh]
  have before : ∀ n (w : W), w.waiting = false → w.a.resp.upgraded = false →
      Model.AsgiWs.run c e w (List.replicate n .receive) = { w with got := w.got ++ List.replicate n .connect } := by
    intro n
    induction n with
    | zero => intro w _ _; simp [Model.AsgiWs.run]
    | succ n ih =>
      intro w h1 h2
      have : step c e w .receive = { w with got := w.got ++ [.connect] } := by simp [step, h1, Model.AsgiWs.receive, h2]
      rw [List.replicate_succ, run_cons, this, ih _ (by exact h1) (by exact h2)]
      simp [List.replicate_succ]
  obtain ⟨t, rest, sl, h1, h2, h3, h4, h5, h6⟩ := accept_spec hc he hk hs hl hf
  rw [hka, hany] at sl h4 h5 h6
  simp only [Bool.not_false, Bool.and_true] at sl h4 h5 h6
  have hst : lastStatus (l.flatMap headerCalls ++ subCalls sub ++ handCalls key) = (101, b!"Switching Protocols") := lastStatus_hand _ _
  have lines : ∀ n, n ∉ [b!"_line", b!"content-type", b!"date", b!"server", b!"connection"] → named n rest = linesFor n (l.flatMap headerCalls ++ subCalls sub ++ handCalls key) := by
    intro n hn
    simp only [List.mem_cons, List.not_mem_nil, or_false, not_or] at hn
    unfold named
    rw [sl.lines n (by simp [reserved]; exact ⟨hn.1, hn.2.1, hn.2.2.1, hn.2.2.2.1⟩)]
    exact linesFor_gen hst hn.2.2.2.2
  have subl : ∀ n, (sub = [] ∨ n ≠ b!"sec-websocket-protocol") → ∀ calls, linesFor n (calls ++ subCalls sub) = linesFor n calls := by
    intro n h calls
    apply untouched_snoc
    intro y hy
    unfold subCalls at hy
    split at hy
    · cases hy
    · next hne =>
      simp only [List.mem_singleton] at hy; subst hy
      simp only [touches, decide_eq_false_iff_not]
      exact fun h' => (h.resolve_left hne) (h'.symm.trans (by decide))
  refine ⟨t, rest, _, rfl, ?_⟩
  rw [Proofs.AsgiWs.run_append, before n w hwt hf.upgraded]
  have es : Model.AsgiWs.run c e { w with got := w.got ++ List.replicate n .connect } [.send (.accept sub l)] =
      { w with got := w.got ++ List.replicate n .connect, a := acceptMsg c e true sub l w.a } := by
    simp [Model.AsgiWs.run, step, hwt, Model.AsgiWs.send, hws]
  rw [es]
  refine ⟨⟨h5, hws, hwt⟩, rfl, rfl, h3, h6, ?_, ?_, ?_, ?_, h1, h2, ?_, fun hsub => ?_, fun n hn hm hsub => ?_⟩
  · have := sl.is
    have e1 : lastStatus (genCalls c {} (l.flatMap headerCalls ++ subCalls sub ++ handCalls key) true) = (101, b!"Switching Protocols") := by
      unfold genCalls
      rw [lastStatus_snoc]
      have hw : wantsChunked c {} (lastStatus (l.flatMap headerCalls ++ subCalls sub ++ handCalls key)).1 = false := by rw [hst]; simp [wantsChunked]; exact fun _ => by decide
      rw [hw]; simpa [teCalls] using hst
    rw [e1] at this
    have e2 : statusLine c (101, b!"Switching Protocols") = b!"HTTP/" ++ c.version ++ b!" 101 Switching Protocols" := by
      unfold statusLine
      have : fmtInt (101 : Int) = b!"101" := by decide
      rw [this]; simp
    rw [e2] at this
    exact this
  · rw [lines _ (by decide)]
    show linesFor _ (_ ++ ([.setStatus 101 b!"Switching Protocols", .setHeader b!"Upgrade" b!"websocket"] ++ [.setHeader b!"Sec-WebSocket-Accept" key])) = _
    rw [← List.append_assoc, untouched_snoc (by intro y hy; simp only [List.mem_singleton] at hy; subst hy; simp only [touches]; decide)]
    show linesFor _ (_ ++ ([.setStatus 101 b!"Switching Protocols"] ++ [.setHeader b!"Upgrade" b!"websocket"])) = _
    rw [← List.append_assoc]
    exact linesFor_set (by decide) (by decide) (by decide) _
  · unfold named
    rw [sl.lines _ (by decide), gen_conn, hst]; decide
  · rw [lines _ (by decide)]
    show linesFor _ (_ ++ ([.setStatus 101 b!"Switching Protocols", .setHeader b!"Upgrade" b!"websocket"] ++ [.setHeader b!"Sec-WebSocket-Accept" key])) = _
    rw [← List.append_assoc]
    exact linesFor_set (by decide) hk (by decide) _
  · rw [lines _ (by decide), linesFor_hand (by decide), subl _ (.inr (by decide))]
    have : linesFor b!"transfer-encoding" ([] ++ l.flatMap headerCalls) = linesFor b!"transfer-encoding" [] :=
      untouched_snoc (Asgi.untouched_header (by decide) (.inr (.inr (.inl rfl))) l) []
    simpa [linesFor] using this
  · rw [lines _ (by decide), linesFor_hand (by decide)]
    unfold subCalls
    rw [if_neg hsub]
    exact linesFor_set (by decide) hs (by decide) _
  · simp only [List.mem_cons, List.not_mem_nil, or_false, not_or] at hm
    obtain ⟨m1, m2, m3, m4, m5, m6, m7, m8⟩ := hm
    have hmg : Spec.Asgi.managed n = false := by
      unfold Spec.Asgi.managed; rw [hn]; simp [m2, m4, m5, m6]
    rw [lines n (by simp; exact ⟨m8, m7, m4, m5, m2⟩), linesFor_hand (by simp; exact ⟨m1, m3⟩), subl n hsub]
    have := Asgi.linesFor_headers l n hmg hn m7 []
    simpa [linesFor] using this


/-- Names for the examples. -/
abbrev AsgiWs.cfg : Cfg := { date := b!"D", server := b!"S" }
abbrev AsgiWs.env : WEnv := { phrase := fun _ => none, page := fun _ => b!"oops", key := some b!"k", max := 300 }
/-- A fresh connection to which the client sends `pieces`, and then nothing or the end of the connection. -/
abbrev AsgiWs.start (pieces : List Bytes) (out : Model.BodyStream.Out := .blocked) : W := { a := { resp := { keepalive := true } }, reader := ⟨⟨pieces, out⟩, [], false⟩ }

example : (Model.AsgiWs.run cfg env (start []) [.receive, .send (.accept b!"chat" [(b!"X-A", b!"1"), (b!"Upgrade", b!"h2c"), (b!"DATE", b!"x"), (b!"x-a", b!"2")])]).a.resp.log =
    [.head b!"HTTP/1.1 101 Switching Protocols\r\nDate: D\r\nServer: S\r\nX-A: 1\r\nx-a: 2\r\nUpgrade: websocket\r\nSec-WebSocket-Protocol: chat\r\nSec-WebSocket-Accept: k\r\nConnection: upgrade\r\n\r\n"
      [] { throttle := false }, .mark true] := by decide +kernel

/-- **C70 fails** if the application gives `Connection: close` with its acceptance: 101 is sent with that line, the connection
is not upgraded, and `receive` says `websocket.connect` again. -/
theorem C70_refuted_close :
    (Model.AsgiWs.run cfg env (start []) [.receive, .send (.accept [] [(b!"Connection", b!"close")]), .receive]).a.resp.log =
      [.head b!"HTTP/1.1 101 Switching Protocols\r\nDate: D\r\nServer: S\r\nUpgrade: websocket\r\nSec-WebSocket-Accept: k\r\nConnection: close\r\n\r\n" [] { throttle := false }, .mark false] ∧
    (Model.AsgiWs.run cfg env (start []) [.receive, .send (.accept [] [(b!"Connection", b!"close")]), .receive]).got = [.connect, .connect] := by decide +kernel

/-- **C70 fails** if the client repeats its key header: the acceptance raises, nothing is sent, and the application is not told. -/
theorem C70_refuted_key : ∀ (c : Cfg) (e : WEnv), e.key = none → ∀ (r : Reader),
    ∃ h, (Model.AsgiWs.run c e { a := { resp := { keepalive := true } }, reader := r } [.send (.accept [] [])]).a.resp = { headers := h, keepalive := true } := by
  intro c e he r
  simp only [Model.AsgiWs.run, List.foldl_cons, List.foldl_nil, step, Model.AsgiWs.send, Bool.false_eq_true, if_false]
  unfold acceptMsg Model.Asgi.statusOf
  have hb : ∃ q h, setBaseHeader c { keepalive := true } = (q, { headers := h, keepalive := true }) := by
    unfold setBaseHeader
    rw [bind_ok (get_run _), if_neg (by simp)]
    unfold setHeader
    by_cases h1 : (10 : UInt8) ∈ b!"Date" ∨ (10 : UInt8) ∈ c.date
    · exact ⟨_, _, by rw [if_pos h1]; rfl⟩
    · rw [if_neg h1]
      by_cases h2 : (10 : UInt8) ∈ b!"Server" ∨ (10 : UInt8) ∈ c.server
      · exact ⟨_, _, by rw [if_pos h2]; rfl⟩
      · exact ⟨_, _, by rw [if_neg h2]; rfl⟩
  obtain ⟨q, h, hq⟩ := hb
  refine ⟨h, ?_⟩
  show (match setBaseHeader c { keepalive := true } with | (.ok _, s) => _ | (.error _, s) => _ : Model.Asgi.A).resp = _
  rw [hq]
  cases q with
  | error x => rfl
  | ok x =>
    simp only [acceptLoop, acceptEnd, he]
    rfl

/-! ## C71 -/

/-- **C71 (partial).** In an open session, whatever the segmentation of the client's bytes and whatever the application sends
between its calls of `receive`: if the client's frames `items` are complete text messages, non-empty binary messages, pings
and pongs within the limits, as many calls of `receive` as there are messages give exactly these messages in their order.
Missing: empty binary messages (`C71_refuted_empty`), fragments (C33), and `C71_refuted_connect`. -/
theorem C71_partial {c : Cfg} {e : WEnv} {items : List (Frame × Meaning)} (hc : ∀ x ∈ items, Carries e.max x.1 x.2) {w : W} (ho : Open w) (hi : Proofs.WebSocket.Inv w.reader)
    {rest : Bytes} (hr : w.reader.remaining = (items.map (·.1.encode)).flatten ++ rest) {ops : List Op} (hd : ∀ m ∈ messages ops, isData m = true)
    (hn : receives ops = (items.filterMap (·.2.event)).length) :
    (Model.AsgiWs.run c e w ops).got = w.got ++ items.filterMap (·.2.event) ∧ Open (Model.AsgiWs.run c e w ops) := by
  obtain ⟨r', h1, h2, h3, h4, h5, h6⟩ := advance (c := c) items hc ho hi hr
  have := core_run c e ops hd w
  rw [hn] at this
  refine ⟨?_, ?_, ?_, ?_⟩
  · exact (congrArg W.got this).trans h5
  · exact (congrArg (fun w : W => w.a.resp.upgraded) this).trans h6.upgraded
  · exact (congrArg W.ws this).trans h6.ws
  · exact (congrArg W.waiting this).trans h6.running

/-- **C71**, the end: if a close frame follows, the next call gives `websocket.disconnect` with the code of the client, or 1005
if there is none; all pings have been answered with their payload, in order, and nothing else was answered. -/
theorem C71_close {c : Cfg} {e : WEnv} {items : List (Frame × Meaning)} (hc : ∀ x ∈ items, Carries e.max x.1 x.2) {w : W} (ho : Open w) (hi : Proofs.WebSocket.Inv w.reader)
    {f : Frame} (hf : f.Fits) (hm : f.payload.length ≤ e.max) (hop : f.opcode = 8) {code : Nat} (hcode : code < 65536)
    (hp : (f.payload = [] ∧ code = 1005) ∨ ∃ reason, f.payload = be 2 code ++ reason) {rest : Bytes}
    (hr : w.reader.remaining = (items.map (·.1.encode)).flatten ++ (f.encode ++ rest)) {ops : List Op} (hd : ∀ m ∈ messages ops, isData m = true)
    (hn : receives ops = (items.filterMap (·.2.event)).length + 1) :
    (Model.AsgiWs.run c e w ops).got = w.got ++ items.filterMap (·.2.event) ++ [.disconnect code] ∧
    (Model.AsgiWs.run c e w ops).reader.remaining = rest ∧
    (Model.AsgiWs.run c e w ops).a.resp.log.filter isPong = w.a.resp.log.filter isPong ++ (items.filterMap (·.2.answer)).map queued := by
  obtain ⟨r', h1, h2, h3, h4, h5, h6⟩ := advance (c := c) items hc ho hi hr
  have := core_run c e ops hd w
  rw [hn] at this
  have e1 : rcv ((items.filterMap (·.2.event)).length + 1) = rcv (evs items).length ++ [.receive] := List.replicate_succ'
  rw [e1, h4 []] at this
  obtain ⟨r2, q1, q2, q3, q4⟩ := Proofs.WebSocket.recv_frame h2 hf (fun _ => hm) h1
  have hd8 : Model.WebSocket.dispatch (f.b0 &&& 0x0f) f.payload.length f.payload = (.clientClosed code, []) := by
    rw [opcode_of (n := 8) hop]
    rcases hp with ⟨h, rfl⟩ | ⟨reason, h⟩
    · rw [h]; rfl
    · have hne : f.payload ≠ [] := by rw [h]; intro e; have := congrArg List.length e; simp [Proofs.WebSocket.be_length] at this
      have ht : f.payload.take 2 = be 2 code := by rw [h]; exact List.take_left' (Proofs.WebSocket.be_length 2 _)
      have : fromBE (be 2 code) = code := Proofs.WebSocket.fromBE_be (k := 2) (by omega)
      simp [Model.WebSocket.dispatch, hne, ht, this]
  rw [hd8] at q1
  have ho' : Open { logged w ((answers items).map queued) with reader := r', got := w.got ++ evs items } := ⟨ho.upgraded, ho.ws, ho.running⟩
  have st := step_receive (c := c) ho' (receive_stop q1 rfl) (ev := .disconnect code) rfl
  rw [run_cons, st] at this
  refine ⟨?_, ?_, ?_⟩
  · exact (congrArg W.got this).trans rfl
  · exact (congrArg (fun w : W => w.reader.remaining) this).trans q2
  · refine (congrArg (fun w : W => w.a.resp.log) this).trans ?_
    have hall : ((answers items).map queued).filter isPong = (answers items).map queued := by
      rw [List.filter_eq_self]
      intro x hx
      obtain ⟨g, hg, rfl⟩ := List.mem_map.1 hx
      obtain ⟨y, hy, hy'⟩ := List.mem_filterMap.1 hg
      cases hm : y.2 with
      | ping b => rw [hm] at hy'; cases hy'; rfl
      | _ => rw [hm] at hy'; cases hy'
    show List.filter isPong ((w.a.resp.log ++ (answers items).map queued) ++ List.map _ []) = _
    rw [List.map_nil, List.append_nil, List.filter_append, hall]
    rfl

/-- The end of the connection without a close frame gives code 1005. -/
theorem C71_lost {c : Cfg} {e : WEnv} {items : List (Frame × Meaning)} (hc : ∀ x ∈ items, Carries e.max x.1 x.2) {w : W} (ho : Open w) (hi : Proofs.WebSocket.Inv w.reader)
    (hr : w.reader.remaining = (items.map (·.1.encode)).flatten) (hout : w.reader.gen.out = .done) {ops : List Op} (hd : ∀ m ∈ messages ops, isData m = true)
    (hn : receives ops = (items.filterMap (·.2.event)).length + 1) :
    (Model.AsgiWs.run c e w ops).got = w.got ++ items.filterMap (·.2.event) ++ [.disconnect 1005] := by
  obtain ⟨r', h1, h2, h3, h4, h5, h6⟩ := advance (c := c) items hc ho hi (rest := []) (by rw [hr]; simp [enc])
  have := core_run c e ops hd w
  rw [hn] at this
  have e1 : rcv ((items.filterMap (·.2.event)).length + 1) = rcv (evs items).length ++ [.receive] := List.replicate_succ'
  rw [e1, h4 []] at this
  obtain ⟨res, sent, r2, q1, q2, q3, q4⟩ := Proofs.WebSocket.recv_A (max := e.max) h2
  rw [h3, hout, h1] at q4
  have hres : res = .clientClosed 1005 ∧ sent = [] := by
    rcases q4 with h | ⟨h, _⟩
    · simp [Proofs.WebSocket.recvA, Proofs.WebSocket.readA] at h
      exact ⟨h.1.symm, h.2.1⟩
    · simp [Proofs.WebSocket.recvA, Proofs.WebSocket.readA] at h
  obtain ⟨rfl, rfl⟩ := hres
  have ho' : Open { logged w ((answers items).map queued) with reader := r', got := w.got ++ evs items } := ⟨ho.upgraded, ho.ws, ho.running⟩
  have st := step_receive (c := c) ho' (receive_stop q1 rfl) (ev := .disconnect 1005) rfl
  rw [run_cons, st] at this
  exact (congrArg W.got this).trans rfl


/-- While a frame has not arrived completely, `receive` waits for it: there is no event, whatever part of it is there. -/
theorem C71_waits {c : Cfg} {e : WEnv} {items : List (Frame × Meaning)} (hc : ∀ x ∈ items, Carries e.max x.1 x.2) {w : W} (ho : Open w) (hi : Proofs.WebSocket.Inv w.reader)
    {f : Frame} (hf : f.Fits) (hm : f.form = .long → f.payload.length ≤ e.max) {p q : Bytes} (hq : q ≠ []) (hpq : p ++ q = f.encode)
    (hr : w.reader.remaining = (items.map (·.1.encode)).flatten ++ p) (hout : w.reader.gen.out = .blocked) {ops : List Op} (hd : ∀ m ∈ messages ops, isData m = true)
    (hn : receives ops = (items.filterMap (·.2.event)).length + 1) :
    (Model.AsgiWs.run c e w ops).got = w.got ++ items.filterMap (·.2.event) ∧ (Model.AsgiWs.run c e w ops).waiting = true := by
  obtain ⟨r', h1, h2, h3, h4, h5, h6⟩ := advance (c := c) items hc ho hi (rest := p) hr
  have := core_run c e ops hd w
  rw [hn] at this
  have e1 : rcv ((items.filterMap (·.2.event)).length + 1) = rcv (evs items).length ++ [.receive] := List.replicate_succ'
  rw [e1, h4 []] at this
  obtain ⟨sent, r2, q1, q2⟩ := Proofs.WebSocket.recv_incomplete (max := e.max) h2 (by rw [h3, hout]; simp) hf hm hq (by rw [h1]; exact hpq)
  obtain rfl := Proofs.WebSocket.recvA_failed q2
  rw [h3, hout] at q1
  have st : step c e { logged w ((answers items).map queued) with reader := r', got := w.got ++ evs items } .receive =
      { logged w ((answers items).map queued) with reader := r2, got := w.got ++ evs items, waiting := true } := by
    unfold step Model.AsgiWs.receive
    have hw : Model.WebSocket.receive e.max r' = (.failed .blocked, [], r2) := receive_stop q1 rfl
    simp only [logged, ho.running, Bool.false_eq_true, if_false, ho.upgraded, ho.ws, if_true, hw]
    rw [if_neg (by simp)]
    simp [pongs, eventOf]
  rw [run_cons, st] at this
  exact ⟨(congrArg W.got this).trans rfl, (congrArg W.waiting this).trans rfl⟩

/-- Two messages around a ping, in four pieces that do not follow the frames, while the application sends an answer in
between; then a close frame with code 1001. -/
example :
    let w := Model.AsgiWs.run cfg env (start [[0x81, 0x82, 1, 2], [3, 4, 105, 107, 0x89, 1], [7, 0x82, 1, 9, 0x88], [2, 3, 0xE9]])
      [.receive, .send (.accept [] []), .receive, .send (.send [] "yo"), .receive, .receive]
    w.got = [.connect, .text "hi", .bytes [9], .disconnect 1001] ∧
    w.a.resp.log.drop 2 = [.body [0x81, 2, 121, 111] { throttle := false }, .body [0x8A, 1, 7] { throttle := false }] := by decide +kernel

/-- **C71 fails** for an empty binary message: it is not delivered. -/
theorem C71_refuted_empty : (Model.AsgiWs.run cfg env (start [[0x82, 0, 0x82, 1, 9]]) [.send (.accept [] []), .receive]).got = [.bytes [9]] := by decide +kernel

/-- **C71 fails** before the acceptance: every call of `receive` gives `websocket.connect`, so that an application that waits
for what follows it gets it again and again (and never a disconnect). -/
theorem C71_refuted_connect {c : Cfg} {e : WEnv} {w : W} (hw : w.waiting = false) (hu : w.a.resp.upgraded = false) :
    (Model.AsgiWs.run c e w [.receive, .receive]).got = w.got ++ [.connect, .connect] := by
  simp [Model.AsgiWs.run, step, Model.AsgiWs.receive, hw, hu]

/-! ## C72 -/

/-- **C72 (partial).** In an open session, whatever the application receives in between: the non-empty messages that it sends
go out in their order, each as one complete unmasked frame of its kind with exactly its payload, and nothing else goes out
except pongs. Missing: empty messages (`C72_refuted_empty`). -/
theorem C72_partial {c : Cfg} {e : WEnv} {ops : List Op} (hd : ∀ m ∈ messages ops, isData m = true)
    (hz : ∀ m ∈ messages ops, ∀ f, frameFor m = some f → f.payload.length < 2 ^ 64) {w : W} (ho : Open w) (hw : (Model.AsgiWs.run c e w ops).waiting = false) :
    ∃ l, (Model.AsgiWs.run c e w ops).a.resp.log = w.a.resp.log ++ l ∧
      l.filter (fun x => !isPong x) = ((messages ops).filterMap frameFor).map queued :=
  run_log ops hd hz ho.ws hw

/-- What is queued reaches the client: the bytes of the frames, in order, without anything in between. -/
theorem C72_wire {c : Cfg} {e : WEnv} {ms : List Msg} (hd : ∀ m ∈ ms, isData m = true) (hz : ∀ m ∈ ms, ∀ f, frameFor m = some f → f.payload.length < 2 ^ 64)
    {w : W} (ho : Open w) :
    asked ((Model.AsgiWs.run c e w (ms.map .send)).a.resp.log.map Emit.op) =
      asked (w.a.resp.log.map Emit.op) ++ (((ms.filterMap frameFor).map Frame.encode).flatten).map some := by
  have hm : messages (ms.map .send) = ms := by
    induction ms with
    | nil => rfl
    | cons m ms ih => simp only [List.map_cons, messages]; rw [ih (fun m h => hd m (by simp [h])) (fun m h => hz m (by simp [h]))]
  have key : ∀ (ms : List Msg), (∀ m ∈ ms, isData m = true) → ∀ {w : W}, w.ws = true → w.waiting = false →
      (Model.AsgiWs.run c e w (ms.map .send)).waiting = false ∧ ∃ l, (Model.AsgiWs.run c e w (ms.map .send)).a.resp.log = w.a.resp.log ++ l ∧ ∀ x ∈ l, isPong x = false := by
    intro ms
    induction ms with
    | nil => intro _ w _ h; exact ⟨h, [], by simp [Model.AsgiWs.run], by simp⟩
    | cons m ms ih =>
      intro hd w h1 h2
      obtain ⟨b, op, k1, k2, _⟩ := step_send (c := c) (e := e) (hd m (by simp)) h1 h2
      rw [List.map_cons, run_cons, k2]
      obtain ⟨q1, l, q2, q3⟩ := ih (fun m h => hd m (by simp [h])) (w := logged w [.body (Model.WebSocket.createFrame b op) { throttle := false }]) (by exact h1) (by exact h2)
      refine ⟨q1, .body (Model.WebSocket.createFrame b op) { throttle := false } :: l, by rw [q2]; simp [logged], fun x hx => ?_⟩
      rcases List.mem_cons.1 hx with rfl | h
      · exact not_pong k1 _
      · exact q3 x h
  obtain ⟨hw, l', p1, p2⟩ := key ms hd ho.ws ho.running
  obtain ⟨l, h1, h2⟩ := C72_partial (c := c) (e := e) (ops := ms.map .send) (by rw [hm]; exact hd) (by rw [hm]; exact hz) ho hw
  rw [hm] at h2
  have hl : l = l' := List.append_cancel_left (h1.symm.trans p1)
  subst hl
  have hf : l.filter (fun x => !isPong x) = l := by rw [List.filter_eq_self]; exact fun x hx => by simp [p2 x hx]
  rw [hf] at h2
  have asked_append : ∀ a b : List SendOp, asked (a ++ b) = asked a ++ asked b := by
    intro a b
    induction a with
    | nil => rfl
    | cons x a ih => cases x <;> simp [asked, ih]
  rw [h1, List.map_append, asked_append, h2]
  congr 1
  generalize ms.filterMap frameFor = fs
  induction fs with
  | nil => rfl
  | cons f fs ih => simp [queued, Emit.op, asked] at ih ⊢; exact ih

example : ((Model.AsgiWs.run cfg env (start []) [.send (.accept [] []), .send (.send [1, 2] ""), .send (.send [] "é")]).a.resp.log.drop 2) =
    [.body [0x82, 2, 1, 2] { throttle := false }, .body [0x81, 2, 0xC3, 0xA9] { throttle := false }] := by decide +kernel

/-- **C72 fails** for empty messages: nothing is sent. -/
theorem C72_refuted_empty (c : Cfg) (e : WEnv) (w : W) : Model.AsgiWs.run c e w [.send (.send [] "")] = w := by
  simp [Model.AsgiWs.run, step, Model.AsgiWs.send]

/-- **C72 fails** before the acceptance: the frame is sent all the same, and the head of the handshake comes behind it. -/
theorem C72_refuted_early : (Model.AsgiWs.run cfg env (start []) [.send (.send [1, 2] ""), .send (.accept [] [])]).a.resp.log =
    [.body [0x82, 2, 1, 2] { throttle := false },
      .head b!"HTTP/1.1 101 Switching Protocols\r\nDate: D\r\nServer: S\r\nUpgrade: websocket\r\nSec-WebSocket-Accept: k\r\nConnection: upgrade\r\n\r\n" [] { throttle := false }, .mark true] := by
  decide +kernel

/-! ## C73 -/

/-- **C73 (partial)**, the application closes: one close frame with its code, the end marker, and nothing after that, whatever
the application still sends; `receive` gives `websocket.disconnect`. Missing: the refutations below. -/
theorem C73_close_partial {c : Cfg} {e : WEnv} {w : W} (ho : Open w) {code : Nat} (hcode : code < 65536) (post : List Op)
    (hp : ∀ m ∈ messages post, (∃ b t, m = .send b t) ∨ ∃ k, m = .close k) :
    (Model.AsgiWs.run c e w (.send (.close code) :: post)).a.resp.log = w.a.resp.log ++ [queued ⟨0x88, .short, none, be 2 code⟩, .mark w.a.resp.keepalive] ∧
    (Model.AsgiWs.run c e w (.send (.close code) :: post)).got = w.got ++ List.replicate (receives post) (.disconnect 1005) := by
  have h1 : step c e w (.send (.close code)) = { logged w [queued ⟨0x88, .short, none, be 2 code⟩, .mark w.a.resp.keepalive] with ws := false } := by
    have hf : Model.WebSocket.createFrame (toBE 2 code) 8 = (Frame.mk 0x88 .short none (be 2 code)).encode := by
      have hl : (be 2 code).length = 2 := Proofs.WebSocket.be_length 2 code
      rw [← Proofs.WebSocket.be_eq, create_encode (by rw [hl]; decide)]
      have : formOf (be 2 code) = .short := by simp [formOf, hl]
      rw [this]; rfl
    have hc : closeWith code w.a.resp = (.ok (), { w.a.resp with log := w.a.resp.log ++ [.body (Model.WebSocket.createFrame (toBE 2 code) 8) { throttle := false }] ++ [.mark w.a.resp.keepalive] }) := by
      unfold closeWith
      rw [if_pos (by omega)]
      have : sendFrame (toBE 2 (code : Int).toNat) 8 w.a.resp = (.ok (), { w.a.resp with log := w.a.resp.log ++ [.body (Model.WebSocket.createFrame (toBE 2 code) 8) { throttle := false }] }) := rfl
      rw [bind_ok this, close_run]; simp
    unfold step
    simp only [ho.running, Bool.false_eq_true, if_false, Model.AsgiWs.send, ho.ws, if_true, hc]
    simp [logged, queued, hf, ho.running]
  have rest : ∀ (post : List Op), (∀ m ∈ messages post, (∃ b t, m = .send b t) ∨ ∃ k, m = .close k) → ∀ w : W, w.a.resp.upgraded = true → w.ws = false → w.waiting = false →
      Model.AsgiWs.run c e w post = { w with got := w.got ++ List.replicate (receives post) (.disconnect 1005) } := by
    intro post
    induction post with
    | nil => intro _ w _ _ _; simp [Model.AsgiWs.run, receives]
    | cons op post ih =>
      intro hp w h1 h2 h3
      cases op with
      | send m =>
        have hs : step c e w (.send m) = w := by
          rcases hp m (by simp [messages]) with ⟨b, t, rfl⟩ | ⟨k, rfl⟩
          · simp [step, h3, Model.AsgiWs.send, h2]
          · simp [step, h3, Model.AsgiWs.send, h2]
        rw [run_cons, hs, ih (fun m hm => hp m (by simp [messages, hm])) w h1 h2 h3]
        simp [receives]
      | receive =>
        have hs : step c e w .receive = { w with got := w.got ++ [.disconnect 1005] } := by
          simp [step, h3, Model.AsgiWs.receive, h1, h2]
        rw [run_cons, hs, ih (fun m hm => hp m (by simpa [messages] using hm)) _ (by exact h1) (by exact h2) (by exact h3)]
        simp [receives, List.replicate_succ]
  rw [run_cons, h1, rest post hp { logged w _ with ws := false } ho.upgraded rfl ho.running]
  exact ⟨rfl, rfl⟩

/-- The application raises an exception in an open session: a close frame with code 1011 and the end marker. -/
theorem C73_failed {c : Cfg} {e : WEnv} {w : W} (ho : Open w) (x : Exc) :
    asked ((fail c e x w).a.resp.log.map Emit.op) = asked (w.a.resp.log.map Emit.op) ++ (Frame.mk 0x88 .short none (be 2 1011)).encode.map some ++ [none] := by
  have asked_append : ∀ a b : List SendOp, asked (a ++ b) = asked a ++ asked b := by
    intro a b
    induction a with
    | nil => rfl
    | cons x a ih => cases x <;> simp [asked, ih]
  have : (fail c e x w).a.resp.log = w.a.resp.log ++ [.frame (closeFrame 1011), .mark w.a.resp.keepalive] := by
    unfold fail
    simp only [ho.upgraded, ho.ws, Bool.and_self, if_true]
    unfold Model.Asgi.handle handleException
    rw [bind_ok (get_run _), if_neg (by simp [ho.upgraded])]
    show (close true { w.a.resp with log := w.a.resp.log ++ [.frame (closeFrame 1011)] }).2.log = _
    rw [close_run]; simp
  rw [this, List.map_append, asked_append, List.append_assoc]
  congr 1

/-- It raises an exception before it has accepted: the client gets the server's error response, and the connection ends. -/
theorem C73_failed_before {c : Cfg} (hc : CfgOk c) {e : WEnv} {w : W} (hf : Fresh w.a.resp) {x : Exc} (h1 : ∀ k, x ≠ .wsServer k) (h2 : x ≠ .ws)
    (h3 : (10 : UInt8) ∉ (errStatus x).2) (h4 : (10 : UInt8) ∉ errType x) :
    (fail c e x w).a.resp.log = [.head (errText c (errStatus x).1 (errStatus x).2 (errType x) (e.page x).length)
      (if bodyless c (errStatus x).1 then [] else e.page x) { throttle := false }, .mark false] := by
  have ha : asHttp x = ((errStatus x).1, (errStatus x).2, errType x) := by
    cases x with
    | wsServer k => exact absurd rfl (h1 k)
    | ws => exact absurd rfl h2
    | _ => rfl
  have hp : Plainly x := ⟨h1, h2, by rw [ha]; exact h3, by rw [ha]; exact h4⟩
  have := (handle_spec hc (e := e.toEnv) hp hf.headers hf.upgraded).1
  unfold fail
  rw [hf.upgraded, Bool.false_and, if_neg (by simp)]
  show (Model.Asgi.handle c e.toEnv x w.a.resp).log = _
  rw [this, hf.log, ha, endBody_eq]; rfl

/-- It raises an exception after it has closed the session: there is no second close frame, only an end marker. -/
theorem C73_failed_after {c : Cfg} {e : WEnv} {w : W} (hu : w.a.resp.upgraded = true) (hs : headersSent w.a.resp = true) (hw : w.ws = false) {x : Exc}
    (h1 : ∀ k, x ≠ .wsServer k) :
    ∃ k, (fail c e x w).a.resp.log = w.a.resp.log ++ [.mark k] := by
  have key : ∀ eh, ∃ k, (handleException c eh x w.a.resp).2.log = w.a.resp.log ++ [.mark k] := by
    intro eh
    unfold handleException
    rw [bind_ok (get_run _), if_neg (by simp [hu])]
    have he : ∀ p, ∃ k, (errorResponse c eh p w.a.resp).2.log = w.a.resp.log ++ [.mark k] := by
      intro p
      unfold errorResponse
      rw [bind_ok (get_run _), if_pos hs, close_run]
      exact ⟨_, rfl⟩
    cases x with
    | wsServer k => exact absurd rfl (h1 k)
    | ws => exact ⟨_, congrArg (fun r => r.2.log) (close_run true w.a.resp)⟩
    | _ => exact he _
  unfold fail
  rw [hw, Bool.and_false, if_neg (by simp)]
  exact key _

/-- **C73 fails** for an application that rejects the connection before accepting it: the client gets a WebSocket frame in
place of an HTTP response. -/
theorem C73_refuted_reject : (Model.AsgiWs.run cfg env (start []) [.receive, .send (.close 1000)]).a.resp.log =
    [.body [0x88, 2, 3, 0xE8] { throttle := false }, .mark true] := by decide +kernel

/-- **C73 fails** for the client's close frame: it is not answered, and the connection is not closed; the application has to
send `websocket.close` after its disconnect, or nothing happens. -/
theorem C73_refuted_client {c : Cfg} {e : WEnv} {w : W} (ho : Open w) (hi : Proofs.WebSocket.Inv w.reader) {f : Frame} (hf : f.Fits) (hm : f.payload.length ≤ e.max)
    (hop : f.opcode = 8) (hp : f.payload = []) {rest : Bytes} (hr : w.reader.remaining = f.encode ++ rest) :
    (Model.AsgiWs.run c e w [.receive]).got = w.got ++ [.disconnect 1005] ∧ (Model.AsgiWs.run c e w [.receive]).a = w.a := by
  obtain ⟨r2, q1, _⟩ := Proofs.WebSocket.recv_frame hi hf (fun _ => hm) hr
  rw [opcode_of (n := 8) hop, hp] at q1
  have st := step_receive (c := c) ho (receive_stop q1 rfl) (ev := .disconnect 1005) rfl
  rw [run_cons, st]
  simp [Model.AsgiWs.run, logged, Model.WebSocket.dispatch]

/-- **C73 fails** for a frame that is refused: the application is told code 1005 although the reason is 1008 or 1009, and
the client is told nothing. -/
theorem C73_refuted_violation {c : Cfg} {e : WEnv} {w : W} (ho : Open w) (hi : Proofs.WebSocket.Inv w.reader) {f : Frame} (hf : f.Fits)
    (hv : (f.form = .long ∧ e.max < f.payload.length) ∨ (f.payload.length ≤ e.max ∧ f.opcode ∉ [1, 2, 8, 9, 10])) {rest : Bytes}
    (hr : w.reader.remaining = f.encode ++ rest) :
    (Model.AsgiWs.run c e w [.receive]).got = w.got ++ [.disconnect 1005] ∧ (Model.AsgiWs.run c e w [.receive]).a = w.a := by
  have key : ∃ code r2, Model.WebSocket.recv e.max w.reader = (.serverClosed code, [], r2) := by
    rcases hv with ⟨h1, h2⟩ | ⟨h1, h2⟩
    · obtain ⟨r', q, _⟩ := C31_refused_partial hi hf h1 h2 (hr.trans (List.append_assoc _ _ _))
      exact ⟨1009, r', q⟩
    · obtain ⟨r', q, _⟩ := C32_other hi hf (fun _ => h1) hr (.inl h2)
      exact ⟨1008, r', q⟩
  obtain ⟨code, r2, q⟩ := key
  have st := step_receive (c := c) ho (receive_stop q rfl) (ev := .disconnect 1005) rfl
  rw [run_cons, st]
  simp [Model.AsgiWs.run, logged]

/-- **C73 fails** for a code that is not a number of two bytes: nothing is sent and the session stays open. -/
theorem C73_refuted_code {c : Cfg} {e : WEnv} {w : W} (ho : Open w) {code : Int} (hcode : code < 0 ∨ 65536 ≤ code) :
    Model.AsgiWs.run c e w [.send (.close code)] = w := by
  have : closeWith code w.a.resp = (.error .other, w.a.resp) := by
    unfold closeWith
    rw [if_neg (by omega)]; rfl
  obtain ⟨a, ws, reader, got, waiting⟩ := w
  have h1 := ho.running; have h2 := ho.ws
  simp only at h1 h2 this
  subst h1 h2
  simp [Model.AsgiWs.run, step, Model.AsgiWs.send, this]

example : let w := Model.AsgiWs.run cfg env (start []) [.send (.accept [] []), .send (.close 3000), .send (.send [1] ""), .receive, .send (.close 1000)]
    (w.a.resp.log.drop 2, w.got) = ([.body [0x88, 2, 11, 184] { throttle := false }, .mark true], [.disconnect 1005]) := by decide +kernel
example : ((fail cfg env .other (Model.AsgiWs.run cfg env (start []) [.send (.accept [] [])])).a.resp.log.drop 2) =
    [.frame [0x88, 2, 3, 0xF3], .mark true] := by decide +kernel

end Verif
