import Verif.Proofs.NativeWs
/-!
# WebSocket sessions of native handlers: C86, C87
-/
namespace Verif
open Verif.Py Verif.Model.Response Verif.Spec.Response Verif.Spec.WebSocket Verif.Spec.AsgiWs Verif.Proofs.NativeWs Verif.Model.NativeWs Verif.Spec.NativeWs

/-! ## C86 -/

/-- **C86.** In an open session, whatever the handler does: if it reads as many messages as the client sends, and sends frames
in between, its calls give exactly the client's messages, in order and each once; and exactly its own frames and one pong for
each ping go out, in the order of `session`: a pong goes out in the read that passes its ping. The remaining frames of the client are still to be
read. Whatever the segmentation of the client's bytes. -/
theorem C86_session {c : Cfg} {e : NEnv} {items : List (Frame × Meaning)} (ok : ∀ x ∈ items, Carries e.max x.1 x.2) {ops : List Op}
    (hs : ∀ op ∈ ops, ∀ f, frameOf op = some f → f.payload.length < 2 ^ 64) {w : N} (hu : w.resp.upgraded = true) (hi : Proofs.WebSocket.Inv w.reader) {rest : Bytes}
    (hr : w.reader.remaining = (items.map (·.1.encode)).flatten ++ rest) {gs fs items'} (h : session items ops = some (gs, fs, items')) :
    ∃ w', Model.NativeWs.run c e w ops = w' ∧ w'.got = w.got ++ gs ∧ w'.resp = { w.resp with log := w.resp.log ++ fs.map queued } ∧
      w'.reader.remaining = (items'.map (·.1.encode)).flatten ++ rest := by
  obtain ⟨r', h1, h2, -⟩ := run_session (c := c) ops items ok hs hu hi hr h
  exact ⟨_, h1, rfl, rfl, h2⟩

/-- **C86**, for every handler: what it does is a list of calls, followed by its end if it has ended; so the theorems on
lists of calls are about all handlers. -/
theorem C86_handlers (c : Cfg) (e : NEnv) (eh : ErrHandler) (h : Coroutine) (n : Nat) (w : N) : ∃ ops, ops.length ≤ n ∧
    (play c e eh h n w = (Model.NativeWs.run c e w ops, false) ∨
      ∃ x, h (Model.NativeWs.run c e w ops).got = .inr x ∧ play c e eh h n w = (finish c eh (Model.NativeWs.run c e w ops) x, true)) :=
  play_run c e eh h n w

/-- **C86**, the handshake: the first call of `async for` on a request that keeps its connection sends the head
`101 Switching Protocols` with one Upgrade, one Connection and one accept line, and then reads. -/
theorem C86_handshake {c : Cfg} (hc : CfgOk c) {e : NEnv} {key : Bytes} (he : e.key = some key) (hk : (10 : UInt8) ∉ key) {s : St} (hf : Fresh s) (hka : s.keepalive = true)
    (r : Model.BodyStream.Reader) :
    ∃ t rest s', step c e (Model.NativeWs.start c s r) .next = step c e { resp := s', reader := r } .next ∧ s'.upgraded = true ∧ s'.headers = none ∧ s'.keepalive = true ∧
      s'.log = [.head t [] { throttle := false }, .mark true] ∧
      HeadIs t (b!"HTTP/" ++ c.version ++ b!" 101 Switching Protocols") rest ∧
      named b!"upgrade" rest = [b!"Upgrade: websocket"] ∧ named b!"connection" rest = [b!"Connection: upgrade"] ∧
      named b!"sec-websocket-accept" rest = [b!"Sec-WebSocket-Accept: " ++ key] ∧ named b!"transfer-encoding" rest = [] := by
  obtain ⟨s1, s2, h1, h2, h3⟩ := accept_ok hc hk hf
  let e' : Model.AsgiWs.WEnv := { phrase := fun _ => none, key := some key }
  obtain ⟨t, rest, w', k1, k2, k3, k4, k5, k6, k7, k8, k9, k10, k11, k12, k13, k14⟩ :=
    C70_partial hc (e := e') rfl hk (sub := []) (by simp) (l := []) (fun _ h => by cases h) (fun _ h => by cases h) 0 (w := { a := { resp := s }, reader := r }) hf hka rfl rfl
  have hsame := accept_same (e := e') h1 h2 (w := { a := { resp := s }, reader := r }) rfl rfl rfl
  rw [show ([] : List Model.AsgiWs.Op) = List.replicate 0 .receive from rfl] at k1
  rw [List.replicate_zero, List.nil_append] at k1
  rw [k1] at hsame
  have hup : s2.upgraded = true := by rw [← hsame]; exact k2.upgraded
  have hkeep : s2.keepalive = true := by
    obtain ⟨t', rest', -, -, -, -, q, -⟩ := Proofs.AsgiWs.accept_spec hc (e := e') rfl hk (sub := []) (by simp) (hs' := []) (fun _ h => by cases h) (a := { resp := s }) hf
    have : (Model.AsgiWs.acceptMsg c e' true [] [] { resp := s }).resp = s2 := by
      have := accept_same (e := e') h1 h2 (w := { a := { resp := s }, reader := r }) rfl rfl rfl
      exact this
    rw [this] at q
    rw [q, hka]; rfl
  refine ⟨t, rest, s2, ?_, hup, by rw [← hsame]; exact k5, hkeep, by rw [← hsame]; exact k6, k7, k8, k9, k10, k13⟩
  have hst : Model.NativeWs.start c s r = { resp := s1, reader := r } := by unfold Model.NativeWs.start; rw [h1]
  rw [hst]
  show Model.NativeWs.next c e { resp := s1, reader := r } = Model.NativeWs.next c e { resp := s2, reader := r }
  unfold Model.NativeWs.next
  rw [if_neg (by rw [h3]; simp), if_pos hup, he, h2]

/-- **C86**, end to end: for all messages, pings and pongs of a client and every end of its stream, a handler that sends back
every message (`echo`) comes to its end, and what it has sent is: the head, for each message the same message, for each ping
its pong, in the order in which the client has sent them, and the end by C87. -/
theorem C86_echo {c : Cfg} (hc : CfgOk c) {e : NEnv} {key : Bytes} (he : e.key = some key) (hk : (10 : UInt8) ∉ key) {s : St} (hf : Fresh s) (hka : s.keepalive = true) (eh : ErrHandler)
    {items : List (Frame × Meaning)} (ok : ∀ x ∈ items, Carries e.max x.1 x.2) {r : Model.BodyStream.Reader} (hi : Proofs.WebSocket.Inv r) {rest : Bytes} {x : Exc}
    (hr : r.remaining = (items.map (·.1.encode)).flatten ++ rest) (hx : Ends e.max r.gen.out rest x) :
    ∃ n w' t l, play c e eh echo n (Model.NativeWs.start c s r) = (w', true) ∧ HeadIs t (b!"HTTP/" ++ c.version ++ b!" 101 Switching Protocols") l ∧
      w'.resp.log = [.head t [] { throttle := false }, .mark true] ++ (echoed items).map queued ++ ending true x := by
  obtain ⟨t, l, s', h1, h2, h3, h4, h5, h6, -⟩ := C86_handshake hc he hk hf hka r
  obtain ⟨n, w', k1, k2⟩ := echo_run (c := c) (eh := eh) items ok (w := { resp := s', reader := r }) h2 h3 hi rfl hr hx
  refine ⟨n, w', t, l, ?_, h6, ?_⟩
  · cases n with
    | zero => cases k1
    | succ n =>
      rw [play_succ (op := .next) rfl] at k1 ⊢
      rw [h1, k1]
  · rw [k2, h5, h4]

abbrev NativeWs.cfg : Cfg := { date := b!"D", server := b!"S" }
abbrev NativeWs.env : NEnv := { key := some b!"k", max := 300 }
abbrev NativeWs.start (pieces : List Bytes) (out : Model.BodyStream.Out := .blocked) : N := Model.NativeWs.start NativeWs.cfg { keepalive := true } ⟨⟨pieces, out⟩, [], false⟩
open NativeWs

/-- Two messages around a ping, in pieces that do not follow the frames, then a close frame. -/
example : ((play cfg env {} echo 9 (NativeWs.start [[0x81, 0x82, 1, 2], [3, 4, 105, 107, 0x89, 1], [7, 0x82, 1, 9, 0x88], [2, 3, 0xE9]])).1.resp.log.drop 1,
     (play cfg env {} echo 9 (NativeWs.start [[0x81, 0x82, 1, 2], [3, 4, 105, 107, 0x89, 1], [7, 0x82, 1, 9, 0x88], [2, 3, 0xE9]])).2) =
    ([.mark true, .body [0x81, 2, 104, 105] { throttle := false }, .body [0x8A, 1, 7] { throttle := false }, .body [0x82, 1, 9] { throttle := false }, .mark true], true) := by decide +kernel

/-- A session that meets the hypotheses of `C86_session`: a ping and a text from the client; the handler sends before and after. -/
example : session [(⟨0x89, .short, none, [7]⟩, .ping [7]), (⟨0x81, .short, some (1, 2, 3, 4), [104, 105]⟩, .text "hi")] [.send [1], .receive, .sendText "yo"] =
      some ([.done, .text "hi", .done], [⟨0x82, .short, none, [1]⟩, ⟨0x8A, .short, none, [7]⟩, ⟨0x81, .short, none, [121, 111]⟩], []) := rfl
example : Carries 300 ⟨0x81, .short, some (1, 2, 3, 4), [104, 105]⟩ (.text "hi") :=
  ⟨by show (2 : Nat) < 126; decide, by decide, by decide, by show _ ∧ _; decide⟩

/-! ## C87 -/

/-- **C87 (partial).** How a session ends when the client's stream ends it, after any session of C86 and with all pings
answered: a wait without data by a close frame with code 1000; an unsupported opcode or a long control frame by 1008; a length
beyond the limit (in the 64-bit form) by 1009; and in every case the response ends, once, after everything sent before. Missing: the client's
close frame is not answered (`C87_refuted_reply`), a text that is not UTF-8 gets no close frame (`C87_refuted_text`), and
neither do other ends of the handler (`C87_refuted_return`, `C87_refuted_error`). -/
theorem C87_ends_partial {c : Cfg} {e : NEnv} {eh : ErrHandler} {items : List (Frame × Meaning)} (ok : ∀ x ∈ items, Carries e.max x.1 x.2) {ops : List Op}
    (hs : ∀ op ∈ ops, ∀ f, frameOf op = some f → f.payload.length < 2 ^ 64) {w : N} (hu : w.resp.upgraded = true) (hh : w.resp.headers = none)
    (hi : Proofs.WebSocket.Inv w.reader) {rest : Bytes} (hr : w.reader.remaining = (items.map (·.1.encode)).flatten ++ rest) {gs fs items'}
    (h : session items ops = some (gs, fs, items')) (hn : ∀ x ∈ items', message x.2 = none) {x : Exc} (hx : Ends e.max w.reader.gen.out rest x) :
    (Model.NativeWs.run c e w (ops ++ [.next])).got = w.got ++ gs ++ [.raised x] ∧
    (finish c eh (Model.NativeWs.run c e w (ops ++ [.next])) (.raise x)).resp.log =
      w.resp.log ++ fs.map queued ++ (items'.filterMap (·.2.answer)).map queued ++ ending w.resp.keepalive x := by
  obtain ⟨r', h1, h2, h3, h4, h5⟩ := run_session (c := c) ops items ok hs hu hi hr h
  rw [run_append, h1]
  rw [← h4] at hx
  exact run_ends (c := c) (eh := eh) (w := { more w (fs.map queued) with reader := r', got := w.got ++ gs }) (fun x hx => ok x (h5 x hx)) hn hu hh h3 h2 hx

theorem NativeWs.close_frame {code : Nat} (hc : code < 65536) (s : St) :
    Model.AsgiWs.closeWith (code : Int) s = (.ok (), { s with log := s.log ++ [queued (closing code), .mark s.keepalive] }) := by
  have hl : (be 2 code).length = 2 := Proofs.WebSocket.be_length 2 code
  have hform : formOf (be 2 code) = .short := by unfold formOf; rw [if_pos (by omega)]
  have hcr : Model.WebSocket.createFrame (toBE 2 code) 8 = (closing code).encode := by
    rw [← Proofs.WebSocket.be_eq, Proofs.AsgiWs.create_encode (by omega), hform]
    rfl
  have h0 : (0 : Int) ≤ code ∧ (code : Int) < 65536 := ⟨by omega, by omega⟩
  unfold Model.AsgiWs.closeWith
  rw [if_pos h0]
  simp [Model.AsgiWs.sendFrame, Bind.bind, emit, Model.Response.modify, close, Model.Response.when, Pure.pure, queued, hcr]

theorem NativeWs.call_ok {w : N} {m : M Unit} {s : St} (h : m w.resp = (.ok (), s)) : call w m = { w with resp := s, got := w.got ++ [.done] } := by
  unfold call; rw [h]

/-- **C87**, `close`: one close frame with the code goes out, and the response ends. -/
theorem C87_close (c : Cfg) (e : NEnv) (w : N) {code : Nat} (hc : code < 65536) :
    (step c e w (.close code)).resp = { w.resp with log := w.resp.log ++ [queued (closing code), .mark w.resp.keepalive] } ∧
    (step c e w (.close code)).got = w.got ++ [.done] := by
  have h : step c e w (.close code) = call w (Model.AsgiWs.closeWith (code : Int)) := rfl
  rw [h, NativeWs.call_ok (NativeWs.close_frame hc w.resp)]
  exact ⟨rfl, rfl⟩

/-- A wait without data: 1000. An unknown opcode: 1008. A length beyond the limit: 1009. The handler's own code. -/
example : ((play cfg env {} echo 9 (NativeWs.start [[0x81, 1, 65, 0x81]])).1.resp.log.drop 2 = [.body [0x81, 1, 65] { throttle := false }, .frame [0x88, 2, 3, 0xE8], .mark true]) ∧
    ((play cfg env {} echo 9 (NativeWs.start [[0x83, 0]])).1.resp.log.drop 2 = [.frame [0x88, 2, 3, 0xF0], .mark true]) ∧
    ((play cfg env {} echo 9 (NativeWs.start [[0x82, 127, 0, 0, 0, 0, 0, 0, 2, 0]])).1.resp.log.drop 2 = [.frame [0x88, 2, 3, 0xF1], .mark true]) ∧
    ((Model.NativeWs.run cfg env (NativeWs.start []) [.accept, .close 4000]).resp.log.drop 2 = [.body [0x88, 2, 15, 160] { throttle := false }, .mark true]) := by decide +kernel

/-- **C87 fails**: the client's close frame is not answered by one (RFC 6455, 5.5.1); the connection is just closed. -/
theorem C87_refuted_reply : (play cfg env {} echo 9 (NativeWs.start [[0x88, 2, 3, 0xE8]])).1.resp.log.drop 1 = [.mark true, .mark true] := by decide +kernel

/-- **C87 fails**: a text that is not UTF-8 ends the session without a close frame (1007). -/
theorem C87_refuted_text : (play cfg env {} echo 9 (NativeWs.start [[0x81, 1, 0xFF]])).1.resp.log.drop 1 = [.mark true, .mark false] := by decide +kernel

/-- **C87 fails**: a handler that returns leaves the session without a close frame, whatever has happened before. -/
theorem C87_refuted_return (c : Cfg) (eh : ErrHandler) (w : N) : (finish c eh w .ret).resp.log = w.resp.log ++ [.mark false] := rfl

/-- **C87 fails**: a handler that fails leaves the session without a close frame (1011). -/
theorem C87_refuted_error {c : Cfg} {eh : ErrHandler} {w : N} (hu : w.resp.upgraded = true) (hh : w.resp.headers = none) {x : Exc} (hx : x ≠ .ws) (hx' : ∀ code, x ≠ .wsServer code) :
    (finish c eh w (.raise x)).resp.log = w.resp.log ++ [.mark false] := by
  rw [finish_log hu hh]
  cases x with
  | ws => exact absurd rfl hx
  | wsServer code => exact absurd rfl (hx' code)
  | _ => rfl

/-- **C87 fails**: `ping` sends control frames that are too long (RFC 6455, 5.5), and `close` sends the reserved code 1005. -/
theorem C87_refuted_control : (Model.NativeWs.run cfg env (NativeWs.start []) [.accept, .ping (List.replicate 126 0), .close 1005]).resp.log.drop 2 =
    [.body ([0x89, 126, 0, 126] ++ List.replicate 126 0) { throttle := false }, .body [0x88, 2, 3, 0xED] { throttle := false }, .mark true] := by decide +kernel

end Verif
