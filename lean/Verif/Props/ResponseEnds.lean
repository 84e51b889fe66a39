import Verif.Props.ResponseFlow
/-!
# Responses without body, header injection, errors, persistence: C22, C23, C28, C29
-/
namespace Verif
open Verif.Py Verif.Model.Upload Verif.Model.Response Verif.Spec.Response Verif.Proofs.Response

/-! ## C22 -/

/-- **C22**, data returned by the handler: nothing but the head and the end marker, if the request is HEAD or the status
of the head forbids a body, and no response middleware changes the status. -/
theorem C22_returned {c : Cfg} (hc : CfgOk c) {a : App} (hq : ∀ m ∈ a.qms, Script.Fine m.script) (hr : ∀ m ∈ a.rms, Script.Fine m.script)
    (pq : Pass a.qms) (pr : Pass a.rms) {sc : Script} (hs : Script.Fine sc) {d : Bytes} (hh : a.handler = .coro sc (.data d)) {s s' : St} (fs : Fresh s)
    (run : serve c a s = (.ok (), s')) (ns : ∀ x ∈ mwCalls a.rms, setsStatus x = false)
    (nb : c.method = b!"HEAD" ∨ noBody (lastStatus (before a sc ++ mwCalls a.rms)).1 = true) :
    ∃ t, s'.log = [.head t [] { throttle := false }, .mark s.keepalive] := by
  obtain ⟨t, rest, hl, sl⟩ := (returned_sent hc hq hr pq pr hs hh fs run).ex
  rw [setsStatus_snoc ns] at nb
  have nb : bodyless c (lastStatus (before a sc)).1 = true := by simpa [bodyless] using nb
  refine ⟨t, ?_⟩
  rw [hl, dataTail, nb]; rfl

/-- Values yielded by the handler (whatever they are). -/
theorem C22_streamed {c : Cfg} (hc : CfgOk c) {a : App} (hq : ∀ m ∈ a.qms, Script.Fine m.script) (hr : ∀ m ∈ a.rms, Script.Fine m.script)
    (pq : Pass a.qms) (pr : Pass a.rms) {sc : Script} (hs : Script.Fine sc) {d : Bytes} {rest : List (Script × Bytes)} (hy : ∀ y ∈ rest, Script.Fine y.1)
    {fin : Script} (hf : Script.Fine fin) {ex : Option Exc} (hh : a.handler = .gen ((sc, d) :: rest) fin ex) {s s' : St} (fs : Fresh s)
    (run : serve c a s = (.ok (), s')) (ns : ∀ x ∈ mwCalls a.rms, setsStatus x = false)
    (nb : c.method = b!"HEAD" ∨ noBody (lastStatus (before a sc ++ mwCalls a.rms)).1 = true) :
    ∃ t k, s'.log = [.head t [] { throttle := false }, .mark k] := by
  obtain ⟨t, ls, hl, sl⟩ := (streamed_sent hc hq hr pq pr hs hy hf hh fs run).2.ex
  rw [setsStatus_snoc ns] at nb
  have nb : bodyless c (lastStatus (before a sc)).1 = true := by simpa [bodyless] using nb
  refine ⟨t, genKeep c a.opt (before a sc) s.keepalive, ?_⟩
  rw [hl, genTail, nb]; rfl

/-- Data passed to `end`. -/
theorem C22_end {c : Cfg} (hc : CfgOk c) {s s1 : St} (fs : Fresh s) {sc : Script} (hf : Script.Fine sc)
    (hr : runScript c ((.setBaseHeader, false) :: sc) s = (.ok (), s1)) (d : Bytes) (k : Bool) (o : SendOpts)
    (nb : c.method = b!"HEAD" ∨ noBody (lastStatus (callsOf sc)).1 = true) :
    ∃ t, (end_ c d k o s1).2.log = [.head t [] o, .mark (k && s.keepalive)] := by
  obtain ⟨s', t, rest, run, _, hl⟩ := C27_end hc fs hf hr d k o
  have nb : bodyless c (lastStatus (callsOf sc)).1 = true := by simpa [bodyless] using nb
  refine ⟨t, ?_⟩
  rw [run, hl, nb]; rfl

theorem seen_closed (l : List Emit) (h : marks l = []) (r : List Emit) : seen (l ++ .mark false :: r) = l ++ [.mark false] := by
  induction l with
  | nil => rfl
  | cons x t ih =>
    cases x <;> first | (simp [marks] at h; done) | (simp only [marks] at h; simp [seen, ih h])

/-- Data passed to `write`, unless the status is 101 or 426: the connection is closed behind the head, and no data of this
or any later call is seen by the client. -/
theorem C22_write {c : Cfg} (hc : CfgOk c) {s s1 : St} (fs : Fresh s) {sc : Script} (hf : Script.Fine sc)
    (hr : runScript c ((.setBaseHeader, false) :: sc) s = (.ok (), s1)) (d : Option Bytes) (ch : Option Bool) (o : SendOpts) (g : Bool) (post : Script)
    (nb : c.method = b!"HEAD" ∨ noBody (lastStatus (callsOf sc)).1 = true) (nu : (lastStatus (callsOf sc)).1 ≠ 101 ∧ (lastStatus (callsOf sc)).1 ≠ 426) :
    ∃ t, seen (runScript c ((.write d ch o, g) :: post) s1).2.log = [.head t [] { throttle := false }, .mark false] := by
  obtain ⟨t, rest, s2, run, sl, hl, hk, hh, hch, hu⟩ := write_spec hc d ch o fs.upgraded (script_inv hc fs hf hr) (fun h => by simp [bodyless] at h nb; simp [h] at nb)
  have nb : bodyless c (lastStatus (callsOf sc)).1 = true := by simpa [bodyless] using nb
  rw [nb] at run
  simp only [if_true] at run
  rw [writeBody_none] at run
  have hk' : s2.keepalive = false := by
    rw [hk, writeKeep, nb]
    simp [nu.1, nu.2]
  rw [hl, fs.log, hk'] at run
  have e : runScript c ((.write d ch o, g) :: post) s1 = runScript c post { s2 with keepalive := false, log := [] ++ [.head t [] { throttle := false }] ++ [.mark false] } := by
    show (match write c d ch o s1 with
      | (.ok _, s') => runScript c post s'
      | (.error e, s') => if g = true then runScript c post s' else (.error e, s')) = _
    rw [run]
  refine ⟨t, ?_⟩
  rw [e]
  obtain ⟨⟨l, hl', _⟩, _⟩ := good_script c post { s2 with keepalive := false, log := [] ++ [.head t [] { throttle := false }] ++ [.mark false] }
  rw [hl']
  exact seen_closed [.head t [] { throttle := false }] rfl l

/-- A HEAD request, a 204 and a 304, returned, yielded, ended and written. -/
example : (handleRequest { method := b!"HEAD" } { handler := .coro [] (.data b!"x") } {}).log.map (fun e => (isHead e, isBody e)) = [(true, false), (false, false)] ∧
    bodyBytes (handleRequest {} { handler := .gen [([(.setStatus 204 b!"No Content", false)], b!"x"), ([], b!"y")] [] (some .other) } { keepalive := true }).log = [] ∧
    bodyBytes (handleRequest {} { handler := .coro [(.setStatus 304 b!"Not Modified", false), (.end_ b!"x" true {}, false)] .none } { keepalive := true }).log = [] ∧
    bodyBytes (seen (handleRequest { method := b!"HEAD" } { handler := .coro [(.write (some b!"x") none {}, false), (.write (some b!"y") none {}, false)] .none } { keepalive := true }).log) = [] := by
  decide +kernel

/-- **C22 fails** in four ways. A response middleware sets the status 304 on a returned body: the body is sent. -/
theorem C22_refuted_middleware : ∃ (a : App) (t : Bytes) (r : List Emit),
    seen (handleRequest {} a { keepalive := true }).log = .head (b!"HTTP/1.1 304 Not Modified\r\n" ++ t) [] { throttle := false } :: r ∧ bodyBytes r = b!"2\r\nhi\r\n0\r\n\r\n" :=
  ⟨{ rms := [{ script := [(.setStatus 304 b!"Not Modified", false)] }], handler := .coro [] (.data b!"hi") },
    b!"Date: \r\nServer: \r\nContent-Type: text/html; charset=utf-8\r\nTransfer-Encoding: chunked\r\nConnection: keep-alive\r\n\r\n", [.body b!"2\r\nhi\r\n" {}, .body b!"0\r\n\r\n" { throttle := false }, .mark true], by decide +kernel, by decide +kernel⟩

/-- A generator sets the status after an empty first value. -/
theorem C22_refuted_late : ∃ (a : App) (t : Bytes) (r : List Emit),
    seen (handleRequest {} a { keepalive := true }).log = .head (b!"HTTP/1.1 204 No Content\r\n" ++ t) [] { throttle := false } :: r ∧ bodyBytes r = b!"2\r\nhi\r\n0\r\n\r\n" :=
  ⟨{ handler := .gen [([], []), ([(.setStatus 204 b!"No Content", false)], b!"hi")] [] none },
    b!"Date: \r\nServer: \r\nContent-Type: text/html; charset=utf-8\r\nTransfer-Encoding: chunked\r\nConnection: keep-alive\r\n\r\n", [.body b!"2\r\nhi\r\n" {}, .body b!"0\r\n\r\n" { throttle := false }, .mark true], by decide +kernel, by decide +kernel⟩

/-- A HEAD request to a handler that writes twice with status 426. -/
theorem C22_refuted_upgrade : ∃ a : App, bodyBytes (seen (handleRequest { method := b!"HEAD" } a { keepalive := true }).log) = b!"1\r\ny\r\n" :=
  ⟨{ handler := .coro [(.setStatus 426 b!"Upgrade Required", false), (.write (some b!"x") none {}, false), (.write (some b!"y") none {}, false)] .none }, by decide +kernel⟩

/-- A HEAD request to a handler that writes after `end` on a kept connection: bytes that the client takes for the next
response. -/
theorem C22_refuted_after_end : ∃ a : App, bodyBytes (seen (handleRequest { method := b!"HEAD" } a { keepalive := true }).log) = b!"y" :=
  ⟨{ handler := .coro [(.end_ b!"x" true {}, false), (.write (some b!"y") none {}, false)] .none }, by decide +kernel⟩

/-! ## C23 -/

/-- **C23**, refusal: a name or value with LF passed to `set_header`, `set_status`, `set_content_type` or `set_cookie`
raises and changes nothing. -/
theorem C23_refused (c : Cfg) (s : St) :
    (∀ n v, (10 : UInt8) ∈ n ∨ (10 : UInt8) ∈ v → (Call.setHeader n v).run c s = (.error ise, s)) ∧
    (∀ st m, (10 : UInt8) ∈ m → (Call.setStatus st m).run c s = (.error ise, s)) ∧
    (∀ ct, (10 : UInt8) ∈ ct → (Call.setContentType ct).run c s = (.error ise, s)) ∧
    (∀ k, (10 : UInt8) ∈ k → (Call.setCookie k).run c s = (.error ise, s)) := by
  refine ⟨fun n v h => ?_, fun st m h => ?_, fun ct h => ?_, fun k h => ?_⟩
  · show setHeader n v s = _
    unfold setHeader; rw [if_pos h]; rfl
  · show setStatus st m s = _
    unfold setStatus; rw [if_pos h]; rfl
  · show setContentType ct s = _
    unfold setContentType; rw [if_pos h]; rfl
  · show setCookie k s = _
    unfold setCookie; rw [if_pos h]; rfl

/-- **C23**: whatever the application does (any calls, with any values; only `append_header` must be given no LF, names
contain no colon and are not `_line`, and the error handler sets no header), every head that is sent is one status
line and header lines `name: value` without LF inside, separated by CRLF, and one empty line. -/
theorem C23_request_partial {c : Cfg} (hc : CfgOk c) {a : App} (ha : App.Clean a) {s : St} (fs : Fresh s) :
    ∀ t b o, Emit.head t b o ∈ (handleRequest c a s).log → ∃ first rest, HeadIs t first rest :=
  fun t b o h => (handleRequest_wf hc ha (wf_fresh fs)).log t b o h

/-- **C23 fails** for `append_header`, which does not look for LF: a value adds a line (and more) to the head. -/
theorem C23_refuted_append : ∃ a : App, (handleRequest {} a {}).log.head? =
    some (.head (b!"HTTP/1.1 200 OK\r\nDate: \r\nServer: \r\nX: a\r\nSet-Cookie: evil=1\r\n" ++
      b!"Content-Type: text/html; charset=utf-8\r\nTransfer-Encoding: chunked\r\nConnection: close\r\n\r\n") [] { throttle := false }) :=
  ⟨{ handler := .coro [(.appendHeader b!"X" b!"a\r\nSet-Cookie: evil=1", false)] (.data b!"hi") }, by decide +kernel⟩

/-- An error handler that sets nothing but Connection gets a head with two empty lines: the base headers are not set
because the table is not empty, and the table without Connection is empty. -/
theorem C23_refuted_error : ∃ a : App, (handleRequest {} a {}).log.head? =
    some (.head b!"HTTP/1.1 500 Internal Server Error\r\nContent-Type: text/html; charset=utf-8\r\nContent-Length: 0\r\nConnection: close\r\n\r\n\r\n" [] { throttle := false }) :=
  ⟨{ handler := .coro [] (.raise .other), err := { script := [(.setHeader b!"Connection" b!"close", false)] } }, by decide +kernel⟩

/-! ## C28 -/

theorem quiet_log {s s1 : St} (h : R s s1) (hl : s.log = []) (hs : s1.headers ≠ none) : ∀ e ∈ s1.log, isHead e = false ∧ isBody e = false := by
  obtain ⟨⟨l, e, _, hq, _⟩, _⟩ := h
  rw [hl, List.nil_append] at e
  subst e
  intro x hx
  have := hq hs x hx
  cases x <;> simp_all [Quiet, isHead, isBody]

theorem asHttp_eq (e : Exc) : asHttp e = ((errStatus e).1, (errStatus e).2, errType e) := by cases e <;> rfl

/-- **C28**, nothing sent yet: an HTTPException, a TimeoutError or any other exception (not one of the WebSocket
exceptions) leads to exactly one head, with `Connection: close`, the status and type that belong to the exception
unless the error handler sets others, and the connection is closed behind it. -/
theorem C28_error_partial {c : Cfg} (hc : CfgOk c) {a : App} (ha : App.Clean a) (ef : Script.Fine a.err.script) {s s1 : St} (fs : Fresh s) {e : Exc}
    (run : serve c a s = (.error e, s1)) (hs : s1.headers ≠ none) (h1 : ∀ code, e ≠ .wsServer code) (h2 : e ≠ .ws)
    (hm : (10 : UInt8) ∉ (errStatus e).2) (ht : (10 : UInt8) ∉ errType e) :
    ∃ pre d t rest, pre <+: callsOf a.err.script ∧ (∀ x ∈ s1.log, isHead x = false ∧ isBody x = false) ∧
      (handleRequest c a s).log = s1.log ++ [.head t (if bodyless c (lastStatus (.setStatus (errStatus e).1 (errStatus e).2 :: pre)).1 then [] else d) { throttle := false }, .mark false] ∧
      Says c (.setStatus (errStatus e).1 (errStatus e).2 :: .setContentType (errType e) :: pre) true t rest ∧
      named b!"connection" rest = [b!"Connection: close"] := by
  have w := serve_wf hc ha s (wf_fresh fs)
  rw [run] at w
  obtain ⟨pre, d, hp, en⟩ := errorResponse_spec hc (eh := a.err) ef ha.err (e := asHttp e) (by rw [asHttp_eq]; exact hm) (by rw [asHttp_eq]; exact ht) w hs
  have r := good_serve c a s
  rw [run] at r
  obtain ⟨t, rest, hl, el⟩ := en.ex
  rw [asHttp_eq] at el hl
  refine ⟨pre, d, t, rest, hp, quiet_log r fs.log hs, ?_, el.says rfl rfl (fun _ _ => rfl), el.conn⟩
  have hh : handleRequest c a s = (errorResponse c a.err (asHttp e) s1).2 := by
    unfold handleRequest
    rw [run]
    dsimp only
    unfold handleException
    rw [bind_ok (get_run _)]
    have hsent : headersSent s1 = false := by
      cases h : s1.headers with
      | none => exact absurd h hs
      | some _ => simp [headersSent, h]
    rw [if_neg (by simp [hsent])]
    cases e with
    | wsServer code => exact absurd rfl (h1 code)
    | ws => exact absurd rfl h2
    | _ => rfl
  have e2 : lastStatus (errCalls ((errStatus e).1, (errStatus e).2, errType e) ++ pre) = lastStatus (.setStatus (errStatus e).1 (errStatus e).2 :: pre) := by
    have := lastStatus_mid (a := [.setStatus (errStatus e).1 (errStatus e).2]) (x := [.setContentType (errType e)]) pre (lastStatus_snoc _ _)
    simpa using this
  rw [hh, asHttp_eq, hl, endBody_eq, e2]

/-- With an error handler that does not set a status, the status is that of the exception: its own code for an
HTTPException, 408 for a TimeoutError, 500 otherwise. -/
theorem C28_status_partial {c : Cfg} (hc : CfgOk c) {a : App} (ha : App.Clean a) (ef : Script.Fine a.err.script) (es : ∀ x ∈ callsOf a.err.script, setsStatus x = false)
    {s s1 : St} (fs : Fresh s) {e : Exc}
    (run : serve c a s = (.error e, s1)) (hs : s1.headers ≠ none) (h1 : ∀ code, e ≠ .wsServer code) (h2 : e ≠ .ws)
    (hm : (10 : UInt8) ∉ (errStatus e).2) (ht : (10 : UInt8) ∉ errType e) :
    ∃ t rest d, HeadIs t (statusLine c (errStatus e)) rest ∧ named b!"connection" rest = [b!"Connection: close"] ∧
      (handleRequest c a s).log = s1.log ++ [.head t d { throttle := false }, .mark false] := by
  obtain ⟨pre, d, t, rest, hp, _, hl, sy, hcn⟩ := C28_error_partial hc ha ef fs run hs h1 h2 hm ht
  refine ⟨t, rest, _, ?_, hcn, hl⟩
  have := sy.is
  have e1 : lastStatus (.setStatus (errStatus e).1 (errStatus e).2 :: .setContentType (errType e) :: pre) = errStatus e := by
    have := setsStatus_snoc (x := .setContentType (errType e) :: pre) (a := [.setStatus (errStatus e).1 (errStatus e).2]) (by
      intro y hy
      rcases List.mem_cons.1 hy with rfl | hy
      · rfl
      · exact es y (hp.subset hy))
    rw [List.singleton_append] at this
    rw [this]
    simp [lastStatus, hm]
  rwa [e1] at this

/-- **C28**, head already sent: the connection is aborted and nothing more is queued; if it was upgraded, it is closed. -/
theorem C28_sent {c : Cfg} {a : App} {s s1 : St} {e : Exc} (run : serve c a s = (.error e, s1)) (hs : s1.headers = none) :
    (s1.upgraded = false → (handleRequest c a s).log = s1.log ∧ (handleRequest c a s).aborted = true) ∧
    (s1.upgraded = true → (∀ code, e ≠ .wsServer code) → e ≠ .ws →
      (handleRequest c a s).log = s1.log ++ [.mark false] ∧ (handleRequest c a s).keepalive = false) := by
  have hsent : headersSent s1 = true := by simp [headersSent, hs]
  refine ⟨fun hu => ?_, fun hu h1 h2 => ?_⟩
  · have : handleRequest c a s = { s1 with aborted := true } := by
      unfold handleRequest
      rw [run]
      dsimp only
      unfold handleException
      rw [bind_ok (get_run _), if_pos (by simp [hsent, hu])]
      rfl
    rw [this]; exact ⟨rfl, rfl⟩
  · have : handleRequest c a s = (errorResponse c a.err (asHttp e) s1).2 := by
      unfold handleRequest
      rw [run]
      dsimp only
      unfold handleException
      rw [bind_ok (get_run _), if_neg (by simp [hsent, hu])]
      cases e with
      | wsServer code => exact absurd rfl (h1 code)
      | ws => exact absurd rfl h2
      | _ => rfl
    rw [this]
    unfold errorResponse
    rw [bind_ok (get_run _), if_pos hsent, close_run]
    exact ⟨by simp, by simp⟩

/-- WebSocket exceptions are not answered with an HTTP response: a close frame (or nothing) and the end marker. -/
theorem C28_websocket {c : Cfg} {a : App} {s s1 : St} {e : Exc} (run : serve c a s = (.error e, s1)) (hs : s1.headers ≠ none ∨ s1.upgraded = true) :
    (∀ code, e = .wsServer code → (handleRequest c a s).log = s1.log ++ [.frame (closeFrame code), .mark s1.keepalive]) ∧
    (e = .ws → (handleRequest c a s).log = s1.log ++ [.mark s1.keepalive]) := by
  have hb : ¬ (headersSent s1 && !s1.upgraded) = true := by
    rcases hs with h | h
    · cases h' : s1.headers with
      | none => exact absurd h' h
      | some _ => simp [headersSent, h']
    · simp [h]
  refine ⟨?_, ?_⟩
  · rintro code rfl
    unfold handleRequest
    rw [run]
    dsimp only
    unfold handleException
    rw [bind_ok (get_run _), if_neg hb]
    show (close true { s1 with log := s1.log ++ [.frame (closeFrame code)] }).2.log = _
    rw [close_run]; simp
  · rintro rfl
    unfold handleRequest
    rw [run]
    dsimp only
    unfold handleException
    rw [bind_ok (get_run _), if_neg hb]
    show (close true s1).2.log = _
    rw [close_run]; simp

/-- An HTTPException, a timeout and a ValueError; and one raised after the first `write`. -/
example : (handleRequest {} { handler := .coro [(.setHeader b!"X" b!"1", false)] (.raise (.http 404 b!"Not Found" b!"text/plain")), err := { ret := .ok (some b!"oops") } } { keepalive := true }).log =
      [.head b!"HTTP/1.1 404 Not Found\r\nContent-Type: text/plain\r\nContent-Length: 4\r\nConnection: close\r\nDate: \r\nServer: \r\n\r\n" b!"oops" { throttle := false }, .mark false] ∧
    ((handleRequest {} { handler := .gen [] [] (some .timeout) } { keepalive := true }).log.map
      (fun e => match e with | .head t _ _ => t.take 28 | _ => [])) = [b!"HTTP/1.1 408 Request Timeout", []] ∧
    (handleRequest {} { handler := .gen [([], b!"x")] [] (some .other) } { keepalive := true }).aborted = true := by decide +kernel

/-- **C28 fails** for an HTTPException whose message contains LF: `set_status` raises inside `handle_exception`; nothing is
sent and nothing closes the connection. -/
theorem C28_refuted : ∃ a : App, (handleRequest {} a { keepalive := true }).log = [] ∧ (handleRequest {} a { keepalive := true }).aborted = false :=
  ⟨{ handler := .coro [] (.raise (.http 400 b!"no such\nthing" htmlType)) }, by decide +kernel, by decide +kernel⟩

/-! ## C29 -/

/-- The Connection line that tells the truth about `k`. -/
def truthful (k : Bool) : Bytes := if k then b!"Connection: keep-alive" else b!"Connection: close"

theorem truthful_eq (k : Bool) : line b!"Connection" (keepOrClose k) = truthful k := by cases k <;> decide

/-- **C29**, returned data: one Connection line, one end marker, and they agree (unless a response middleware sets
Connection). -/
theorem C29_returned {c : Cfg} (hc : CfgOk c) {a : App} (hq : ∀ m ∈ a.qms, Script.Fine m.script) (hr : ∀ m ∈ a.rms, Script.Fine m.script)
    (pq : Pass a.qms) (pr : Pass a.rms) {sc : Script} (hs : Script.Fine sc) {d : Bytes} (hh : a.handler = .coro sc (.data d)) {s s' : St} (fs : Fresh s)
    (run : serve c a s = (.ok (), s')) (un : ∀ x ∈ mwCalls a.rms, touches b!"connection" x = false) :
    ∃ t first rest k, s'.log.head? = some (.head t [] { throttle := false }) ∧ HeadIs t first rest ∧ named b!"connection" rest = [truthful k] ∧
      marks s'.log = [k] ∧ s'.log.getLast? = some (.mark k) := by
  obtain ⟨t, rest, hl, sl⟩ := (returned_sent hc hq hr pq pr hs hh fs run).ex
  refine ⟨t, _, rest, s.keepalive, by rw [hl]; rfl, sl.is, ?_, ?_, ?_⟩
  · have := sl.lines kConn (by decide)
    rw [untouched_snoc un, data_conn, truthful_eq] at this
    exact this
  · rw [hl, dataTail]
    split
    · rfl
    · split <;> rfl
  · rw [hl, dataTail]
    split
    · rfl
    · split <;> rfl

theorem marks_bodies (ch : Bool) (o : SendOpts) (ds : List Bytes) : marks (bodies ch o ds) = [] := by
  induction ds with
  | nil => rfl
  | cons d t ih => by_cases hd : d = [] <;> simpa [bodies, hd, marks] using ih

theorem genTail_last (c : Cfg) (o : Opt) (st : Int) (ds : List Bytes) (k : Bool) : ∃ l, genTail c o st ds k = l ++ [.mark k] ∧ marks l = [] := by
  unfold genTail
  split
  · exact ⟨[], rfl, rfl⟩
  · exact ⟨bodies (wantsChunked c o st) o.sendOpts ds ++ [.body (framed (wantsChunked c o st) []) (lastOpts o.sendOpts)], by simp, by
      rw [marks_append, marks_bodies]; rfl⟩

/-- Yielded data, if the body is delimited (chunked, or a Content-Length was set), the status is not 101 or 426, and no
one else sets Connection. -/
theorem C29_streamed_partial {c : Cfg} (hc : CfgOk c) {a : App} (hq : ∀ m ∈ a.qms, Script.Fine m.script) (hr : ∀ m ∈ a.rms, Script.Fine m.script)
    (pq : Pass a.qms) (pr : Pass a.rms) {sc : Script} (hs : Script.Fine sc) {d : Bytes} {rest : List (Script × Bytes)} (hy : ∀ y ∈ rest, Script.Fine y.1)
    {fin : Script} (hf : Script.Fine fin) {ex : Option Exc} (hh : a.handler = .gen ((sc, d) :: rest) fin ex) {s s' : St} (fs : Fresh s)
    (run : serve c a s = (.ok (), s')) (un : ∀ x ∈ mwCalls a.rms ++ lateCalls rest fin, touches b!"connection" x = false)
    (nu : (lastStatus (before a sc)).1 ≠ 101 ∧ (lastStatus (before a sc)).1 ≠ 426)
    (dl : wantsChunked c a.opt (lastStatus (before a sc)).1 = true ∨ linesFor b!"content-length" (before a sc) ≠ []) :
    ∃ t first ls k, s'.log.head? = some (.head t [] { throttle := false }) ∧ HeadIs t first ls ∧ named b!"connection" ls = [truthful k] ∧
      marks s'.log = [k] ∧ s'.log.getLast? = some (.mark k) := by
  obtain ⟨t, ls, hl, sl⟩ := (streamed_sent hc hq hr pq pr hs hy hf hh fs run).2.ex
  have hk : genKeep c a.opt (before a sc) s.keepalive = s.keepalive := by
    unfold genKeep
    rcases dl with h | h
    · rw [h]; simp
    · have : (linesFor kCL (before a sc)).isEmpty = false := by
        cases h' : linesFor kCL (before a sc) with
        | nil => exact absurd h' h
        | cons _ _ => rfl
      rw [this]; simp
  rw [hk] at hl
  refine ⟨t, _, ls, s.keepalive, by rw [hl]; rfl, sl.is, ?_, ?_, ?_⟩
  · have := sl.lines kConn (by decide)
    rw [List.append_assoc, untouched_snoc (fun x hx => un x ?_), gen_conn] at this
    · rw [← truthful_eq]
      unfold connValue keepOrUpgrade at this
      simp only [beq_eq_false_iff_ne.2 nu.1, beq_eq_false_iff_ne.2 nu.2, Bool.or_self, Bool.false_eq_true, if_false] at this
      exact this
    · rcases List.mem_append.1 hx with h | h
      · exact List.mem_append_left _ h
      · unfold genLate at h
        split at h
        · cases h
        · split at h
          · exact List.mem_append_right _ h
          · cases h
  · obtain ⟨l, e, hm⟩ := genTail_last c a.opt (lastStatus (before a sc)).1 (d :: rest.map (·.2)) s.keepalive
    rw [hl, e]; simp [marks_append, hm, marks]
  · obtain ⟨l, e, hm⟩ := genTail_last c a.opt (lastStatus (before a sc)).1 (d :: rest.map (·.2)) s.keepalive
    rw [hl, e, ← List.append_assoc, List.getLast?_concat]

/-- **C29 (upgrade).** Yielded data with the status 101 or 426 on a connection that is kept: the head says `Connection: upgrade`, if no one else
sets Connection; no other status makes it say so (`C29_streamed_partial`). -/
theorem C29_upgrade {c : Cfg} (hc : CfgOk c) {a : App} (hq : ∀ m ∈ a.qms, Script.Fine m.script) (hr : ∀ m ∈ a.rms, Script.Fine m.script)
    (pq : Pass a.qms) (pr : Pass a.rms) {sc : Script} (hs : Script.Fine sc) {d : Bytes} {rest : List (Script × Bytes)} (hy : ∀ y ∈ rest, Script.Fine y.1)
    {fin : Script} (hf : Script.Fine fin) {ex : Option Exc} (hh : a.handler = .gen ((sc, d) :: rest) fin ex) {s s' : St} (fs : Fresh s)
    (run : serve c a s = (.ok (), s')) (un : ∀ x ∈ mwCalls a.rms ++ lateCalls rest fin, touches b!"connection" x = false)
    (nu : (lastStatus (before a sc)).1 = 101 ∨ (lastStatus (before a sc)).1 = 426) :
    ∃ t first ls, s'.log.head? = some (.head t [] { throttle := false }) ∧ HeadIs t first ls ∧
      named b!"connection" ls = [b!"Connection: " ++ if s.keepalive then b!"upgrade" else b!"close"] := by
  obtain ⟨t, ls, hl, sl⟩ := (streamed_sent hc hq hr pq pr hs hy hf hh fs run).2.ex
  refine ⟨t, _, ls, by rw [hl]; rfl, sl.is, ?_⟩
  have := sl.lines kConn (by decide)
  rw [List.append_assoc, untouched_snoc (fun x hx => un x ?_), gen_conn] at this
  · unfold connValue keepOrUpgrade at this
    rcases nu with nu | nu
    · rw [nu] at this
      exact this
    · rw [nu] at this
      exact this
  · rcases List.mem_append.1 hx with h | h
    · exact List.mem_append_left _ h
    · unfold genLate at h
      split at h
      · cases h
      · split at h
        · exact List.mem_append_right _ h
        · cases h

/-- `end`, and request middlewares that return data. -/
theorem C29_end {c : Cfg} (hc : CfgOk c) {s s1 : St} (fs : Fresh s) {sc : Script} (hf : Script.Fine sc)
    (hr : runScript c ((.setBaseHeader, false) :: sc) s = (.ok (), s1)) (d : Bytes) (k : Bool) (o : SendOpts) :
    ∃ t b first rest, HeadIs t first rest ∧ named b!"connection" rest = [truthful (k && s.keepalive)] ∧
      (end_ c d k o s1).2.log = [.head t b o, .mark (k && s.keepalive)] := by
  obtain ⟨s', run, en, _⟩ := end_spec hc (script_inv hc fs hf hr) d k o
  obtain ⟨t, rest, hl, e⟩ := en.ex
  rw [fs.log] at hl
  exact ⟨t, _, _, rest, e.is, by rw [← truthful_eq]; exact e.conn, by rw [run]; exact hl⟩

theorem C29_middleware {c : Cfg} (hc : CfgOk c) {a : App} (hq : ∀ m ∈ a.qms, Script.Fine m.script) {pre post : List Mw} {m : Mw} {d : Bytes}
    (hm : a.qms = pre ++ m :: post) (pp : Pass pre) (hd : m.ret = .data d) {s s' : St} (fs : Fresh s) (run : serve c a s = (.ok (), s')) :
    ∃ t b first rest, HeadIs t first rest ∧ named b!"connection" rest = [truthful s.keepalive] ∧
      s'.log = [.head t b { throttle := false }, .mark s.keepalive] := by
  obtain ⟨t, rest, hl, e⟩ := (mw_ended hc hq hm pp hd fs run).ex
  exact ⟨t, _, _, rest, e.is, by rw [← truthful_eq]; exact e.conn, hl⟩

/-- `Connection: close` written by the server itself is always followed by a close, also for streams: when the request was
not keep-alive, the stream's end marker closes the connection. -/
theorem C29_close {c : Cfg} (hc : CfgOk c) {a : App} (hq : ∀ m ∈ a.qms, Script.Fine m.script) (hr : ∀ m ∈ a.rms, Script.Fine m.script)
    (pq : Pass a.qms) (pr : Pass a.rms) {sc : Script} (hs : Script.Fine sc) {d : Bytes} {rest : List (Script × Bytes)} (hy : ∀ y ∈ rest, Script.Fine y.1)
    {fin : Script} (hf : Script.Fine fin) {ex : Option Exc} (hh : a.handler = .gen ((sc, d) :: rest) fin ex) {s s' : St} (fs : Fresh s)
    (run : serve c a s = (.ok (), s')) (hk : s.keepalive = false) : marks s'.log = [false] := by
  obtain ⟨t, ls, hl, sl⟩ := (streamed_sent hc hq hr pq pr hs hy hf hh fs run).2.ex
  have : genKeep c a.opt (before a sc) s.keepalive = false := by simp [genKeep, hk]
  rw [this] at hl
  obtain ⟨l, e, hm⟩ := genTail_last c a.opt (lastStatus (before a sc)).1 (d :: rest.map (·.2)) false
  rw [hl, e]; simp [marks_append, hm, marks]

/-- A kept connection and a closed one. -/
example : marks (handleRequest {} { handler := .coro [] (.data b!"x") } { keepalive := true }).log = [true] ∧
    marks (handleRequest {} { handler := .gen [([], b!"x")] [] none } { keepalive := true }).log = [true] ∧
    marks (handleRequest {} { handler := .gen [([], b!"x")] [] none } { keepalive := false }).log = [false] := by decide +kernel

/-- The first head of a log and its first end marker. -/
def headAndMark (log : List Emit) : Option Bytes × Option Bool :=
  (log.findSome? (fun e => match e with | .head t _ _ => some t | _ => none), (marks log).getLast?)

/-- **C29 fails** in these cases, all with a keep-alive request and a head that says `Connection: keep-alive` although the
connection is closed. A generator on HTTP/1.0: -/
theorem C29_refuted_http10 : headAndMark (handleRequest { version := b!"1.0" } { handler := .gen [([], b!"x")] [] none } { keepalive := true }).log =
    (some b!"HTTP/1.0 200 OK\r\nDate: \r\nServer: \r\nContent-Type: text/html; charset=utf-8\r\nConnection: keep-alive\r\n\r\n", some false) := by decide +kernel
/-- a generator with status 204: -/
theorem C29_refuted_204 : headAndMark (handleRequest {} { opt := { status := some (204, b!"No Content") }, handler := .gen [([], b!"x")] [] none } { keepalive := true }).log =
    (some b!"HTTP/1.1 204 No Content\r\nDate: \r\nServer: \r\nConnection: keep-alive\r\n\r\n", some false) := by decide +kernel
/-- `write` on a HEAD request: -/
theorem C29_refuted_head : headAndMark (handleRequest { method := b!"HEAD" } { handler := .coro [(.write (some b!"x") none {}, false)] .none } { keepalive := true }).log =
    (some b!"HTTP/1.1 200 OK\r\nDate: \r\nServer: \r\nContent-Type: text/html; charset=utf-8\r\nTransfer-Encoding: chunked\r\nConnection: keep-alive\r\n\r\n", some false) := by decide +kernel
/-- a handler that calls `end` and returns `None` (`close()` follows; the flag is reset before the send task looks at it): -/
theorem C29_refuted_none : headAndMark (handleRequest {} { handler := .coro [(.end_ b!"x" true {}, false)] .none } { keepalive := true }).log =
    (some b!"HTTP/1.1 200 OK\r\nContent-Type: text/html; charset=utf-8\r\nContent-Length: 1\r\nConnection: keep-alive\r\nDate: \r\nServer: \r\n\r\n", some false) := by decide +kernel

end Verif
