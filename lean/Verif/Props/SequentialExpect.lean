import Verif.Props.Sequential
/-!
# C107: a client that asks for `100 Continue` and waits for it

C93 for requests with `Expect: 100-continue` (http_protocol.py:316-320, 466-480; http_request.py:173-174; http_response.py:176-187): the
client keeps the body of such a request back until the server has seen the end of its response `100 Continue`.
-/
namespace Verif
open Verif.Py Verif.Model.Conn Conn Flow Reply Pipe
open Verif.Spec.HttpParser (ReqHead valuesOf)
open Verif.Spec.Client (Delimited Answers Resp readAll readAnswers)
open Serial

/-- **C107**: a client sends any number of requests over one connection, none sharing a segment with another, and of those that ask for
`100 Continue` it sends the body after that response only; the handlers read their bodies. Then in every schedule, as long as the queue of
body parts stays within its limit, the connection stays open and the `i`-th handler started is that of the `i`-th request: it has its
method and its URL, what it has read is a part of the body, and the whole body once it is done. -/
theorem C107_requests (c : Cfg) {rs : List (ReqHead × Bytes)} (hrs : ∀ x ∈ rs, Serial.Polite c x) {es : List Ev} (h : Fair c rs {} es) :
    (run c {} es).noWrite = false ∧ (run c {} es).closing = false ∧ (run c {} es).started.length ≤ rs.length ∧
    ∀ i q b, i < (run c {} es).started.length → rs[i]? = some (q, b) → ∃ r, (run c {} es).started[i]? = some (i, q.wire []) ∧ (run c {} es).reqs[i]? = some r ∧
      r.req.method = upper q.method ∧ r.req.url = q.url ∧ bodyOf i (run c {} es).log <+: b ∧ (i ∉ (run c {} es).running → bodyOf i (run c {} es).log = b) :=
  Serial.requests c (fun x hx => (hrs x hx).mixed) h

/-- **C107 (answers)**: if each handler's output is an answer for a client that skips interim responses (`Pipe.after_continue`), then
whenever the connection waits for a request, or the send task comes to the end of an answer, the client reads from what was written exactly
those answers, the `i`-th one as the answer to its `i`-th request; and when all was received and the connection waits, all are answered. -/
theorem C107_answers (c : Cfg) {rs : List (ReqHead × Bytes)} (hrs : ∀ x ∈ rs, Serial.Polite c x) {es : List Ev} (h : Fair c rs {} es)
    (hq : (run c {} es).hb.isSome = true ∨ ((run c {} es).q1.head? = some none ∧ ¬ Expecting (run c {} es))) {answer : Nat → Resp}
    (hd : ∀ (i : Nat) q b, i < (run c {} es).started.length → rs[i]? = some (q, b) → Answers q.method (emitted i es) (answer i)) (closed : Bool) :
    readAnswers closed ((rs.take (run c {} es).started.length).map (·.1.method)) (run c {} es).written.flatten =
      some ((List.range (run c {} es).started.length).map answer, []) ∧
    ((run c {} es).hb.isSome = true → (run c {} es).rx = stream rs → (run c {} es).started.length = rs.length) := by
  refine Serial.answers_of c (fun x hx => (hrs x hx).mixed) h hq (D := Answers) (R := readAnswers closed) (fun l hl => ?_) hd
  have ra := Spec.Client.readAnswers_flatten (closed := closed) hl [] []
  simpa only [List.append_nil, readAnswers, Option.map_some] using ra

/-- **C107 (no deadlock)**: when no task of the server can go on, everything queued is written, and either the connection reads and waits for
a request, or one handler runs; if it waits for more of its body, then the connection reads, and if the client still waits for
`100 Continue`, then this response can be sent: after its end is taken from the queue the client may send the body. -/
theorem C107_live (c : Cfg) {rs : List (ReqHead × Bytes)} (hrs : ∀ x ∈ rs, Serial.Polite c x) {es : List Ev} (h : Fair c rs {} es)
    (hh : ∀ i, headStep c i (run c {} es) = run c {} es) (hr : ∀ i, recvStep c i (run c {} es) = run c {} es) (hs : sendStep c (run c {} es) = run c {} es) :
    (run c {} es).q1 = [] ∧
    (((run c {} es).hb.isSome = true ∧ (run c {} es).reading = true ∧ (run c {} es).running = []) ∨
      ∃ m, (run c {} es).running = [m] ∧ ((run c {} es).q0 = [] → ¬ Read (run c {} es) m → (run c {} es).reading = true) ∧
        ∀ r, (run c {} es).reqs[m]? = some r → r.req.httpContinue = true → ∀ bs,
          Fair c rs (run c {} es) [.emit m bs, .mark m true, .send, .send] ∧
          let s' := run c {} (es ++ [.emit m bs, .mark m true, .send, .send])
          s'.written = (run c {} es).written ++ [bs] ∧ s'.reading = true ∧ s'.running = [m] ∧ s'.q1 = [] ∧
            ∃ r', s'.reqs[m]? = some r' ∧ r'.req.httpContinue = false ∧ r'.req.hasBody = true) := by
  obtain ⟨h1, h2⟩ := Serial.live c (fun x hx => (hrs x hx).mixed) h hh hr hs
  refine ⟨h1, h2.imp_right ?_⟩
  rintro ⟨m, h3, h4⟩
  refine ⟨m, h3, fun hq hn => h4 hq (fun h => hn h.1), fun r hr hc bs => ?_⟩
  obtain ⟨hp, _, _⟩ := phase_run (fun x hx => (hrs x hx).sound) es (phase_init c rs) h
  have hlim : (run c {} es).q0.length ≤ c.maxQueue := by
    clear hp h1 h2 h3 h4 hr hh hs
    have : ∀ (es : List Ev) (s : St), s.q0.length ≤ c.maxQueue → Fair c rs s es → (run c s es).q0.length ≤ c.maxQueue := by
      intro es
      induction es with
      | nil => intro s h0 _; exact h0
      | cons e es ih => intro s _ hf; exact ih _ hf.2.1 hf.2.2
    exact this es {} (Nat.zero_le _) h
  rw [show run c {} (es ++ [.emit m bs, .mark m true, .send, .send]) = run c (run c {} es) [.emit m bs, .mark m true, .send, .send] from by simp [run, List.foldl_append]]
  generalize run c {} es = s at *
  cases hp with
  | idle m' h' => rw [h'.running] at h3; cases h3
  | starting m' _ _ _ h' => rw [h'.running] at h3; cases h3
  | feeding m' _ _ _ _ _ _ h' => rw [h'.running] at h3; cases h3
  | leaving m' _ _ _ h' => rw [h'.running] at h3; cases h3
  | handling m' q b b1 rq h' =>
    have := h'.running
    rw [h3] at this; cases this
    have := h'.req
    rw [hr] at this; cases this
    have hb : r.req.hasBody = true := by
      cases h'.sub with
      | bare _ h2 => rw [(h'.cont hc).2.2] at h2; cases h2
      | wait h1 => exact h1
      | busy h1 => exact h1
      | full h1 => exact h1
    have sd := h'.base.sendDone
    have nw := h'.base.noWrite
    have e1 : step c (step c s (.emit m bs)) (.mark m true) = { s with q1 := [some bs, none], queued := s.queued ++ [some bs] ++ [none] } := by
      simp [step, put1, closeResponse, h1]
    have e2 : step c { s with q1 := [some bs, none], queued := s.queued ++ [some bs] ++ [none] } .send =
        { s with q1 := [none], queued := s.queued ++ [some bs] ++ [none], sent := s.sent ++ [some bs], written := s.written ++ [bs] } := by
      simp [step, sendStep, sd, nw]
    have hm : m < s.reqs.length := by rw [h'.len]; omega
    have e3 : step c { s with q1 := [none], queued := s.queued ++ [some bs] ++ [none], sent := s.sent ++ [some bs], written := s.written ++ [bs] } .send =
        { s with q1 := [], queued := s.queued ++ [some bs] ++ [none], sent := s.sent ++ [some bs] ++ [none], written := s.written ++ [bs], registered := s.registered || s.first,
                 reqs := s.reqs.set m { r with req := { r.req with httpContinue := false } }, reading := true } := by
      simp only [step, sendStep, sd, Bool.false_eq_true, if_false]
      unfold marker
      simp only [h'.cur, h'.req]
      rw [if_pos ⟨h'.acc.keep, h'.hb⟩]
      unfold handleKeepalive setReq
      simp only [h'.base.reg, Bool.not_true, Bool.false_eq_true, if_false, hc, if_true, h'.req]
    refine ⟨⟨by simp [fair, h3], ?_, ⟨?_, rfl, ?_, r, hr, hc⟩, ?_, trivial, ?_, trivial, ?_, trivial⟩, ?_⟩
    · exact hlim
    · simp [step, put1, h3]
    · simp [step, put1, h1]
    · rw [e1]; exact hlim
    · rw [e1, e2]; exact hlim
    · rw [e1, e2, e3]; exact hlim
    · have e : run c s [.emit m bs, .mark m true, .send, .send] = step c (step c (step c (step c s (.emit m bs)) (.mark m true)) .send) .send := rfl
      rw [e, e1, e2, e3]
      exact ⟨rfl, rfl, h3, rfl, _, List.getElem?_set_self hm, rfl, hb⟩

namespace Serial

/-- Two requests; the first asks for `100 Continue`, and its body comes in two segments. -/
def rsE : List (ReqHead × Bytes) := [(expect, b!"xyz"), (get2, [])]
def esW : List Ev :=
  [.data ((expect.wire []).take 20), .data ((expect.wire []).drop 20), .head 0, .take 0, .emit 0 b!"HTTP/1.1 100 Continue\r\n\r\n", .mark 0 true, .send, .send, .data b!"x", .recv 0, .take 0, .recv 0,
   .take 0, .data b!"yz", .recv 0, .recv 1, .recv 1, .take 0, .take 0, .emit 0 out1, .leave 0 true, .send, .send,
   .data (get2.wire []), .head 1, .emit 1 out2, .leave 1 true, .send, .send]

end Serial

/-- The hypotheses on a concrete connection, and what the client reads. -/
example : Fair {} rsE {} esW ∧ (run {} {} esW).rx = stream rsE ∧ (run {} {} esW).hb = some [] ∧ (run {} {} esW).started.length = 2 ∧
    bodyOf 0 (run {} {} esW).log = b!"xyz" ∧
    (readAnswers false (rsE.map (·.1.method)) (run {} {} esW).written.flatten).map (fun p => (p.1.map (fun r => (r.status, r.body)), p.2)) =
      some ([(200, b!"hello"), (200, b!"abcd")], []) :=
  ⟨FairB.fair (by decide +kernel), by decide +kernel, by decide +kernel, by decide +kernel, by decide +kernel, by decide +kernel⟩

/-- The first request is as `Polite` says. -/
example : Serial.Polite {} (expect, b!"xyz") := by
  refine ⟨⟨by decide +kernel, by decide +kernel, by decide +kernel, ?_, fun _ => ⟨_, List.mem_cons_self, by decide +kernel⟩, by decide, by decide +kernel, by decide +kernel⟩, ?_,
      by decide +kernel, rfl, .inl (by decide +kernel), by decide +kernel, .inr ⟨⟨b!"100-continue", by decide +kernel, by decide⟩, by decide⟩,
      .inr ⟨b!"3", by decide +kernel, ⟨by decide, by decide, by decide⟩, by decide, by decide⟩⟩
  · intro f hf
    simp only [expect, List.mem_cons, List.not_mem_nil, or_false] at hf
    rcases hf with rfl | rfl | rfl <;> exact ⟨by decide, by decide +kernel, by decide +kernel, by decide +kernel, by decide +kernel, by decide +kernel⟩
  · intro f hf
    simp only [expect, List.mem_cons, List.not_mem_nil, or_false] at hf
    rcases hf with rfl | rfl | rfl <;> decide +kernel

/-- Waiting is needed, although RFC 9110 (10.1.1) lets a client send the body at once: then the end of the response `100 Continue` makes the
connection read again while the body is already complete (http_protocol.py:478-480, 504). The next request, sent after the answer was
written but before the handler ends, is queued as body, and no handler starts for it; and the request after it (a POST with the body `abc`)
gets its bytes as body. Without `Expect` the connection does not read before the handler has ended (C93). -/
theorem C107_refuted_early : ∃ es es' : List Ev,
    (run {} {} es).rx = stream [(expect, b!"xyz"), (get2, [])] ∧ (run {} {} es).hb = some [] ∧ (run {} {} es).noWrite = false ∧
    (run {} {} es).started.length = 1 ∧ bodyOf 0 (run {} {} es).log = b!"xyz" ∧ (run {} {} es).running = [] ∧
    (run {} {} (es ++ es')).rx = stream [(expect, b!"xyz"), (get2, []), (post, b!"abc")] ∧ bodyOf 1 (run {} {} (es ++ es')).log = get2.wire [] :=
  ⟨[.data (expect.wire b!"xyz"), .head 0, .head 0, .emit 0 b!"HTTP/1.1 100 Continue\r\n\r\n", .mark 0 true, .send, .send, .take 0, .take 0, .emit 0 out1, .send,
    .data (get2.wire []), .recv 0, .recv 0, .leave 0 true, .send],
   [.data (post.wire b!"abc"), .head 1, .head 1, .take 1, .take 1], by decide +kernel⟩

end Verif
