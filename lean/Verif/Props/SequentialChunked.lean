import Verif.Props.SequentialExpect
import Verif.Props.Body
/-!
# C110: requests with chunked bodies over one connection

C93 and C107 for requests whose body has `Transfer-Encoding: chunked`. The connection does not look into such a body (http_protocol.py:161-180):
it never knows where the body ends, and reads until the send task comes to the end of the answer and resets it (481-504). So a client that
goes on as soon as it has the whole answer is not always served; one that goes on after the reset is, if the handler has taken the whole body
and no segment of it is being queued any more.
-/
namespace Verif
open Verif.Py Verif.Model.Conn Conn Flow Reply Pipe
open Verif.Spec.HttpParser (ReqHead valuesOf)
open Verif.Spec.Client (Delimited Answers Resp readAll readAnswers)
open Verif.Model.BodyStream (chunkStream rawStream Out)
open Serial

/-- **C110 (partial)**: a client sends any number of requests over one connection, with or without bodies, chunked or not; none shares a
segment with another, and the request after a chunked one comes when the server waits for it (`Fair`, `Serial.Quiet`). The handlers read their
bodies, of a chunked one all bytes, and end when none is being queued (`Serial.Drained`). Then in every schedule the connection stays open and
the `i`-th handler started is that of the `i`-th request: it has its method and its URL, what it has taken is a part of the body as sent,
and all of it once it is done. -/
theorem C110_requests_partial (c : Cfg) {rs : List (ReqHead × Bytes)} (hrs : ∀ x ∈ rs, Serial.Mixed c x) {es : List Ev} (h : Fair c rs {} es) :
    (run c {} es).noWrite = false ∧ (run c {} es).closing = false ∧ (run c {} es).started.length ≤ rs.length ∧
    ∀ i q b, i < (run c {} es).started.length → rs[i]? = some (q, b) → ∃ r, (run c {} es).started[i]? = some (i, q.wire []) ∧ (run c {} es).reqs[i]? = some r ∧
      r.req.method = upper q.method ∧ r.req.url = q.url ∧ bodyOf i (run c {} es).log <+: b ∧ (i ∉ (run c {} es).running → bodyOf i (run c {} es).log = b) :=
  Serial.requests c hrs h

/-- **C110 (answers, partial)**: if each handler's output is an answer to its request, then whenever the connection waits for a request, or the
send task comes to the end of an answer, the client reads from what was written exactly those answers, the `i`-th one as the answer to its
`i`-th request; and when all was received and the connection waits, all are answered. -/
theorem C110_answers_partial (c : Cfg) {rs : List (ReqHead × Bytes)} (hrs : ∀ x ∈ rs, Serial.Mixed c x) {es : List Ev} (h : Fair c rs {} es)
    (hq : (run c {} es).hb.isSome = true ∨ ((run c {} es).q1.head? = some none ∧ ¬ Expecting (run c {} es))) {answer : Nat → Resp}
    (hd : ∀ (i : Nat) q b, i < (run c {} es).started.length → rs[i]? = some (q, b) → Answers q.method (emitted i es) (answer i)) (closed : Bool) :
    readAnswers closed ((rs.take (run c {} es).started.length).map (·.1.method)) (run c {} es).written.flatten =
      some ((List.range (run c {} es).started.length).map answer, []) ∧
    ((run c {} es).hb.isSome = true → (run c {} es).rx = stream rs → (run c {} es).started.length = rs.length) := by
  refine Serial.answers_of c hrs h hq (D := Answers) (R := readAnswers closed) (fun l hl => ?_) hd
  have ra := Spec.Client.readAnswers_flatten (closed := closed) hl [] []
  simpa only [List.append_nil, readAnswers, Option.map_some] using ra

/-- **C110 (no deadlock, partial)**: when no task of the server can go on, everything queued is written, and either the connection reads and
waits for a request, or one handler runs; if it has not got its whole body yet and nothing of it is queued, then the connection reads. -/
theorem C110_live_partial (c : Cfg) {rs : List (ReqHead × Bytes)} (hrs : ∀ x ∈ rs, Serial.Mixed c x) {es : List Ev} (h : Fair c rs {} es)
    (hh : ∀ i, headStep c i (run c {} es) = run c {} es) (hr : ∀ i, recvStep c i (run c {} es) = run c {} es) (hs : sendStep c (run c {} es) = run c {} es) :
    (run c {} es).q1 = [] ∧
    (((run c {} es).hb.isSome = true ∧ (run c {} es).reading = true ∧ (run c {} es).running = []) ∨
      ∃ m, (run c {} es).running = [m] ∧
        ((run c {} es).q0 = [] → ¬ (Read (run c {} es) m ∧ Drained (bodyAt rs m) (run c {} es) m) → (run c {} es).reading = true)) :=
  Serial.live c hrs h hh hr hs

namespace Serial

def chunky : ReqHead := ⟨b!"POST", b!"/c", b!"1.1", [⟨b!"Host", true, b!"a"⟩, ⟨b!"Transfer-Encoding", true, b!"chunked"⟩]⟩
def abc : Bytes := b!"3\r\nabc\r\n0\r\n\r\n"

/-- A chunked body in three segments, then a body with its length, then another chunked one. -/
def rsC : List (ReqHead × Bytes) := [(chunky, abc), (post, b!"xyz"), (chunky, b!"0\r\n\r\n")]
def esC : List Ev :=
  [.data (chunky.wire b!"3\r\na"), .head 0, .head 0, .take 0, .data b!"bc\r\n", .recv 0, .take 0, .recv 0, .emit 0 (out1.take 30), .data b!"0\r\n\r\n", .recv 1, .recv 1, .take 0, .clear 0,
   .send, .emit 0 (out1.drop 30), .leave 0 true, .send, .send, .data (post.wire b!"xyz"), .head 1, .head 1, .take 1, .take 1, .emit 1 out2, .leave 1 true, .send, .send,
   .data (chunky.wire b!"0\r\n\r\n"), .head 2, .head 2, .take 2, .emit 2 out1, .leave 2 true, .send, .send]

end Serial

/-- The hypotheses on a concrete connection, what the handlers take, and what the client reads. -/
example : Fair {} rsC {} esC ∧ (run {} {} esC).rx = stream rsC ∧ (run {} {} esC).hb = some [] ∧ (run {} {} esC).started.length = 3 ∧
    (List.range 3).map (fun k => bodyOf k (run {} {} esC).log) = [abc, b!"xyz", b!"0\r\n\r\n"] ∧
    (Spec.Client.readAll false (rsC.map (·.1.method)) (run {} {} esC).written.flatten).map (fun p => (p.1.map (fun r => (r.status, r.body)), p.2)) =
      some ([(200, b!"hello"), (200, b!"abcd"), (200, b!"hello")], []) :=
  ⟨FairB.fair (by decide +kernel), by decide +kernel, by decide +kernel, by decide +kernel, by decide +kernel, by decide +kernel⟩

/-- The first request is as `Mixed` says. -/
example : Serial.Mixed {} (chunky, abc) := by
  refine ⟨⟨by decide +kernel, by decide +kernel, by decide +kernel, ?_, fun _ => ⟨_, List.mem_cons_self, by decide +kernel⟩, by decide, by decide +kernel, by decide +kernel⟩, ?_,
      by decide +kernel, rfl, .inl (by decide +kernel), .inl (by decide +kernel), .inr ⟨by decide +kernel, ⟨b!"chunked", by decide +kernel⟩, by decide, by decide⟩⟩
  · intro f hf
    simp only [chunky, List.mem_cons, List.not_mem_nil, or_false] at hf
    rcases hf with rfl | rfl <;> exact ⟨by decide, by decide +kernel, by decide +kernel, by decide +kernel, by decide +kernel, by decide +kernel⟩
  · intro f hf
    simp only [chunky, List.mem_cons, List.not_mem_nil, or_false] at hf
    rcases hf with rfl | rfl <;> decide +kernel

namespace Serial
/-- What a handler that returns `hello` sends if it is not to be chunked. -/
def outL : Bytes := wireBytes (Model.Response.handleRequest {} { opt := { chunked := some false }, handler := .coro [] (.data b!"hello") } { keepalive := true }).log
end Serial

/-- The condition on the client is needed: it has the whole answer when the handler is still to end (`put_to_queue` sleeps after the last
bytes, http_protocol.py:158-159, before http_server.py:258-260 queues the end). The next request, sent at once in a segment of its own, is queued as body of the first, no handler
starts for it, and the request after it, `xyz` being its body, gets its bytes as body. A client whose requests have lengths may go on then
(C93). -/
theorem C110_refuted_early : ∃ es es' : List Ev,
    (run {} {} (es.take 6)).written = [outL] ∧
    (Spec.Client.readAll false [b!"POST"] outL).map (fun p => (p.1.map (·.body), p.2)) = some ([b!"hello"], []) ∧
    (run {} {} es).rx = stream [(chunky, abc), (get2, [])] ∧ (run {} {} es).hb = some [] ∧ (run {} {} es).noWrite = false ∧ (run {} {} es).running = [] ∧
    bodyOf 0 (run {} {} es).log = abc ∧ (run {} {} es).started.length = 1 ∧
    (run {} {} (es ++ es')).rx = stream [(chunky, abc), (get2, []), (post, b!"xyz")] ∧ bodyOf 1 (run {} {} (es ++ es')).log = get2.wire b!"xyz" :=
  ⟨[.data (chunky.wire abc), .head 0, .head 0, .take 0, .emit 0 outL, .send, .data (get2.wire []), .recv 0, .recv 0, .leave 0 true, .send],
   [.data (post.wire b!"xyz"), .head 1, .head 1, .take 1, .take 1, .take 1], by decide +kernel⟩

/-- The condition that all bytes are taken is needed: a handler is done at the line `0` of the last chunk (http_request.py:225-226). If
the CRLF behind it comes in a segment of its own, then it stays in the queue, and the next request has it before its body: one with the
body `xyz` is handled with `\r\nx`, a chunked one is refused. -/
theorem C110_refuted_tail : ∃ es : List Ev,
    chunkStream 16384 [some b!"3\r\nabc\r\n0\r\n"] = ([b!"abc"], .done) ∧ bodyOf 0 (run {} {} es).log = b!"3\r\nabc\r\n0\r\n" ∧
    (run {} {} es).rx = stream [(chunky, abc)] ∧ (run {} {} es).hb = some [] ∧ (run {} {} es).running = [] ∧
    (let s := run {} {} (es ++ [.data (post.wire b!"xyz"), .head 1, .head 1, .take 1, .take 1, .take 1])
     s.log.filter (fun a => a matches .body 1 _) = [.body 1 (some b!"\r\n"), .body 1 (some b!"xyz"), .body 1 none]) ∧
    (rawStream 3 2097152 [some b!"\r\n", some b!"xyz", none]).1.flatten = b!"\r\nx" ∧
    (let s := run {} {} (es ++ [.data (chunky.wire abc), .head 1, .head 1, .take 1, .take 1])
     s.log.filter (fun a => a matches .body 1 _) = [.body 1 (some b!"\r\n"), .body 1 (some abc)]) ∧
    (chunkStream 16384 [some b!"\r\n", some abc]).2 = .badRequest :=
  ⟨[.data (chunky.wire b!"3\r\nabc\r\n0\r\n"), .head 0, .head 0, .take 0, .emit 0 out1, .send, .data b!"\r\n", .recv 0, .recv 0, .leave 0 true, .send], by decide +kernel⟩

/-- The same CRLF after the reset stands before the next head. Then this head is none, the request is dropped, and the connection is kept:
the client gets neither an answer nor the end of the connection. -/
theorem C110_refuted_dropped : ∃ es : List Ev,
    (run {} {} es).rx = stream [(chunky, abc), (get2, [])] ∧ (run {} {} es).hb = some [] ∧ (run {} {} es).noWrite = false ∧ (run {} {} es).closing = false ∧
    (run {} {} es).reading = true ∧ (run {} {} es).q1 = [] ∧ (run {} {} es).written = [out1] ∧ (run {} {} es).started.length = 1 :=
  ⟨[.data (chunky.wire b!"3\r\nabc\r\n0\r\n"), .head 0, .head 0, .take 0, .emit 0 out1, .leave 0 true, .send, .send, .data b!"\r\n", .data (get2.wire []), .head 1, .send], by decide +kernel⟩

namespace Serial
/-- A POST whose body has as many bytes as the request `get2`. -/
def post30 : ReqHead := ⟨b!"POST", b!"/p", b!"1.1", [⟨b!"Host", true, b!"a"⟩, ⟨b!"Content-Length", true, b!"30"⟩]⟩
end Serial

/-- The condition that no segment is being queued is needed: `put_to_queue` sleeps after it has queued a piece (158-159), and then counts its
bytes for whatever request the connection has by then (161-166). Here the handler takes the last piece and answers while it sleeps, and
the client sends the next request, a POST with a body of 30 bytes; those of the chunked body are counted for it. So it seems complete before
its body comes: the handler gets an empty body, and the body, when it comes, is taken for a request: three handlers start for two requests. -/
theorem C110_refuted_count : ∃ es : List Ev,
    (run {} {} es).rx = stream [(chunky, b!"14\r\nabcdefghijklmnopqrst\r\n0\r\n\r\n"), (post30, get2.wire [])] ∧ (get2.wire []).length = 30 ∧ (run {} {} es).noWrite = false ∧
    (run {} {} es).started = [(0, chunky.wire []), (1, post30.wire []), (2, get2.wire [])] ∧
    (run {} {} es).log.filter (fun a => a matches .body 0 _) = [.body 0 (some b!"14\r\nabcdefghijklmnopqrst\r\n0\r\n\r\n")] ∧
    (run {} {} es).log.filter (fun a => a matches .body 1 _) = [.body 1 none] :=
  ⟨[.data (chunky.wire []), .head 0, .data b!"14\r\nabcdefghijklmnopqrst\r\n0\r\n\r\n", .recv 0, .take 0, .emit 0 out1, .leave 0 true, .send, .send,
    .data (post30.wire []), .head 1, .recv 0, .take 1, .emit 1 out1, .leave 1 true, .send, .send, .data (get2.wire []), .head 2], by decide +kernel⟩

end Verif
