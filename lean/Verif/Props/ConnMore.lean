import Verif.Props.Conn
/-!
# C15, C16, C51: what one connection can get wrong
-/
namespace Verif
open Verif.Py Verif.Model.Conn Conn

/-- Two requests one after the other, the second with `Connection: close`. -/
def twoRequests : List Ev :=
  [.data b!"GET / HTTP/1.1\r\n\r\n", .head 0, .emit 0 b!"one", .leave 0 true, .send, .send,
   .data b!"GET /x HTTP/1.1\r\nConn", .data b!"ection: close\r\n\r\n", .head 1, .emit 1 b!"two", .leave 1 true]

/-- The hypotheses of `C52_close` and `C51_partial` hold for it. -/
example : Polite twoRequests ∧ (run {} {} twoRequests).tooLarge = false ∧ (run {} {} twoRequests).sendDone = false ∧
    (run {} {} twoRequests).q1 = [some b!"two", none] ∧ (run {} {} twoRequests).cur = some 1 ∧
    ((run {} {} twoRequests).reqs[1]?).map (·.req.httpKeepalive) = some false ∧ (run {} {} (twoRequests ++ [.send])).written = [b!"one", b!"two"] := by
  refine ⟨?_, ?_⟩
  · intro k keep; simp [twoRequests]
  · decide +kernel

/-- The hypotheses of `C51_locked` hold for it. -/
example : (run {} {} (twoRequests.take 2)).hb = none ∧
    (run {} {} (twoRequests.take 2 ++ [.emit 0 b!"one"])).sent.countP Option.isNone = (run {} {} (twoRequests.take 2)).sent.countP Option.isNone := by
  decide +kernel

/-- **C51 is false** for a handler that goes on after completing its response (`await response.end(...)` and then something
else): the next request's handler runs beside it. -/
theorem C51_refuted_two :
    (run {} {} [.data b!"GET / HTTP/1.1\r\n\r\n", .head 0, .emit 0 b!"one", .mark 0 true, .send, .send, .data b!"GET /x HTTP/1.1\r\n\r\n", .head 1]).running =
      [0, 1] := by decide +kernel

/-- **C51 is false**: a head that is no request gets no response, and the next head is looked for all the same, because the
previous request's keep-alive flag is used. -/
theorem C51_refuted_silent :
    let s := run {} {} [.data b!"GET / HTTP/1.1\r\n\r\n", .head 0, .emit 0 b!"one", .leave 0 true, .send, .send, .data b!"nonsense\r\n\r\n", .head 1,
      .send, .data b!"GET /x HTTP/1.1\r\n\r\n", .head 2]
    s.written = [b!"one"] ∧ s.q1 = [] ∧ s.started = [(0, b!"GET / HTTP/1.1\r\n\r\n"), (1, b!"GET /x HTTP/1.1\r\n\r\n")] := by decide +kernel

/-- **C51 is false** without `tooLarge = false`: a segment that was still being queued when the request ended is counted
after the reset against the old request; found too large, its end marker is taken as the end of the next request. -/
theorem C51_refuted_limit :
    let c : Cfg := { maxBody := 10 }
    (run c {} [.data b!"GET / HTTP/1.1\r\n\r\nG", .head 0, .head 0, .data b!"ET /x HTTP/1.1\r\n\r\n", .recv 0, .leave 0 true, .send, .recv 0,
      .head 1, .send, .data b!"GET /y HTTP/1.1\r\n\r\n", .head 2]).running = [1, 2] := by decide +kernel

/-- **C15 is false**: a body that a handler did not read is what the next request's handler reads, in place of its own. -/
theorem C15_refuted_body :
    (run {} {} [.data b!"POST / HTTP/1.1\r\nContent-Length: 5\r\n\r\nhello", .head 0, .head 0, .leave 0 true, .send,
      .data b!"POST /x HTTP/1.1\r\nContent-Length: 3\r\n\r\nbye", .head 1, .head 1, .take 1, .take 1]).took =
      [(1, some b!"hello"), (1, none)] := by decide +kernel

/-- **C15 is false**: the unread body of one request can be handled as a request of its own, once a request without a body
has followed. -/
theorem C15_refuted_head :
    (run {} {} [.data b!"POST / HTTP/1.1\r\nContent-Length: 23\r\n\r\nGET /admin HTTP/1.1\r\n\r\n", .head 0, .head 0, .leave 0 true, .send,
      .data b!"GET /x HTTP/1.1\r\n\r\n", .head 1, .leave 1 true, .send, .head 2]).started =
      [(0, b!"POST / HTTP/1.1\r\nContent-Length: 23\r\n\r\n"), (1, b!"GET /x HTTP/1.1\r\n\r\n"), (2, b!"GET /admin HTTP/1.1\r\n\r\n")] := by
  decide +kernel

/-- Five requests in two segments; the second one is longer than a piece. -/
def fiveRequests : List Ev :=
  [.data b!"GET /1 HTTP/1.1\r\n\r\nGET /2 HTTP/1.1\r\n\r\n", .head 0, .head 0,
   .data b!"GET /3 HTTP/1.1\r\n\r\nGET /4 HTTP/1.1\r\n\r\nGET /5 HTTP/1.1\r\n\r\n", .recv 0, .leave 0 true, .send, .recv 0, .head 1, .recv 1,
   .leave 1 true, .send, .head 2, .head 2]

/-- **C16 is false**: a handler that ends while a later segment is still being queued gets the pieces of that segment
reordered, and what is handled next is not a request that was sent. -/
theorem C16_refuted :
    (run { bufferSize := 20 } {} fiveRequests).started =
      [(0, b!"GET /1 HTTP/1.1\r\n\r\n"), (1, b!"GET /2 HTTP/1.1\r\n\r\n"), (2, b!"ET /4 HTTP/1.1\r\n\r\n")] := by
  decide +kernel

end Verif
