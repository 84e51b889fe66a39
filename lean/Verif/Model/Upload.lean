import Verif.Py.Bytes
/-!
# Model of `HTTPProtocol.put_to_queue` (tremolo/lib/http_protocol.py:138-180)
-/
namespace Verif.Model.Upload
open Verif.Py

/-- An entry of a connection queue: bytes, or the end marker `None` (lib/http_protocol.py:138-160). -/
abbrev Item := Option Bytes

/-- State of the piece-wise transfer loop.  `taken` are the items the consumer has removed so far, `queue` the items
still queued, `delay` the accumulated sleeping time in units of `1/rate` seconds. -/
structure Put where
  taken : List Item := []
  queue : List Item := []
  delay : Nat := 0
  aborted : Bool := false
deriving DecidableEq, Repr

/-- http_protocol.py:148-160, the loop `while mv and queue is not None`.  One iteration puts `mv[:buffer_size]`, aborts
when the queue is longer than `max_queue_size`, and otherwise sleeps
`1 / (rate / max(queue_size, 1) / nbytes)` seconds, i.e. `nbytes * max(queue_size, 1)` units of `1/rate`.
`sched` says how many items the consumer takes during each sleep.  Simplifications: exact instead of floating-point
arithmetic; the queue stays open (`queue is not None`); `fuel` bounds the number of iterations and is given as the length of the data
(enough when `buffer_size ≥ 1`, see `C14_pieces`). -/
def putLoop (bs maxq : Nat) : Nat → Bytes → List Nat → Put → Put
  | 0, _, _, r => r
  | fuel + 1, data, sched, r =>
    if data = [] then r else
    let q := r.queue ++ [some (data.take bs)]
    if q.length > maxq then { r with queue := q, aborted := true }
    else
      putLoop bs maxq fuel (data.drop bs) sched.tail
        { taken := r.taken ++ q.take (sched.headD 0)
          queue := q.drop (sched.headD 0)
          delay := r.delay + (data.take bs).length * max q.length 1
          aborted := false }

/-- The transfer part of `put_to_queue` (http_protocol.py:146-160). -/
def put (bs maxq : Nat) (data : Bytes) (sched : List Nat) (r : Put) : Put := putLoop bs maxq data.length data sched r

/-- The framing facts `put_to_queue` looks at: the Content-Length header (`none` if the header is absent) and
`client_max_body_size` (lib/http_protocol.py:162-180). -/
structure BodyCfg where
  contentLength : Option Nat
  maxBody : Nat

/-- Receive-side state of a request body: `items` is everything put into `queue[0]`, in order; `reading` is false while
the transport is paused for good; `closing` is true once the end marker was put into the send queue with keep-alive
switched off (http_protocol.py:176-178). -/
structure Up where
  bodySize : Nat := 0
  items : List Item := []
  reading : Bool := true
  closing : Bool := false
deriving DecidableEq, Repr

/-- The pieces `mv[:bs], mv[bs:2*bs], …` (http_protocol.py:146-160). -/
def piecesAux (bs : Nat) : Nat → Bytes → List Bytes
  | 0, _ => []
  | fuel + 1, data => if data = [] then [] else data.take bs :: piecesAux bs fuel (data.drop bs)
/-- The pieces into which `put_to_queue` cuts the data (lib/http_protocol.py:138-160). -/
def pieces (bs : Nat) (data : Bytes) : List Bytes := piecesAux bs data.length data

/-- http_protocol.py:162-180 after the pieces of one received segment were queued (no abort), for a request that is not
upgraded. -/
def account (c : BodyCfg) (n : Nat) (u : Up) : Up :=
  let u := { u with bodySize := u.bodySize + n }
  let done := match c.contentLength with | some l => decide (u.bodySize ≥ l) | none => false
  if done then { u with items := u.items ++ [none], reading := false }
  else if u.bodySize < c.maxBody then { u with reading := true }
  else { u with reading := false, closing := true }

/-- One segment handed to `put_to_queue` with buffer size `bs` (http_protocol.py:329-334 for the bytes that came with
the head, 356-364 for later segments). -/
def receive (c : BodyCfg) (bs : Nat) (seg : Bytes) (u : Up) : Up :=
  account c seg.length { u with items := u.items ++ (pieces bs seg).map some }

/-- Segments arrive one after the other; the transport delivers the next one only after `resume_reading()`
(http_protocol.py:174, 377, 393). `first` came with the head and uses the default buffer size of 16 KiB. -/
def receiveAll (c : BodyCfg) (bs : Nat) : List Bytes → Up → Up
  | [], u => u
  | seg :: r, u => if u.reading then receiveAll c bs r (receive c bs seg u) else u
/-- The bytes behind the head, then the segments that follow (lib/http_protocol.py:326-334, 356-364). -/
def upload (c : BodyCfg) (bs : Nat) (first : Bytes) (segs : List Bytes) : Up :=
  receiveAll c bs segs (receive c 16384 first {})

end Verif.Model.Upload
