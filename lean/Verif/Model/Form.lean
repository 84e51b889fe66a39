import Verif.Model.BodyStream
/-!
# Model of `HTTPRequest.form` (tremolo/lib/http_request.py:301-321) against the arrival of the body

Two tasks act: the one that puts the received segments into `queue[0]` (`put_to_queue`, http_protocol.py:138-180), piece by
piece, sleeping after each piece and counting the segment in `body_size` only behind its last piece; and the handler's, which
reads the stream. A schedule says who acts next. The content type is that of a form. Not modelled: `max_queue_size`, timeouts,
the client closing the connection, and what `parse_qs` makes of the text (`parsed b`: `parse_qs` is called with `b`).
-/
namespace Verif.Model.Form
open Verif.Py Verif.Model.Upload Verif.Model.BodyStream

/-- `cl`: `none` if there is no Content-Length. `chunked`: `b'chunked' in self.transfer_encoding`. `bs`: `buffer_size` (lib/http_request.py:301-313). -/
structure Cfg where
  limit : Nat := 8388608
  maxBody : Nat := 2097152
  bs : Nat := 16384
  cl : Option Nat := none
  chunked : Bool := false
deriving DecidableEq, Repr

/-- How a call of `form()` ends (lib/http_request.py:301-321). -/
inductive Res
  | parsed (b : Bytes)
  /-- `{}` -/
  | empty
  | valueError | badRequest | tooLarge
deriving DecidableEq, Repr

/-- `cur`: the segment that `put_to_queue` works at: pieces still to put, and its length. `segs`: the segments to come.
`stopped`: the transport is not resumed any more. `ch`: the state of the chunked stream. `body`: `self._body`. `res`: how
`form()` ended. `post`: `self.params['post']`, which is set to `{}` before anything is read (305). -/
structure St where
  cur : Option (List Bytes × Nat) := none
  segs : List Bytes := []
  stopped : Bool := false
  queue : List Item := []
  bodySize : Nat := 0
  ch : ChunkSt := {}
  consumed : Nat := 0
  body : Bytes := []
  res : Option Res := none
  post : Res := .empty
deriving DecidableEq, Repr

/-- The end of `put_to_queue` (162-180): the segment of length `n` is counted. -/
def count (c : Cfg) (n : Nat) (s : St) : St :=
  let size := s.bodySize + n
  let done := match c.cl with | some l => decide (size ≥ l) | none => false
  if done then { s with bodySize := size, cur := none, queue := s.queue ++ [none], stopped := true }
  else { s with bodySize := size, cur := none, stopped := s.stopped || decide (¬ size < c.maxBody) }

/-- `put_to_queue` goes on by one piece (148-160), or starts with the next segment. -/
def put (c : Cfg) (s : St) : St :=
  match s.cur with
  | some (d :: r, n) => { s with queue := s.queue ++ [some d], cur := some (r, n) }
  | some ([], n) => count c n s
  | none =>
    match s.segs with
    | [] => s
    | seg :: r => if s.stopped then s else { s with cur := some (pieces c.bs seg, seg.length), segs := r }

/-- The end of the loop: http_request.py:315-321. -/
def finish (c : Cfg) (s : St) : St :=
  let post := if 2 < s.bodySize ∧ s.bodySize ≤ c.limit then .parsed s.body else s.post
  { s with res := some post, post }

/-- The loop body of `form` (309-313) for the pieces that one pass of the stream yields (at most one). -/
def yielded (c : Cfg) (y : List Bytes) (s : St) : St :=
  let s := { s with body := s.body ++ y.flatten }
  if y ≠ [] ∧ s.bodySize > c.limit then { s with res := some .valueError } else s

/-- The chunked stream goes on (193-238). -/
def pass (c : Cfg) (s : St) : St :=
  let t := yielded c (chunkBody c.bs s.ch).1 s
  if t.res.isSome then t
  else match (chunkBody c.bs s.ch).2 with
    | .cont ch => { t with ch }
    | .break_ => finish c t
    | .bad => { t with res := some .badRequest }

/-- The task of the handler goes on, unless it has to wait (lib/http_request.py:169-252, 301-321). -/
def read (c : Cfg) (s : St) : St :=
  if s.res.isSome then s
  else if c.chunked then
    if s.ch.paused then pass c s
    else match s.queue with
      | some d :: q => pass c { s with queue := q, ch := { s.ch with buf := s.ch.buf ++ d } }
      | none :: _ => if contains CRLF2 s.ch.buf then pass c s else { s with res := some .badRequest }
      | [] => s
  else match s.queue with
    | some d :: q =>
      let n := s.consumed + d.length
      let data := match c.cl with | some l => (if l < n then sliceTo d ((l : Int) - n) else d) | none => d
      yielded c [data] { s with queue := q, consumed := n }
    | none :: _ => finish c s
    | [] => s

/-- Who acts next (lib/http_protocol.py:138-180, lib/http_request.py:301-321). -/
inductive Ev | put | read
deriving DecidableEq, Repr

/-- One event (lib/http_protocol.py:138-180, lib/http_request.py:301-321). -/
def step (c : Cfg) (s : St) : Ev → St
  | .put => put c s
  | .read => read c s

/-- Events in order (lib/http_protocol.py:138-180, lib/http_request.py:301-321). -/
def run (c : Cfg) (s : St) (es : List Ev) : St := es.foldl (step c) s

/-- The bytes that came with the head are put and counted before the handler starts (http_protocol.py:326-343), in pieces of
16 KiB. A body that is declared too long is refused when the stream starts (http_request.py:240-242). -/
def init (c : Cfg) (first : Bytes) (segs : List Bytes) : St :=
  let s := count c first.length { segs, queue := (pieces 16384 first).map some }
  match c.cl with
  | some l => if l > c.maxBody ∧ c.chunked = false then { s with res := some .tooLarge } else s
  | none => s

/-- A later call returns `self.params['post']` (302-303); nothing is known of it while the first call is running. -/
def again (s : St) : Option Res := if s.res.isSome then some s.post else none

end Verif.Model.Form
