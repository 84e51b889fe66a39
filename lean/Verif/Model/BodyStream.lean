import Verif.Py.Bytes
import Verif.Model.Upload
/-!
# Model of the request body stream

`tremolo/lib/request.py` (`Request.recv`) and `tremolo/lib/http_request.py` (`stream`, `recv`, `read`, `eof`, `body`,
`form`).  A generator is modelled by the list of pieces it yields together with how it ends.
-/
namespace Verif.Model.BodyStream
open Verif.Py Verif.Model.Upload

/-- How a generator ends: normally, with an exception, or still waiting for input (`blocked`; in reality until
`keepalive_timeout`, which raises TimeoutError).  `fuel` never happens (`C10_terminates`). -/
inductive Out | done | badRequest | tooLarge | blocked | fuel
deriving DecidableEq, Repr

/-- `Request.recv` (request.py:30-52) on the items that have been or will be put into `queue[0]`: pieces up to the
first end marker, and whether that marker was reached. Simplification: timeouts are not modelled. -/
def recvPieces : List Item → List Bytes × Bool
  | [] => ([], false)
  | none :: _ => ([], true)
  | some d :: r => let (p, e) := recvPieces r; (d :: p, e)

/-! ### Content-Length / raw branch (http_request.py:239-250) -/

/-- The loop over `super().recv()`; `consumed` is `body_consumed` before this piece, `cl` the content length (`-1` if
absent).  `data[:cl - consumed']` is a Python slice with a negative bound when too much was received. -/
def rawLoop (cl : Int) : Nat → List Bytes → List Bytes
  | _, [] => []
  | consumed, d :: r =>
    let c := consumed + d.length
    (if -1 < cl ∧ cl < c then sliceTo d (cl - c) else d) :: rawLoop cl c r

/-- `stream()` when the body is not chunked, from `body_consumed = 0`. -/
def rawStream (cl : Int) (maxBody : Nat) (items : List Item) : List Bytes × Out :=
  if cl > maxBody then ([], .tooLarge)
  else
    let (p, e) := recvPieces items
    (rawLoop cl 0 p, if e then .done else .blocked)

/-! ### Chunked branch (http_request.py:176-238) -/

/-- The variables of the loop for a chunked body (lib/http_request.py:176-182). -/
structure ChunkSt where
  buf : Bytes := []
  paused : Bool := false
  unread : Nat := 0
deriving DecidableEq, Repr

/-- Result of one pass through the loop body after the read (lib/http_request.py:183-222). -/
inductive Ctl
  | cont (s : ChunkSt)
  | break_
  | bad
deriving DecidableEq, Repr

/-- The chunk size of a size line (http_request.py:219-223); `none` models the ValueError. -/
def chunkSize (line : Bytes) : Option Nat := intHex0x ((splitByte 59 1 line).headD [])

/-- http_request.py:193-238, one pass: the yielded piece (if any) and what happens next. `bs` is the `buffer_size`
option. -/
def chunkBody (bs : Nat) (s : ChunkSt) : List Bytes × Ctl :=
  if s.unread > 0 then
    let data := s.buf.take s.unread
    let buf := s.buf.drop s.unread
    let unread := s.unread - data.length
    if unread > 0 then ([data], .cont { s with buf, unread })
    else ([data], .cont { buf := buf.drop 2, paused := true, unread })
  else
    match find CRLF s.buf with
    | none => if s.buf.length > bs * 4 then ([], .bad) else ([], .cont { s with paused := false })
    | some i =>
      match chunkSize (s.buf.take i) with
      | none => ([], .bad)
      | some size =>
        if size < 1 then ([], .break_)
        else
          let data := (s.buf.drop (i + 2)).take size
          let unread := size - data.length
          if unread > 0 then ([data], .cont { buf := [], paused := false, unread })
          else ([data], .cont { buf := s.buf.drop (size + i + 4), paused := true, unread })

/-- http_request.py:183-191: read the next piece unless paused. `pieces` are the pieces still to come from
`super().recv()`, `ended` whether the end marker follows them.  At the end of input without a blank line in the buffer:
BadRequest. -/
def fetch (ended : Bool) (s : ChunkSt) (pieces : List Bytes) : Except Out (ChunkSt × List Bytes) :=
  if s.paused then .ok (s, pieces)
  else match pieces with
    | d :: r => .ok ({ s with buf := s.buf ++ d }, r)
    | [] => if ended then (if contains CRLF2 s.buf then .ok (s, []) else .error .badRequest) else .error .blocked

/-- The loop (http_request.py:182-238). -/
def chunkLoop (bs : Nat) (ended : Bool) : Nat → ChunkSt → List Bytes → List Bytes × Out
  | 0, _, _ => ([], .fuel)
  | fuel + 1, s, pieces =>
    match fetch ended s pieces with
    | .error o => ([], o)
    | .ok (s, rest) =>
      match chunkBody bs s with
      | (y, .cont s') => (y ++ (chunkLoop bs ended fuel s' rest).1, (chunkLoop bs ended fuel s' rest).2)
      | (y, .break_) => (y, .done)
      | (y, .bad) => (y, .badRequest)

/-- An upper bound for the number of passes (lib/http_request.py:183-222). -/
def chunkFuel (s : ChunkSt) (pieces : List Bytes) : Nat :=
  (pieces.map (fun d => 2 * d.length + 2)).sum + 2 * s.buf.length + (if s.paused then 1 else 0) + 1

/-- `stream()` for a chunked body (lib/http_request.py:176-222). -/
def chunkStream (bs : Nat) (items : List Item) : List Bytes × Out :=
  let (p, e) := recvPieces items
  chunkLoop bs e (chunkFuel {} p) {} p

/-! ### Sized reads (http_request.py:148-167) -/

/-- A running generator: the pieces it will still yield and how it then ends (lib/http_request.py:169-252). -/
structure Gen where
  pieces : List Bytes
  out : Out
deriving DecidableEq, Repr

/-- The variables that `recv` and `files` work on: the generator, `_read_buf`, `_eof` (lib/http_request.py:142-167). -/
structure Reader where
  gen : Gen
  buf : Bytes := []
  eof : Bool := false
deriving DecidableEq, Repr

/-- `eof()` (http_request.py:145-146). -/
def Reader.isEof (r : Reader) : Bool := r.eof && r.buf == []

/-- The `async for` loop of a sized read (http_request.py:159-163): pull pieces until `size` bytes are buffered.
Exhausting a generator that ends normally sets `_eof` (line 252); otherwise its exception propagates. -/
def pull (size : Nat) (o : Out) : List Bytes → Bytes → Bool → Except Out Reader
  | [], buf, _ => if o = .done then .ok ⟨⟨[], .done⟩, buf, true⟩ else .error o
  | d :: r, buf, e =>
    if (buf ++ d).length ≥ size then .ok ⟨⟨r, o⟩, buf ++ d, e⟩ else pull size o r (buf ++ d) e

/-- `recv(size)` / `read(size)` for `size ≥ 0` (http_request.py:148-167). -/
def recvSized (size : Nat) (r : Reader) : Except Out (Bytes × Reader) :=
  if size = 0 ∨ r.isEof then .ok ([], r)
  else
    match (if r.buf.length < size then pull size r.gen.out r.gen.pieces r.buf r.eof else .ok r) with
    | .error o => .error o
    | .ok r => .ok (r.buf.take size, { r with buf := r.buf.drop size })

/-- `recv(-1)` (http_request.py:155-156): the next piece of the generator; `.error .done` models StopAsyncIteration. -/
def recvPiece (r : Reader) : Except Out (Bytes × Reader) :=
  if r.isEof then .ok ([], r)
  else match r.gen with
    | ⟨[], o⟩ => .error o
    | ⟨d :: p, o⟩ => .ok (d, { r with gen := ⟨p, o⟩ })

/-- `body()` (http_request.py:136-140), on the accumulated `_body`: a fresh `stream()` is run to its end; it yields
nothing when `_eof` is already set (line 170). Pieces received before an exception stay in `_body`. -/
structure BodySt where
  eof : Bool := false
  body : Bytes := []
deriving DecidableEq, Repr
/-- A call of `body()` (lib/http_request.py:136-140). -/
def bodyCall (stream : List Bytes × Out) (s : BodySt) : Except Out Bytes × BodySt :=
  if s.eof then (.ok s.body, s)
  else match stream with
    | (p, .done) => (.ok (s.body ++ p.flatten), ⟨true, s.body ++ p.flatten⟩)
    | (p, o) => (.error o, ⟨false, s.body ++ p.flatten⟩)

end Verif.Model.BodyStream
