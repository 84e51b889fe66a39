import Verif.Model.BodyStream
/-!
# Model of the calls by which a handler reads its body

`tremolo/lib/http_request.py`: `body` (136-140), `read` (142-143), `eof` (145-146), `recv` (148-167), and the generators that `stream`
(169-252) makes, of which several may work on one queue. `Model/BodyStream.lean` has what one generator yields in all; here it is run step
by step, so that calls can be mixed. Simplifications: the queue holds all that will ever come, and waiting for more ends in the `TimeoutError`
of request.py:43-44; `http_continue` (173-174) is left out (C60); sizes below -1 are left out.
-/
namespace Verif.Model.ReadApi
open Verif.Py Verif.Model.Upload Verif.Model.BodyStream

/-- What a call raises; `stop` is StopAsyncIteration. `fuel` never happens (`C113_fuel`). -/
inductive Exc | stop | badRequest | tooLarge | timeout | fuel
deriving DecidableEq, Repr

/-- `chunked`: `b'chunked' in self.transfer_encoding`; `cl`: `content_length`; `bs`: the option `buffer_size` (lib/http_request.py:169-252). -/
structure Cfg where
  chunked : Bool := false
  cl : Int := -1
  maxBody : Nat := 2097152
  bs : Nat := 16384
deriving DecidableEq, Repr

/-- A generator `stream(raw)`. `started`: it was asked for a piece; `over`: it has returned or raised; `ended`: its `super().recv()` has;
`ch`: its variables `buf`, `paused`, `unread_bytes` (177-180). -/
structure Gen where
  raw : Bool := false
  started : Bool := false
  over : Bool := false
  ended : Bool := false
  ch : ChunkSt := {}
deriving DecidableEq, Repr

/-- `q`: `queue[0]`; `consumed`: `body_consumed`; then `_eof`, `_body`, `_read_buf`, `_read_instance`. -/
structure St where
  q : List Item := []
  consumed : Nat := 0
  eof : Bool := false
  body : Bytes := []
  buf : Bytes := []
  inst : Option Gen := none
deriving DecidableEq, Repr

/-- The next piece of `Request.recv` (request.py:30-52); `ok none`: there is none any more. -/
def inner (g : Gen) (s : St) : Except Exc (Option Bytes) × Gen × St :=
  if g.ended then (.ok none, g, s)
  else match s.q with
    | [] => (.error .timeout, { g with ended := true }, s)
    | none :: q => (.ok none, { g with ended := true }, { s with q })
    | some d :: q => (.ok (some d), g, { s with q, consumed := s.consumed + d.length })

/-- http_request.py:183-191. -/
def fill (g : Gen) (s : St) : Except Exc Unit × Gen × St :=
  if g.ch.paused then (.ok (), g, s)
  else match inner g s with
    | (.error e, g, s) => (.error e, g, s)
    | (.ok (some d), g, s) => (.ok (), { g with ch := { g.ch with buf := g.ch.buf ++ d } }, s)
    | (.ok none, g, s) => (if contains CRLF2 g.ch.buf then .ok () else .error .badRequest, g, s)

/-- The chunked branch (182-238) up to its next `yield`. -/
def nextChunk (c : Cfg) : Nat → Gen → St → Except Exc Bytes × Gen × St
  | 0, g, s => (.error .fuel, g, s)
  | fuel + 1, g, s =>
    match fill g s with
    | (.error e, g, s) => (.error e, { g with over := true }, s)
    | (.ok _, g, s) =>
      match chunkBody c.bs g.ch with
      | (y :: _, .cont ch) => (.ok y, { g with ch }, s)
      | ([], .cont ch) => nextChunk c fuel { g with ch } s
      | (_, .break_) => (.error .stop, { g with over := true }, { s with eof := true })
      | (_, .bad) => (.error .badRequest, { g with over := true }, s)

/-- The other branch (239-250), behind its check, up to its next `yield`. -/
def nextRaw (c : Cfg) (g : Gen) (s : St) : Except Exc Bytes × Gen × St :=
  match inner g s with
  | (.error e, g, s) => (.error e, { g with over := true }, s)
  | (.ok none, g, s) => (.error .stop, { g with over := true }, { s with eof := true })
  | (.ok (some d), g, s) => (.ok (if -1 < c.cl ∧ c.cl < s.consumed then sliceTo d (c.cl - s.consumed) else d), g, s)

/-- More passes than a generator can make (lib/http_request.py:169-252). -/
def bound (g : Gen) (s : St) : Nat := (s.q.map (fun x => 2 * (x.getD []).length + 2)).sum + 2 * g.ch.buf.length + 3

/-- `__anext__` of a generator `stream(raw)` (169-252). -/
def next (c : Cfg) (g : Gen) (s : St) : Except Exc Bytes × Gen × St :=
  if g.over then (.error .stop, g, s)
  else if !g.started && s.eof then (.error .stop, { g with started := true, over := true }, s)
  else if !g.raw && c.chunked then nextChunk c (bound g s) { g with started := true } s
  else if !g.started && decide (c.cl > c.maxBody) then (.error .tooLarge, { g with started := true, over := true }, s)
  else nextRaw c { g with started := true } s

/-- The loop of `body()` (137-138): the generator is run to its end. -/
def drive (c : Cfg) : Nat → Gen → St → Except Exc Unit × St
  | 0, _, s => (.error .fuel, s)
  | fuel + 1, g, s =>
    match next c g s with
    | (.ok d, g, s) => drive c fuel g { s with body := s.body ++ d }
    | (.error .stop, _, s) => (.ok (), s)
    | (.error e, _, s) => (.error e, s)

/-- The loop of `recv(size)` (159-163). -/
def gather (c : Cfg) (size : Nat) : Nat → Gen → St → Except Exc Unit × St
  | 0, g, s => (.error .fuel, { s with inst := some g })
  | fuel + 1, g, s =>
    match next c g s with
    | (.ok d, g, s) =>
      let s := { s with buf := s.buf ++ d }
      if s.buf.length ≥ size then (.ok (), { s with inst := some g }) else gather c size fuel g s
    | (.error .stop, g, s) => (.ok (), { s with inst := some g })
    | (.error e, g, s) => (.error e, { s with inst := some g })

/-- `recv(size, raw)`: `some n` or `none` for -1; `read` is `recv` with `raw = False`. -/
inductive Call
  | recv (size : Option Nat) (raw : Bool)
  | body (raw : Bool)
deriving DecidableEq, Repr

/-- `eof()` (145-146). -/
def St.isEof (s : St) : Bool := s.eof && s.buf == []

/-- One call: what it returns or raises (lib/http_request.py:136-167). -/
def call (c : Cfg) (s : St) : Call → Except Exc Bytes × St
  | .body raw =>
    match drive c (bound {} s) { raw } s with
    | (.ok _, s) => (.ok s.body, s)
    | (.error e, s) => (.error e, s)
  | .recv (some 0) _ => (.ok [], s)
  | .recv size raw =>
    if s.isEof then (.ok [], s)
    else
      let g := s.inst.getD { raw }
      match size with
      | none => let (r, g, s) := next c g s; (r, { s with inst := some g })
      | some n =>
        match (if s.buf.length < n then gather c n (bound g s) g s else (.ok (), { s with inst := some g })) with
        | (.error e, s) => (.error e, s)
        | (.ok _, s) => (.ok (s.buf.take n), { s with buf := s.buf.drop n })

/-- A handler's calls one after the other, whatever they return or raise (lib/http_request.py:136-167). -/
def calls (c : Cfg) : St → List Call → List (Except Exc Bytes) × St
  | s, [] => ([], s)
  | s, k :: ks => let (r, s) := call c s k; let (rs, s) := calls c s ks; (r :: rs, s)

end Verif.Model.ReadApi
