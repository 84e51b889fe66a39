import Verif.Model.BodyStream
/-!
# Model of `ASGIServer.receive` for HTTP (tremolo/asgi_server.py:111-172)

`self._read` is a generator of `request.stream()` (asgi_server.py:48), here the pieces it yields and how it ends, computed from
the items that are put into `queue[0]` (`Verif.Model.BodyStream`). Not modelled: the `keepalive_timeout` of a read (the wait
ends with `http.disconnect`), the log lines, and the timer that cancels the application after a disconnect.
-/
namespace Verif.Model.AsgiReceive
open Verif.Py Verif.Model.Upload Verif.Model.BodyStream

/-- A message that `receive` returns (asgi_server.py:111-172). -/
inductive Msg
  | request (body : Bytes) (more : Bool)
  | disconnect
deriving DecidableEq, Repr

/-- The generator: each piece with the value of `body_consumed` when it is yielded, and how it ends (asgi_server.py:49, lib/http_request.py:169-252). -/
structure Src where
  pieces : List (Bytes × Nat)
  out : Out
deriving DecidableEq, Repr

/-- `body_consumed` after each piece (request.py:51). -/
def counts : Nat → List Bytes → List Nat
  | _, [] => []
  | c, d :: r => (c + d.length) :: counts (c + d.length) r

/-- `stream()` (http_request.py:169-252) of a request with `content_length = cl` (-1 if there is no such header).
For a chunked body, `cl = -1` (http_protocol.py:303-311) and `body_consumed` is compared with it only (asgi_server.py:163):
0 stands for it. -/
def source (bs maxBody : Nat) (cl : Int) (chunked : Bool) (items : List Item) : Src :=
  if chunked then ⟨(chunkStream bs items).1.map (·, 0), (chunkStream bs items).2⟩
  else ⟨(rawStream cl maxBody items).1.zip (counts 0 (recvPieces items).1), (rawStream cl maxBody items).2⟩

/-- `read`: `self._read is not None`; it is reset after the last message of the response (250). `lost`: `connection_lost` has
run (97-102), so that `self._scope is None`. `waiting`: a call of `receive` has not returned. -/
structure St where
  src : Src
  read : Bool := true
  lost : Bool := false
  waiting : Bool := false
deriving DecidableEq, Repr

/-- What a call of `receive` gives. `typeError`: `self._scope['type']` with `self._scope = None` (112). -/
inductive Res | msg (m : Msg) | typeError
deriving DecidableEq, Repr

/-- `receive` (155-172); a generator that has ended raises StopAsyncIteration, and `None.__anext__` AttributeError: both are
caught (166). -/
def receive (cl : Int) (s : St) : Option Res × St :=
  if s.lost then (some .typeError, s)
  else if !s.read then (some (.msg .disconnect), s)
  else match s.src.pieces with
    | (d, n) :: r =>
      (some (.msg (.request d ((decide (d ≠ []) && decide (cl = -1)) || decide ((n : Int) < cl)))),
        { s with src := { s.src with pieces := r } })
    | [] => if s.src.out = .blocked then (none, { s with waiting := true }) else (some (.msg .disconnect), { s with src := ⟨[], .done⟩ })

/-- What happens to the application: it calls `receive`, it sends the last message of its response, or the client goes (asgi_server.py:97-102, 111-172, 174-247). -/
inductive Ev | call | last | lose
deriving DecidableEq, Repr

/-- One event, and what a call of `receive` returns by it. When the client goes, `connection_lost` cancels the task; a generator
that waits raises TimeoutError then (request.py:43-44), which `receive` catches (166-172). An application that waits does not
call again. -/
def step (cl : Int) (s : St) : Ev → Option Res × St
  | .call => if s.waiting then (none, s) else receive cl s
  | .last => (none, { s with read := false })
  | .lose => (if s.waiting then some (.msg .disconnect) else none, { s with lost := true, waiting := false })

/-- The results of `receive` in a run (asgi_server.py:111-172). -/
def run (cl : Int) (s : St) : List Ev → List Res
  | [] => []
  | e :: es => (step cl s e).1.toList ++ run cl (step cl s e).2 es

end Verif.Model.AsgiReceive
