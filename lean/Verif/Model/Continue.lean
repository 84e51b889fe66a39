import Verif.Model.Response
/-!
# Model of requests expecting 100-continue: body reads, response calls and the send task

`HTTPRequest.stream` up to the first read (http_request.py:169-176, 224-228), `HTTPResponse.send_continue`
(http_response.py:176-186), `HTTPProtocol._send_data` (http_protocol.py:419-437) and `_handle_keepalive` (466-504) as far as
`http_continue` is concerned.
-/
namespace Verif.Model.Continue
open Verif.Py Verif.Model.Response

/-- What happens to the request: its handler starts a body read or calls the response API, or the send task takes the
next entry of `queue[1]`. Any order is possible: the handler and the send task are different tasks. -/
inductive Ev
  | read
  | call (c : Call)
  | deliver
deriving DecidableEq, Repr

/-- Things in the order they happen: an entry handed to the send task's queue, a body read that goes on to await the client's
data, a body read that raises, and an end marker taken by the send task on a connection that is kept (or not) (lib/http_response.py:176-186, lib/http_request.py:169-176, lib/http_protocol.py:419-437). -/
inductive Act
  | emit (e : Emit)
  | read
  | refused (e : Exc)
  | taken (kept : Bool)
deriving DecidableEq, Repr

/-- `st`: the response and request; `taken`: how many entries the send task has taken; `closed`: it closed the connection;
`ready`: it made the connection ready for the next request. The connection is assumed to be in `_connections` (lib/http_protocol.py:419-437, 466-504). -/
structure Conn where
  st : St
  taken : Nat := 0
  closed : Bool := false
  ready : Bool := false
  acts : List Act := []
deriving DecidableEq, Repr

/-- What the send task does with an entry: markers keep or close the connection (http_protocol.py:424-437). With keep-alive,
a request that still expects 100-continue is only marked as answered (478-479), otherwise the connection is made ready
for the next request (484-504). -/
def deliver (k : Conn) : Emit → Conn
  | .mark _ =>
    if k.st.keepalive then
      if k.st.cont then { k with st := { k.st with cont := false }, taken := k.taken + 1, acts := k.acts ++ [.taken true] }
      else { k with ready := true, taken := k.taken + 1, acts := k.acts ++ [.taken true] }
    else { k with closed := true, taken := k.taken + 1, acts := k.acts ++ [.taken false] }
  | _ => { k with taken := k.taken + 1 }

/-- The entries that a call added (lib/http_response.py:176-291). -/
def added (s s' : St) : List Act := (s'.log.drop s.log.length).map .emit

/-- A body read: `send_continue` first, then, unless chunked, the length is checked, then data is awaited. `chunked`:
`b'chunked' in self.transfer_encoding` (lib/http_request.py:169-176, 224-228). -/
def startRead (c : Cfg) (chunked : Bool) (k : Conn) : Conn :=
  match sendContinue c k.st with
  | (.ok _, s') =>
    if !chunked && decide (c.contentLength > (c.maxBody : Int)) then
      { k with st := s', acts := k.acts ++ added k.st s' ++ [.refused (.http 413 b!"Payload Too Large" htmlType)] }
    else { k with st := s', acts := k.acts ++ added k.st s' ++ [.read] }
  | (.error e, s') => { k with st := s', acts := k.acts ++ added k.st s' ++ [.refused e] }

/-- One event (lib/http_request.py:169-228, lib/http_protocol.py:419-437). -/
def step (c : Cfg) (chunked : Bool) (k : Conn) : Ev → Conn
  | .read => startRead c chunked k
  | .call x => { k with st := (x.run c k.st).2, acts := k.acts ++ added k.st (x.run c k.st).2 }
  | .deliver =>
    if k.closed || k.ready then k
    else match k.st.log[k.taken]? with
      | some e => deliver k e
      | none => k

/-- Events in order (lib/http_request.py:169-228, lib/http_protocol.py:419-437). -/
def run (c : Cfg) (chunked : Bool) (k : Conn) (evs : List Ev) : Conn := evs.foldl (step c chunked) k

end Verif.Model.Continue
