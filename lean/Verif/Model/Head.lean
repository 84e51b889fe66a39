import Verif.Model.HttpParser
/-!
# Model of the head phase of `tremolo/lib/http_protocol.py` and of `HTTPRequest.__init__`

`data_received` while a head is being collected (http_protocol.py:366-391), and the decisions of `_handle_request`
between parsing the head and starting the handler (267-322, 353-354).
-/
namespace Verif.Model.Head
open Verif.Py Verif.Model.HttpParser

/-! ## Collecting the head -/

/-- What one call of `data_received` does (lib/http_protocol.py:366-404). -/
inductive Out
  /-- nothing yet (head incomplete) -/
  | wait
  /-- `create_task(self._handle_request(self._header_buf, header_size))` (lines 374-382) -/
  | start (data : Bytes) (headerSize : Nat)
  /-- `self.abort()` (lines 383-389) -/
  | abort
  /-- the head was already handed over: the data goes to `_receive_data` (lines 393-404) -/
  | body (data : Bytes)
deriving DecidableEq, Repr

/-- `data_received` (http_protocol.py:366-404): `hb` is `_header_buf` (`none` = `None`), `max` is
`client_max_header_size`. `header_size` is `find(...) + 2`, so 1 stands for "not found". -/
def dataReceived (max : Nat) (hb : Option Bytes) (data : Bytes) : Option Bytes × Out :=
  if data = [] then (hb, .wait)
  else match hb with
    | none => (none, .body data)
    | some buf =>
      let buf := buf ++ data
      let headerSize := match find CRLF2 buf with
        | some n => n + 2
        | none => 1
      if 1 < headerSize ∧ headerSize ≤ max then (none, .start buf headerSize)
      else if headerSize > max then (some buf, .abort)
      else if ¬ (headerSize = 1 ∧ buf.length ≤ max) then (some buf, .abort)
      else (some buf, .wait)

/-- A connection receiving segments: `_header_buf`, whether the transport was aborted, and what each call did.
asyncio does not deliver data to an aborted transport (`_force_close` removes the reader) (lib/http_protocol.py:366-404). -/
structure Conn where
  hb : Option Bytes := some []
  aborted : Bool := false
  outs : List Out := []
deriving DecidableEq, Repr

/-- One segment arrives (lib/http_protocol.py:366-404). -/
def recv (max : Nat) (c : Conn) (seg : Bytes) : Conn :=
  if c.aborted then c
  else
    let (hb, o) := dataReceived max c.hb seg
    { hb := hb, aborted := o == .abort, outs := c.outs ++ [o] }

/-- A fresh connection (or one reset by `_handle_keepalive`, line 488) receiving segments. -/
def recvAll (max : Nat) (segs : List Bytes) : Conn := segs.foldl (recv max) {}

/-! ## From the parsed head to the handler -/

/-- Why `_handle_request` does not start the handler (lib/http_protocol.py:267-322). -/
inductive Refusal
  /-- `not header.is_request` (lines 272-277): the end marker is queued, no response is produced -/
  | notRequest
  /-- `HTTPRequest(self, header)` (line 279) raises AttributeError outside the `try`: the task dies -/
  | ctorError
  /-- `raise BadRequest` -/
  | badRequest
  /-- any other exception inside the `try`: ValueError of `int`, TypeError or AttributeError on a list value -/
  | valueError
  | typeError
  | attributeError
deriving DecidableEq, Repr

/-- Status of the response `handle_exception` produces (lines 228-239): an HTTPException keeps its own code (400 for
BadRequest), anything else becomes 500. The two refusals outside the `try` produce no response. -/
def Refusal.status : Refusal → Option Nat
  | .notRequest => none
  | .ctorError => none
  | .badRequest => some 400
  | .valueError => some 500
  | .typeError => some 500
  | .attributeError => some 500

/-- The attributes of `HTTPRequest` that the head determines (http_request.py:36-71). `content_type` may be a list. -/
structure Req where
  method : Bytes
  url : Bytes
  path : Bytes
  query : Bytes
  host : Option Bytes
  version : Bytes
  valid : Bool
  headers : HDict
  contentLength : Int := -1
  contentType : HVal := .one b!"application/octet-stream"
  transferEncoding : Bytes := b!"none"
  httpContinue : Bool := false
  httpKeepalive : Bool := false
deriving DecidableEq, Repr

/-- `self.host` (http_request.py:47-50): the first element of a list. -/
def hostOf : Option HVal → Option Bytes
  | some (.one b) => some b
  | some (.many bs) => bs.head?
  | _ => none

/-- `HTTPRequest.__init__` (http_request.py:36-71). `none` models the AttributeError of `.upper()` / `.partition()` on a
list (a client sent a field named `_method` or `_url`). -/
def initReq (p : Parsed) : Option Req :=
  match getmethod p, geturl p with
  | some (.one m), some (.one u) =>
    let (path, _, query) := partition1 63 u
    some { method := upper m, url := u, path := path, query := query, host := hostOf (gethost p)
           version := if getversion p = some (.one b!"1.0") then b!"1.0" else b!"1.1"
           valid := p.validReq, headers := p.headers }
  | _, _ => none

/-- `has_body` (http_request.py:127-129). -/
def Req.hasBody (r : Req) : Bool := hmem r.headers b!"content-length" || hmem r.headers b!"transfer-encoding"

/-- http_protocol.py:283-289: keep-alive. -/
def setKeepalive (r : Req) : Except Refusal Req :=
  match hget r.headers b!"connection" with
  | some (.one v) =>
    if contains b!",close," (b!"," ++ lower (replace1 32 [] v) ++ b!",") then .ok r
    else .ok { r with httpKeepalive := true }
  | some _ => .error .attributeError          -- list has no `replace`
  | none => .ok (if r.version = b!"1.1" then { r with httpKeepalive := true } else r)

/-- http_protocol.py:293-295. -/
def setContentType (r : Req) : Req :=
  match hget r.headers b!"content-type" with
  | some v => { r with contentType := v }
  | none => r

/-- http_protocol.py:297-301. -/
def setTransferEncoding (r : Req) : Except Refusal Req :=
  match hget r.headers b!"transfer-encoding" with
  | none => .ok r
  | some v =>
    if r.version = b!"1.0" then .error .badRequest
    else match v with
      | .one t => .ok { r with transferEncoding := lower t }
      | _ => .error .attributeError

/-- http_protocol.py:303-313. CPython's 4300-digit limit of `int` is not modelled. -/
def setContentLength (r : Req) : Except Refusal Req :=
  match hget r.headers b!"content-length" with
  | some (.one v) =>
    match intDec (b!"+" ++ v) with
    | none => .error .valueError
    | some n =>
      if fmtInt n ≠ v ∨ contains b!"chunked" r.transferEncoding = true then .error .badRequest
      else .ok { r with contentLength := n }
  | some _ => .error .typeError               -- bytes + list
  | none => if r.version = b!"1.0" then .error .badRequest else .ok r

/-- http_protocol.py:315-320. -/
def setContinue (r : Req) : Except Refusal Req :=
  match hget r.headers b!"expect" with
  | some (.one v) => .ok (if lower v = b!"100-continue" then { r with httpContinue := true } else r)
  | some _ => .error .attributeError
  | none => .ok r

/-- `_handle_request` up to the point where the handler is started (http_protocol.py:267-322). -/
def accept (p : Parsed) : Except Refusal Req :=
  if !p.isRequest then .error .notRequest
  else match initReq p with
    | none => .error .ctorError
    | some r => do
      let r ← setKeepalive r
      if r.hasBody then
        let r ← setTransferEncoding (setContentType r)
        let r ← setContentLength r
        setContinue r
      else .ok r

/-- The call in `_handle_request` (lines 268-270). -/
def acceptData (data : Bytes) (headerSize : Nat) : Except Refusal Req := accept (parse data headerSize [b!"proxy"])

end Verif.Model.Head
