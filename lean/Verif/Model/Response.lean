import Verif.Model.Upload
import Verif.Py.Dict
import Verif.Py.Util
/-!
# Model of `tremolo/lib/response.py`, `tremolo/lib/http_response.py` (without `sendfile`) and of the response flow of
`tremolo/http_server.py` and `HTTPProtocol.handle_exception`
-/
namespace Verif.Model.Response
open Verif.Py Verif.Py.Dict Verif.Model.Upload

/-! ## `Response.send` / `close`: coalescing (response.py) -/

/-- Keyword arguments of `Response.send` that matter for the bytes (response.py:18-25). -/
structure SendOpts where
  throttle : Bool := true
  bufferSize : Nat := 16384
  bufferMin : Option Nat := none
deriving DecidableEq, Repr

/-- `buffer_min_size is not None and len(self._send_buf) < buffer_min_size` (response.py:33-34). -/
def SendOpts.holds (o : SendOpts) (n : Nat) : Bool :=
  match o.bufferMin with
  | some m => decide (n < m)
  | none => false

/-- `set_watermarks(high=buffer_size * 4, low=kwargs.get('buffer_min_size', buffer_size // 2))` (http_response.py:275-278) does not raise
ValueError: asyncio wants `high >= low` (and takes a quarter of `high` for None). -/
def SendOpts.marks (o : SendOpts) : Bool :=
  match o.bufferMin with
  | some m => decide (m ≤ o.bufferSize * 4)
  | none => true

/-- A call of `Response.send(data)` or `Response.close()` (`send(None)` is `close()`, lines 26-28). -/
inductive SendOp
  | send (data : Bytes) (o : SendOpts)
  | close
deriving DecidableEq, Repr

/-- `_send_buf` and everything put into `queue[1]`, in order. -/
structure Out where
  buf : Bytes := []
  queue : List Item := []
deriving DecidableEq, Repr

/-- `Response.send` and `Response.close` (response.py:11-52). Simplification: the queue never exceeds `max_queue_size`
(otherwise `put_to_queue` aborts the connection); calls are not interleaved. -/
def sendStep (s : Out) : SendOp → Out
  | .close =>
    let s := if s.buf ≠ [] then { buf := [], queue := s.queue ++ [some s.buf] } else s
    { s with queue := s.queue ++ [none] }
  | .send data o =>
    if o.holds s.buf.length then { s with buf := s.buf ++ data }
    else if o.throttle then { buf := [], queue := s.queue ++ (pieces o.bufferSize (s.buf ++ data)).map some }
    else { buf := [], queue := s.queue ++ [some (s.buf ++ data)] }

/-- Calls in order (lib/response.py:11-56). -/
def sendAll (ops : List SendOp) : Out := ops.foldl sendStep {}

/-! ## `HTTPResponse` -/

/-- Exceptions that reach `handle_exception` (http_protocol.py:204-265). `http` is an HTTPException with its code, its
message and content type (already encoded); `wsServer` is WebSocketServerClosed with its code, `ws` any other
WebSocketException. -/
inductive Exc
  | http (code : Int) (message ctype : Bytes)
  | timeout
  | wsServer (code : Nat)
  | ws
  | other
deriving DecidableEq, Repr

/-- The content type of an HTTPException (lib/http_exceptions.py:17-20). -/
abbrev htmlType : Bytes := b!"text/html; charset=utf-8"
/-- `InternalServerError` and `ExpectationFailed` (http_exceptions.py:17-20, 90-110). -/
abbrev ise : Exc := .http 500 b!"Internal Server Error" htmlType
/-- ExpectationFailed (lib/http_exceptions.py:90-110). -/
abbrev expectationFailed : Exc := .http 417 b!"Expectation Failed" htmlType

/-- What a response method hands to `Response.send`, by the place in the code it comes from (lib/http_response.py:169-291, lib/response.py:11-56). -/
inductive Emit
  /-- a response head, and for `end` the body behind it -/
  | head (text body : Bytes) (o : SendOpts)
  /-- body bytes as passed to `send` (chunk framing included) -/
  | body (b : Bytes) (o : SendOpts)
  /-- the interim response of `send_continue` -/
  | cont (b : Bytes)
  /-- a WebSocket close frame (`handle_exception`, http_protocol.py:218-222) -/
  | frame (b : Bytes)
  /-- the end marker `None`; `request.http_keepalive` at that time is recorded -/
  | mark (keepalive : Bool)
deriving DecidableEq, Repr

/-- The call of `Response.send` / `close` behind an entry (lib/response.py:11-56). -/
def Emit.op : Emit → SendOp
  | .head t b o => .send (t ++ b) o
  | .body b o => .send b o
  | .cont b => .send b { throttle := false }
  | .frame b => .send b {}
  | .mark _ => .close

/-- Facts about the request and the server that the response methods read (lib/http_response.py:25-40). -/
structure Cfg where
  version : Bytes := b!"1.1"
  method : Bytes := b!"GET"
  contentLength : Int := -1
  maxBody : Nat := 0
  date : Bytes := []
  server : Bytes := []
deriving DecidableEq, Repr

/-- `_headers` (`none` once sent), `http_chunked`, the stacks `_status` and `_content_type` (top first), the request
attributes `http_keepalive`, `upgraded`, `http_continue`, the log of emissions, and whether the transport was aborted (lib/http_response.py:25-40, lib/http_request.py:36-72). -/
structure St where
  headers : Option (Dict Bytes (List Bytes)) := some []
  chunked : Bool := false
  status : List (Int × Bytes) := []
  ctype : List Bytes := []
  keepalive : Bool := false
  upgraded : Bool := false
  cont : Bool := false
  log : List Emit := []
  aborted : Bool := false
deriving DecidableEq, Repr

/-- A method: new state, and a result or an exception (state changes made before the exception persist) (lib/http_response.py:42-291). -/
def M (α : Type) := St → Except Exc α × St

instance : Monad M where
  pure a := fun s => (.ok a, s)
  bind m f := fun s => match m s with
    | (.ok a, s') => f a s'
    | (.error e, s') => (.error e, s')

/-- `raise` (lib/http_response.py:45). -/
def raise {α : Type} (e : Exc) : M α := fun s => (.error e, s)
/-- Reads the attributes (lib/http_response.py:25-40). -/
def get : M St := fun s => (.ok s, s)
/-- Writes attributes (lib/http_response.py:25-40). -/
def modify (f : St → St) : M Unit := fun s => (.ok (), f s)
/-- `if b: m` (lib/http_response.py:42-291). -/
def when (b : Bool) (m : M Unit) : M Unit := if b then m else pure ()
/-- An entry for `Response.send` (lib/response.py:18-56). -/
def emit (e : Emit) : M Unit := modify (fun s => { s with log := s.log ++ [e] })

/-- Key of the status line (lib/http_response.py:79-80). -/
abbrev kLine : Bytes := b!"_line"
/-- Key of Content-Type (lib/http_response.py:188-291). -/
abbrev kCT : Bytes := b!"content-type"
/-- Key of Content-Length (lib/http_response.py:188-291). -/
abbrev kCL : Bytes := b!"content-length"
/-- Key of Transfer-Encoding (lib/http_response.py:188-291). -/
abbrev kTE : Bytes := b!"transfer-encoding"
/-- Key of Connection (lib/http_response.py:188-291). -/
abbrev kConn : Bytes := b!"connection"

/-- `headers` property (http_response.py:42-47). -/
def headers : M (Dict Bytes (List Bytes)) := fun s =>
  match s.headers with
  | some h => (.ok h, s)
  | none => (.error ise, s)

/-- `headers_sent()` (49-53). -/
def headersSent (s : St) : Bool := s.headers.isNone
/-- `headers_sent(True)` (lib/http_response.py:49-53). -/
def setSent : M Unit := modify (fun s => { s with headers := none })
/-- `self._headers` becomes `h` (lib/http_response.py:43-47). -/
def putHeaders (h : Dict Bytes (List Bytes)) : M Unit := modify (fun s => { s with headers := some h })

/-- One header line (lib/http_response.py:55-67). -/
def line (name value : Bytes) : Bytes := name ++ b!": " ++ value

/-- `append_header` (55-67), on bytes. -/
def appendHeader (name value : Bytes) : M Unit := do
  let h ← headers
  let old := (Dict.get h (lower name)).getD []
  putHeaders (Dict.set h (lower name) (old ++ [line name value]))

/-- `set_header` (113-123). -/
def setHeader (name value : Bytes) : M Unit := do
  if (10 : UInt8) ∈ name ∨ (10 : UInt8) ∈ value then raise ise
  else
    let h ← headers
    putHeaders (Dict.set h (lower name) [line name value])

/-- `set_base_header` (69-80). -/
def setBaseHeader (c : Cfg) : M Unit := do
  let s ← get
  if s.headers.isNone ∨ s.headers ≠ some [] then pure ()
  else do
    setHeader b!"Date" c.date
    setHeader b!"Server" c.server

/-- `set_cookie` (82-111) with the assembled cookie text (assembled as in `Verif.Model.Text.cookie`). -/
def setCookie (cookie : Bytes) : M Unit :=
  if (10 : UInt8) ∈ cookie then raise ise else appendHeader b!"Set-Cookie" cookie

/-- `set_status` (125-136). A `_line` list shorter than three (a header named `_line` was set) raises IndexError, after
the first assignment if it has two elements. -/
def setStatus (status : Int) (message : Bytes) : M Unit := do
  if (10 : UInt8) ∈ message then raise ise
  else
    let h ← headers
    match Dict.get h kLine with
    | some (v :: _ :: _ :: rest) => putHeaders (Dict.set h kLine (v :: fmtInt status :: message :: rest))
    | some [v, _] => do
      putHeaders (Dict.set h kLine [v, fmtInt status])
      raise .other
    | some _ => raise .other
    | none => modify (fun s => { s with status := (status, message) :: s.status })

/-- `del d[k]` / `d.pop(k)` (lib/http_response.py:188-291). -/
def del (h : Dict Bytes (List Bytes)) (k : Bytes) : Dict Bytes (List Bytes) := h.filter (fun p => p.1 ≠ k)

/-- `get_status` (138-146). -/
def getStatus : M (Int × Bytes) := do
  let h ← headers
  match Dict.get h kLine with
  | some l => do
    putHeaders (del h kLine)
    match l with
    | [_, st, message] =>
      match intDec st with
      | some n => pure (n, message)
      | none => raise .other
    | _ => raise .other
  | none => fun s =>
    match s.status with
    | top :: rest => (.ok top, { s with status := rest })
    | [] => (.ok (200, b!"OK"), s)

/-- `set_content_type` (148-158). -/
def setContentType (ct : Bytes) : M Unit := do
  if (10 : UInt8) ∈ ct then raise ise
  else
    let h ← headers
    match Dict.get h kCT with
    | some _ => putHeaders (Dict.set h kCT [line b!"Content-Type" ct])
    | none => modify (fun s => { s with ctype := ct :: s.ctype })

/-- `get_content_type` (160-167). -/
def getContentType : M Bytes := do
  let h ← headers
  match Dict.get h kCT with
  | some l => do
    putHeaders (del h kCT)
    match l with
    | v :: _ => pure (lstrip (v.drop 13))
    | [] => raise .other
  | none => fun s =>
    match s.ctype with
    | top :: rest => (.ok top, { s with ctype := rest })
    | [] => (.ok htmlType, s)

/-- `close` (169-174). -/
def close (keepalive : Bool) : M Unit := do
  when (!keepalive) (modify (fun s => { s with keepalive := false }))
  fun s => (.ok (), { s with log := s.log ++ [.mark s.keepalive] })

/-- `send_continue` (176-186). -/
def sendContinue (c : Cfg) : M Unit := do
  let s ← get
  if s.cont then
    if c.contentLength > (c.maxBody : Int) then raise expectationFailed
    else do
      emit (.cont (b!"HTTP/" ++ c.version ++ b!" 100 Continue\r\n\r\n"))
      close true

/-- Statuses without a body (204, 205, 304, 1xx), e.g. lines 199 and 234-235. -/
def noContent (status : Int) : Bool := status == 204 || status == 205 || status == 304 || (100 ≤ status && status < 200)

/-- `b'\r\n'.join(b'\r\n'.join(v) for v in …)` (lib/http_response.py:188-291). -/
def joinHeaders (h : Dict Bytes (List Bytes)) : Bytes := join CRLF (h.map (fun p => join CRLF p.2))

/-- `KEEPALIVE_OR_CLOSE[…]` (15-18). -/
def keepOrClose (b : Bool) : Bytes := if b then b!"keep-alive" else b!"close"
/-- `KEEPALIVE_OR_UPGRADE[status in (101, 426)]` (19-22). -/
def keepOrUpgrade (status : Int) : Bytes := if status == 101 || status == 426 then b!"upgrade" else b!"keep-alive"

/-- The head of a response produced by `end` (206-216). -/
def endHead (c : Cfg) (st : Int × Bytes) (ct : Bytes) (len : Nat) (keep : Bool) (h : Dict Bytes (List Bytes)) : Bytes :=
  b!"HTTP/" ++ c.version ++ b!" " ++ fmtInt st.1 ++ b!" " ++ st.2 ++ b!"\r\nContent-Type: " ++ ct ++
  b!"\r\nContent-Length: " ++ fmtNat len ++ b!"\r\nConnection: " ++ keepOrClose keep ++ CRLF ++
  joinHeaders (h.filter (fun p => p.1 ∉ [kConn, kCL, kTE])) ++ CRLF2

/-- `self.http_chunked and not self.request.upgraded and data is not None` (287-291): the body part of `write`. -/
def writeBody (data : Option Bytes) (o : SendOpts) : M Unit := do
  let s ← get
  match data with
  | none => fun s => (.ok (), { s with log := s.log ++ [.mark s.keepalive] })
  | some d =>
    if s.chunked && !s.upgraded then emit (.body (fmtHex d.length ++ CRLF ++ d ++ CRLF) o)
    else emit (.body d o)

/-- `request.http_keepalive` and `upgraded` as decided by `write` before the head goes out (253-260; http_server.py:155-162
is the same code). -/
def decideKeep (status : Int) (h : Dict Bytes (List Bytes)) : M Unit := modify (fun s =>
  if s.keepalive then
    if status == 101 then { s with upgraded := true }
    else if !(s.chunked || Dict.mem h kCL) then { s with keepalive := false }
    else s
  else s)

/-- The Connection header (253, 262-267): looks at `http_keepalive` as it was before `decideKeep`. -/
def connValue (was : Bool) (status : Int) : Bytes := if was then keepOrUpgrade status else b!"close"

/-- `self.set_header(b'Content-Type', self.get_content_type())` (247-248). -/
def typeHeader : M Unit := do
  let ct ← getContentType
  setHeader b!"Content-Type" ct

/-- http_response.py:228-278: preparing the head in `write` outside of `_handle_response`. Returns the data still to be
sent. Simplification: the transport is there (behind `connection_lost` the water marks are not set). -/
def prepare (c : Cfg) (data : Option Bytes) (chunked : Option Bool) (o : SendOpts) : M (Option Bytes) := do
  setBaseHeader c
  let st ← getStatus
  let nc := noContent st.1
  modify (fun s => { s with chunked := chunked.getD (c.version == b!"1.1" && !nc) })
  let h ← headers
  putHeaders (Dict.set h kLine [b!"HTTP/" ++ c.version, fmtInt st.1, st.2])
  when (!nc) typeHeader
  let s ← get
  when s.chunked (setHeader b!"Transfer-Encoding" b!"chunked")
  let h ← headers
  decideKeep st.1 h
  setHeader b!"Connection" (connValue s.keepalive st.1)
  if c.method = b!"HEAD" ∨ nc = true then do
    when (!(st.1 == 101 || st.1 == 426)) (modify (fun s => { s with keepalive := false }))
    pure none
  else if o.marks then pure data
  else raise .other

/-- The text of the head sent by `write` (281-283). -/
def writeHead (l : List Bytes) (h : Dict Bytes (List Bytes)) : Bytes := join b!" " l ++ CRLF ++ joinHeaders h ++ CRLF2

/-- http_response.py:280-285: the head goes out. -/
def flushHead : M Unit := do
  let h ← headers
  emit (.head (writeHead ((Dict.get h kLine).getD []) (del h kLine)) [] { throttle := false })
  setSent

/-- `write` (224-291). -/
def write (c : Cfg) (data : Option Bytes) (chunked : Option Bool := none) (o : SendOpts := {}) : M Unit := do
  let s ← get
  match s.headers with
  | some h =>
    if Dict.mem h kLine then do
      flushHead
      writeBody data o
    else do
      let data ← prepare c data chunked o
      flushHead
      writeBody data o
  | none => writeBody data o

/-- The body that `end` puts behind the head (196-201). -/
def endBody (c : Cfg) (status : Int) (data : Bytes) : Bytes :=
  if data.length > 0 ∧ (c.method = b!"HEAD" ∨ noContent status = true) then [] else data

/-- `end` without the final `close` (188-220). `o` stands for `throttle=False, **kwargs`. -/
def endSend (c : Cfg) (data : Bytes) (keepalive : Bool) (o : SendOpts) : M Unit := do
  let s ← get
  if headersSent s then write c (some data) none { throttle := false }
  else do
    setBaseHeader c
    let st ← getStatus
    let ct ← getContentType
    let h ← headers
    let s ← get
    emit (.head (endHead c st ct data.length (keepalive && s.keepalive) h) (endBody c st.1 data) o)
    setSent

/-- `end` (188-222). -/
def end_ (c : Cfg) (data : Bytes) (keepalive : Bool := true) (o : SendOpts := { throttle := false }) : M Unit := do
  endSend c data keepalive o
  close keepalive

/-! ## Handlers as scripts of calls -/

/-- A call of the response API made by a handler, a middleware or an error handler (lib/http_response.py:55-291). -/
inductive Call
  | appendHeader (name value : Bytes)
  | setBaseHeader
  | setCookie (cookie : Bytes)
  | setHeader (name value : Bytes)
  | setStatus (status : Int) (message : Bytes)
  | getStatus
  | setContentType (ct : Bytes)
  | getContentType
  | write (data : Option Bytes) (chunked : Option Bool) (o : SendOpts)
  | end_ (data : Bytes) (keepalive : Bool) (o : SendOpts)
  | close (keepalive : Bool)
  /-- starting to read the body (`request.stream()`, http_request.py:173-174) -/
  | stream
deriving DecidableEq, Repr

/-- The method that a call runs (lib/http_response.py:55-291). -/
def Call.run (c : Cfg) : Call → M Unit
  | .appendHeader n v => Response.appendHeader n v
  | .setBaseHeader => Response.setBaseHeader c
  | .setCookie k => Response.setCookie k
  | .setHeader n v => Response.setHeader n v
  | .setStatus st m => Response.setStatus st m
  | .getStatus => do let _ ← Response.getStatus; pure ()
  | .setContentType ct => Response.setContentType ct
  | .getContentType => do let _ ← Response.getContentType; pure ()
  | .write d ch o => Response.write c d ch o
  | .end_ d k o => Response.end_ c d k o
  | .close k => Response.close k
  | .stream => Response.sendContinue c

/-- The calls one run of a piece of application code makes, in order; `true` means that the code catches an exception of
that call and goes on. (Which calls it makes may depend on anything: a run is one such list.) (http_server.py:59-110). -/
abbrev Script := List (Call × Bool)

/-- Runs the calls in order, up to the first exception that is not caught (http_server.py:59-110). -/
def runScript (c : Cfg) : Script → M Unit
  | [] => pure ()
  | (call, guarded) :: rest => fun s =>
    match call.run c s with
    | (.ok _, s') => runScript c rest s'
    | (.error e, s') => if guarded then runScript c rest s' else (.error e, s')

/-- How a coroutine ends: `None`, data (already encoded), another type of value, or an exception (http_server.py:63-89, 98-260). -/
inductive Ret
  | none
  | data (b : Bytes)
  | odd
  | raise (e : Exc)
deriving DecidableEq, Repr

/-- A run of a handler: a coroutine that makes calls and ends, or an asynchronous generator that makes calls before
each yielded byte string and before finishing or raising (http_server.py:98-260). -/
inductive Handler
  | coro (s : Script) (r : Ret)
  | gen (ys : List (Script × Bytes)) (s : Script) (e : Option Exc)
deriving DecidableEq, Repr

/-- A run of a middleware with its `status` and `content_type` options (http_server.py:59-90). -/
structure Mw where
  script : Script := []
  ret : Ret := .none
  status : Option (Int × Bytes) := none
  ctype : Option Bytes := none
deriving DecidableEq, Repr

/-- `if 'status' in options` (http_server.py:75-76, 110-111). -/
def optStatus : Option (Int × Bytes) → M Unit
  | some (st, m) => setStatus st m
  | none => pure ()
/-- `if 'content_type' in options` (http_server.py:78-79, 113-114). -/
def optType : Option Bytes → M Unit
  | some ct => setContentType ct
  | none => pure ()
/-- `'status' in options` / `'content_type' in options` (http_server.py:75-79, 110-114). -/
def applyOpts (status : Option (Int × Bytes)) (ctype : Option Bytes) : M Unit := do
  optStatus status
  optType ctype

/-- `_handle_middleware` (http_server.py:59-89); `true` means that the chain goes on. -/
def handleMiddleware (c : Cfg) (m : Mw) : M Bool := do
  setBaseHeader c
  runScript c m.script
  match m.ret with
  | .none => pure true
  | .odd => pure false
  | .raise e => raise e
  | .data d => do
    applyOpts m.status m.ctype
    end_ c d
    pure false

/-- The loop over response middlewares (http_server.py:171-181, 235-245); the list is in the order they run (last
registered first). The options that a middleware sees are its own overridden by those of the route; `Mw` carries the
result. -/
def responseLoop (c : Cfg) : List Mw → M Bool
  | [] => pure true
  | m :: ms => do
    let go ← handleMiddleware c m
    if go then responseLoop c ms else pure false

/-- Options of a route used by `_handle_response` (http_server.py:98-120). -/
structure Opt where
  status : Option (Int × Bytes) := none
  ctype : Option Bytes := none
  chunked : Option Bool := none
  bufferSize : Nat := 16384
  stream : Bool := true
deriving DecidableEq, Repr

/-- How a generator's pieces are sent (http_server.py:188-199). -/
def Opt.sendOpts (o : Opt) : SendOpts :=
  { bufferSize := o.bufferSize, bufferMin := if o.stream then none else some (o.bufferSize / 2) }

/-- http_server.py:137-152. Returns the status. -/
def startHead (c : Cfg) (o : Opt) : M (Int × Bytes) := do
  let st ← getStatus
  let nc := noContent st.1
  modify (fun s => { s with chunked := o.chunked.getD (c.version == b!"1.1" && !nc) })
  let h ← headers
  putHeaders (Dict.set h kLine [b!"HTTP/" ++ c.version, fmtInt st.1, st.2])
  when (!nc) typeHeader
  let s ← get
  when s.chunked (setHeader b!"Transfer-Encoding" b!"chunked")
  pure st

/-- The loop over the values a generator yields after the first (http_server.py:201-218). -/
def genLoop (c : Cfg) (o : SendOpts) (fin : Script) (e : Option Exc) : List (Script × Bytes) → M Unit
  | [] => do
    runScript c fin
    match e with
    | some e => raise e
    | none => write c (some []) none { o with throttle := false, bufferSize := 16384 }
  | (sc, d) :: rest => do
    runScript c sc
    when (d ≠ []) (write c (some d) none o)
    genLoop c o fin e rest

/-- `_handle_response` (http_server.py:98-260). WebSocket and SSE objects are not modelled here. -/
def handleResponse (c : Cfg) (o : Opt) (rms : List Mw) : Handler → M Unit
  | .coro sc r => do
    applyOpts o.status o.ctype
    setBaseHeader c
    runScript c sc
    match r with
    | .none => close false
    | .odd => pure ()
    | .raise e => raise e
    | .data d => do
      let st ← startHead c o
      let s ← get
      when (!(noContent st.1 || s.chunked)) (setHeader b!"Content-Length" (fmtNat d.length))
      setHeader b!"Connection" (keepOrClose s.keepalive)
      let go ← responseLoop c rms
      if go then
        if c.method = b!"HEAD" ∨ noContent st.1 = true then write c none
        else do
          when (d ≠ []) (write c (some d) none { bufferSize := o.bufferSize })
          write c (some []) none { throttle := false }
          close true
  | .gen ys fin e => do
    applyOpts o.status o.ctype
    setBaseHeader c
    match ys with
    | [] => do
      runScript c fin
      raise (e.getD .other)          -- `await next_data()` raises (StopAsyncIteration if the generator just ends)
    | (sc, d) :: rest => do
      runScript c sc
      let st ← startHead c o
      let s ← get
      let h ← headers
      decideKeep st.1 h
      setHeader b!"Connection" (connValue s.keepalive st.1)
      let go ← responseLoop c rms
      if go then
        if c.method = b!"HEAD" ∨ noContent st.1 = true then write c none
        else do
          when (d ≠ []) (write c (some d) none o.sendOpts)
          genLoop c o.sendOpts fin e rest
          close true

/-! ## Errors -/

/-- A run of the error handler (`handle_error_500`): calls and `None`, data or an exception. -/
structure ErrHandler where
  script : Script := []
  ret : Except Exc (Option Bytes) := .ok none
deriving DecidableEq, Repr

/-- `abort` (http_protocol.py:100-105). -/
def abort : M Unit := modify (fun s => { s with aborted := true })

/-- http_protocol.py:228-231: the exception as an HTTPException (code, message, content type). -/
def asHttp : Exc → Int × Bytes × Bytes
  | .http code m ct => (code, m, ct)
  | .timeout => (408, b!"Request Timeout", htmlType)
  | _ => (500, b!"Internal Server Error", htmlType)

/-- Runs `m`, then `f` with its outcome, then re-raises (`try: … finally: …`) (http_server.py:98-260). -/
def finally_ {α : Type} (m : M α) (f : Option α → M Unit) : M Unit := fun s =>
  match m s with
  | (.ok a, s') => f (some a) s'
  | (.error e, s') =>
    match f none s' with
    | (.ok _, s'') => (.error e, s'')
    | (.error e', s'') => (.error e', s'')

/-- The body of `try` in `handle_exception` (243-247). -/
def errPage (c : Cfg) (h : ErrHandler) : M Bytes := do
  runScript c h.script
  match h.ret with
  | .ok (some d) => pure d
  | .ok none => pure []
  | .error e => raise e

/-- A WebSocket close frame with a two-byte code (websocket.py `create_frame`) (lib/websocket.py:131-167). -/
def closeFrame (code : Nat) : Bytes := [0x88, 2] ++ toBE 2 code

/-- The error response proper (http_protocol.py:233-265). -/
def errorResponse (c : Cfg) (eh : ErrHandler) (e : Int × Bytes × Bytes) : M Unit := do
  let s ← get
  if headersSent s then close false
  else do
    putHeaders []
    setStatus e.1 e.2.1
    setContentType e.2.2
    finally_ (errPage c eh) (fun d => end_ c (d.getD []) false)

/-- `handle_exception` (http_protocol.py:204-265). -/
def handleException (c : Cfg) (eh : ErrHandler) (e : Exc) : M Unit := do
  let s ← get
  if headersSent s && !s.upgraded then abort
  else match e with
    | .wsServer code => do
      emit (.frame (closeFrame code))
      close true
    | .ws => close true
    | e => errorResponse c eh (asHttp e)

/-- `headers_received` up to the choice of the handler, which is the subject of `Verif.Model.App`: request middlewares,
then `_handle_response` (http_server.py:262-339), inside the `try` of `_handle_request` (http_protocol.py:282-354). An
exception that leaves `handle_exception` ends the task. -/
def requestLoop (c : Cfg) : List Mw → M Bool
  | [] => pure true
  | m :: ms => do
    let go ← handleMiddleware c m
    if go then requestLoop c ms else pure false

/-- What the application does with one request (http_server.py:262-339). -/
structure App where
  qms : List Mw := []
  rms : List Mw := []
  opt : Opt := {}
  handler : Handler
  err : ErrHandler := {}
deriving DecidableEq, Repr

/-- `headers_received` with the handler found (http_server.py:262-339). -/
def serve (c : Cfg) (a : App) : M Unit := do
  let go ← requestLoop c a.qms
  if go then handleResponse c a.opt a.rms a.handler

/-- The handler's task, and `handle_exception` if it raises (lib/http_protocol.py:343-354). -/
def handleRequest (c : Cfg) (a : App) (s : St) : St :=
  match serve c a s with
  | (.ok _, s') => s'
  | (.error e, s') => (handleException c a.err e s').2

end Verif.Model.Response
