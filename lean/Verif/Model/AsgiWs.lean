import Verif.Model.Asgi
import Verif.Model.WebSocket
/-!
# Model of `ASGIServer` for a WebSocket scope (tremolo/asgi_server.py) and of `WebSocket.accept`, `send` and `close`
(tremolo/lib/websocket.py)

One run of an application is the list of things it does, in order: messages that it passes to `send`, and calls of `receive`.
What the client sends is the `Reader` of the request. Not modelled: the loss of the connection while the application goes on
(see `Verif.Model.AsgiReceive`), the timers, and concurrent calls by several tasks of one application.
-/
namespace Verif.Model.AsgiWs
open Verif.Py Verif.Model.Response Verif.Model.Asgi Verif.Model.WebSocket Verif.Model.BodyStream

/-! ## `WebSocket` -/

/-- `accept` (websocket.py:25-35). `key`: the base64 text of the SHA-1 digest (`AcceptKey.acceptKey`); `none` if the value of
`headers[b'sec-websocket-key']` is a list because the header was repeated: adding it to bytes raises TypeError. -/
def accept (c : Cfg) (key : Option Bytes) : M Unit := do
  match key with
  | none => raise .other
  | some k => do
    setStatus 101 b!"Switching Protocols"
    setHeader b!"Upgrade" b!"websocket"
    setHeader b!"Sec-WebSocket-Accept" k
    write c none

/-- `send`, `ping` and `pong` (169-173, 181-185) -/
def sendFrame (payload : Bytes) (opcode : UInt8) : M Unit := emit (.body (createFrame payload opcode) { throttle := false })

/-- `close` (187-190). `to_bytes(2)` raises OverflowError for other codes. -/
def closeWith (code : Int) : M Unit := do
  if 0 ≤ code ∧ code < 65536 then do
    sendFrame (toBE 2 code.toNat) 8
    close true
  else raise .other

/-! ## `ASGIServer` -/

/-- The messages of an application in a WebSocket scope (asgi_server.py:174-247). -/
inductive Msg
  /-- `websocket.accept`; `sub`: the encoded subprotocol, empty if missing or empty -/
  | accept (sub : Bytes) (headers : List (Bytes × Bytes))
  /-- `websocket.send`; empty if missing -/
  | send (bytes : Bytes) (text : String)
  /-- `websocket.close` with its code (1000 if missing) -/
  | close (code : Int)
  /-- an `http.response` message -/
  | http (m : Asgi.Msg)
deriving DecidableEq, Repr

/-- What `receive` returns (asgi_server.py:111-146). -/
inductive Ev
  | connect
  | text (s : String)
  | bytes (b : Bytes)
  | disconnect (code : Nat)
deriving DecidableEq, Repr

/-- The connection: response object, `self._websocket is not None`, what the client sends, and what `receive` has returned.
`waiting`: the application waits in `receive` and will not go on (asgi_server.py:30-46). -/
structure W where
  a : A := {}
  ws : Bool := true
  reader : Reader
  got : List Ev := []
  waiting : Bool := false
deriving DecidableEq, Repr

/-- The facts that do not change: those of `Asgi.Env`, the accept key, and `ws_max_payload_size` (lib/websocket.py:25-35, 58-64). -/
structure WEnv extends Env where
  key : Option Bytes
  max : Nat := 2097152

/-- The loop over the headers (185-218); `false` if it is left by `return` or by an exception. -/
def acceptLoop (c : Cfg) (e : Env) : List (Bytes × Bytes) → A → A × Bool
  | [], a => (a, true)
  | (n, v) :: r, a =>
    if (10 : UInt8) ∈ n ∨ (10 : UInt8) ∈ v then ({ a with resp := handle c e ise a.resp }, false)
    else if lower n = b!"content-type" then
      match setContentType v a.resp with
      | (.ok _, s) => acceptLoop c e r { a with resp := s }
      | (.error _, s) => ({ a with resp := s }, false)
    else if lower n ∈ [b!"date", b!"server", b!"transfer-encoding"] then acceptLoop c e r a
    else if lower n = b!"connection" then
      acceptLoop c e r (if lower v = b!"close" then { a with resp := { a.resp with keepalive := false } } else a)
    else
      let a := if lower n = b!"content-length" then { a with chunked := some false } else a
      match appendHeader n v a.resp with
      | (.ok _, s) => acceptLoop c e r { a with resp := s }
      | (.error _, s) => ({ a with resp := s }, false)

/-- The subprotocol and `WebSocket.accept` (220-233, 256-257). `ws`: whether `self._websocket` is there (AttributeError). -/
def acceptEnd (c : Cfg) (e : WEnv) (ws : Bool) (sub : Bytes) (s : St) : St :=
  if sub ≠ [] ∧ (10 : UInt8) ∈ sub then handle c e.toEnv ise s
  else
    ((do
      when (sub ≠ []) (setHeader b!"Sec-WebSocket-Protocol" sub)
      if ws then accept c e.key else raise .other : M Unit) s).2

/-- `send` with `websocket.accept` (176-233, 256-257) -/
def acceptMsg (c : Cfg) (e : WEnv) (ws : Bool) (sub : Bytes) (hs : List (Bytes × Bytes)) (a : A) : A :=
  match statusOf c e.toEnv none a.resp with
  | (.ok _, s) =>
    match acceptLoop c e.toEnv hs { a with resp := s } with
    | (a, true) => { a with resp := acceptEnd c e ws sub a.resp }
    | (a, false) => a
  | (.error _, s) => { a with resp := s }

/-- `send` (174-266). An exception is printed and the application goes on (262-266). -/
def send (c : Cfg) (e : WEnv) (w : W) : Msg → W
  | .accept sub hs => { w with a := acceptMsg c e w.ws sub hs w.a }
  | .send b t =>
    if b ≠ [] then (if w.ws then { w with a := { w.a with resp := (sendFrame b 2 w.a.resp).2 } } else w)
    else if t ≠ "" then (if w.ws then { w with a := { w.a with resp := (sendFrame (encodeUtf8 t) 1 w.a.resp).2 } } else w)
    else w
  | .close code =>
    if w.ws then
      match closeWith code w.a.resp with
      | (.ok _, s) => { w with a := { w.a with resp := s }, ws := false }
      | (.error _, s) => { w with a := { w.a with resp := s } }
    else w
  | .http m => { w with a := Asgi.send c e.toEnv w.a m }

/-- Sending the pongs that `recv` sends (lib/websocket.py:82-85, 184-185). -/
def pongs (l : List Bytes) (s : St) : St := { s with log := s.log ++ l.map (fun b => .body b { throttle := false }) }

/-- What `receive` makes of the result of `WebSocket.receive` (119-146). `none`: it goes on waiting (in the code until a
timeout of the body stream, which gives a disconnect). -/
def eventOf : Res → Option Ev
  | .text s => some (.text s)
  | .binary b => some (.bytes b)
  | .clientClosed code => some (.disconnect code)
  | .failed .blocked => none
  | _ => some (.disconnect 1005)

/-- `receive` for a WebSocket scope (111-146) -/
def receive (e : WEnv) (w : W) : W :=
  if w.a.resp.upgraded = false then { w with got := w.got ++ [.connect] }
  else if w.ws then
    let (res, sent, r) := WebSocket.receive e.max w.reader
    let w := { w with a := { w.a with resp := pongs sent w.a.resp }, reader := r }
    match eventOf res with
    | some ev => { w with got := w.got ++ [ev] }
    | none => { w with waiting := true }
  else { w with got := w.got ++ [.disconnect 1005] }

/-- One thing that the application does (asgi_server.py:78-79). -/
inductive Op
  | send (m : Msg)
  | receive
deriving DecidableEq, Repr

/-- One thing that the application does; it does nothing while it waits (asgi_server.py:111-146, 174-247). -/
def step (c : Cfg) (e : WEnv) (w : W) (op : Op) : W :=
  if w.waiting then w
  else
    match op with
    | .send m => send c e w m
    | .receive => receive e w

/-- The things that an application does, in order (asgi_server.py:78-79). -/
def run (c : Cfg) (e : WEnv) (w : W) (ops : List Op) : W := ops.foldl (step c e) w

/-- The application raises `x` (83-90). `WebSocketServerClosed` has the code 1011. -/
def fail (c : Cfg) (e : WEnv) (x : Exc) (w : W) : W :=
  { w with a := { w.a with resp := handle c e.toEnv (if w.a.resp.upgraded && w.ws then .wsServer 1011 else x) w.a.resp } }

end Verif.Model.AsgiWs
