import Verif.Model.AsgiWs
/-!
# Model of a WebSocket session of a native handler (tremolo/lib/websocket.py, tremolo/http_server.py)

A handler of a WebSocket route is a coroutine that gets a `WebSocket`. What it does next depends on everything that its calls
have returned so far: `Coroutine`. What the client sends is the `Reader` of the request; where its bytes end although the
connection is open, the wait ends by the timeout of `Request.recv` (request.py:30-52), and `receive` turns that into
`WebSocketServerClosed` with code 1000 (websocket.py:121-124).

Not modelled: the timer that sends pings during a wait (see `Verif.Model.WsTimer`), concurrent calls by several tasks of
one handler, handlers that return a body or are generators, and what `receive` gives after a timeout was caught by the
handler (here: the same again).
-/
namespace Verif.Model.NativeWs
open Verif.Py Verif.Model.Response Verif.Model.WebSocket Verif.Model.BodyStream Verif.Model.AsgiWs

/-- What a call of the handler gives (lib/websocket.py:25-200). -/
inductive Got
  | done
  | text (s : String)
  | bytes (b : Bytes)
  | raised (x : Exc)
deriving DecidableEq, Repr

/-- A call of the handler (lib/websocket.py:25-200). -/
inductive Op
  | accept
  /-- `async for`, i.e. `__anext__` -/
  | next
  | receive
  /-- `send(bytes)` -/
  | send (b : Bytes)
  /-- `send(str)` -/
  | sendText (s : String)
  | ping (b : Bytes)
  | pong (b : Bytes)
  | close (code : Int)
deriving DecidableEq, Repr

/-- The response object, what the client sends, and what the handler's calls have given (http_server.py:91-96). -/
structure N where
  resp : St
  reader : Reader
  got : List Got := []
deriving DecidableEq, Repr

/-- The accept key (see `AsgiWs.accept`) and `ws_max_payload_size` (lib/websocket.py:25-35, 58-64). -/
structure NEnv where
  key : Option Bytes
  max : Nat := 2097152

/-- What `receive` (websocket.py:108-128) makes of the end of the last `recv`. For `ping` and `pong` the loop goes on. The
stream of an upgraded request has no other exceptions than the timeout (http_request.py:239-250). -/
def gives : Res → Got
  | .text s => .text s
  | .binary b => .bytes b
  | .clientClosed _ => .raised .ws
  | .serverClosed code => .raised (.wsServer code)
  | .failed .blocked => .raised (.wsServer 1000)
  | .badText | .failed _ => .raised .other
  | .ping _ | .pong => .done

/-- A method of the response, as a call of the handler (lib/http_response.py:55-291). -/
def call (w : N) (m : M Unit) : N :=
  match m w.resp with
  | (.ok _, s) => { w with resp := s, got := w.got ++ [.done] }
  | (.error x, s) => { w with resp := s, got := w.got ++ [.raised x] }

/-- `receive` (108-128), with the pongs that it sends. -/
def receive (e : NEnv) (w : N) : N :=
  { resp := pongs (WebSocket.receive e.max w.reader).2.1 w.resp, reader := (WebSocket.receive e.max w.reader).2.2,
    got := w.got ++ [gives (WebSocket.receive e.max w.reader).1] }

/-- `__anext__` (19-23) -/
def next (c : Cfg) (e : NEnv) (w : N) : N :=
  if w.resp.upgraded then receive e w
  else
    match accept c e.key w.resp with
    | (.ok _, s) => receive e { w with resp := s }
    | (.error x, s) => { w with resp := s, got := w.got ++ [.raised x] }

/-- One call. `send`, `ping`, `pong`: websocket.py:169-185; `close`: 187-190. -/
def step (c : Cfg) (e : NEnv) (w : N) : Op → N
  | .accept => call w (accept c e.key)
  | .next => next c e w
  | .receive => receive e w
  | .send b => call w (sendFrame b 2)
  | .sendText s => call w (sendFrame (encodeUtf8 s) 1)
  | .ping b => call w (sendFrame b 9)
  | .pong b => call w (sendFrame b 10)
  | .close code => call w (closeWith code)

/-- Calls in order (lib/websocket.py:25-200). -/
def run (c : Cfg) (e : NEnv) (w : N) (ops : List Op) : N := ops.foldl (step c e) w

/-- How a handler ends: it returns None, or raises (http_server.py:98-260). -/
inductive End
  | ret
  | raise (x : Exc)
deriving DecidableEq, Repr

/-- What follows the end of the handler (http_server.py:120-122; http_protocol.py:204-265, called in 336-354). -/
def finish (c : Cfg) (eh : ErrHandler) (w : N) : End → N
  | .ret => { w with resp := (close false w.resp).2 }
  | .raise x => { w with resp := (handleException c eh x w.resp).2 }

/-- A handler: the next call, or the end, by what the calls have given so far (http_server.py:98-260). -/
abbrev Coroutine := List Got → Op ⊕ End

/-- The first `n` things that the handler does; `true` if it has ended (http_server.py:98-260). -/
def play (c : Cfg) (e : NEnv) (eh : ErrHandler) (h : Coroutine) : Nat → N → N × Bool
  | 0, w => (w, false)
  | n + 1, w =>
    match h w.got with
    | .inl op => play c e eh h n (step c e w op)
    | .inr x => (finish c eh w x, true)

/-- The state in which a handler without options starts (http_server.py:92-115: `set_base_header`). -/
def start (c : Cfg) (s : St) (r : Reader) : N := { resp := (setBaseHeader c s).2, reader := r }

end Verif.Model.NativeWs
