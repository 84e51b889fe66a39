import Verif.Model.Head
import Verif.Py.Urllib
/-!
# Model of the scope that `ASGIServer.headers_received` gives to the application
(tremolo/asgi_server.py:40-78; lib/http_request.py:71-125)
-/
namespace Verif.Model.AsgiScope
open Verif.Py Verif.Model.HttpParser Verif.Model.Head

/-- What `getsockname()` and `getpeername()` return: a tuple of host, port and (IPv6) two more numbers, or a path. -/
inductive Addr
  | tuple (host : Str) (port : Nat) (rest : List Nat)
  | path (p : Str)
deriving DecidableEq

/-- `getpeername()[:2] or None` (http_request.py:81-88): the first two items of a tuple, but the first two characters of a path. -/
def client : Addr → Option Addr
  | .tuple h p _ => some (.tuple h p [])
  | .path p => if p.take 2 = [] then none else some (.path (p.take 2))

/-- The scope (asgi_server.py:60-70, and 42-46 or 51-53). `asgi` and `root_path`, which are constant, are left out. -/
structure Scope where
  websocket : Bool
  httpVersion : Str
  method : Option Str
  scheme : Str
  path : Str
  rawPath : Bytes
  queryString : Bytes
  headers : List (Bytes × Bytes)
  client : Option Addr
  server : Addr
  subprotocols : Option (List Str)
deriving DecidableEq

/-- What `headers_received` does with a head (asgi_server.py:55-84). -/
inductive Out
  | badRequest            -- `error_400`
  | attributeError        -- raised in the handler task: a list has no `strip` or `lower`
  | app (s : Scope)
deriving DecidableEq

/-- The head and the connection (asgi_server.py:60-74, lib/http_request.py:74-125). -/
structure Env where
  ws : Bool               -- the option `ws`
  secure : Bool           -- `transport.get_extra_info('sslcontext') is not None`
  peer : Addr
  sock : Addr

/-- `request.scheme` (http_request.py:115-125). `none`: AttributeError. -/
def scheme (secure : Bool) (h : HDict) : Option Bytes :=
  match hget h b!"x-forwarded-proto" with
  | some (.one v) =>
    let s := strip v
    some (if s = [] then (if secure then b!"https" else b!"http") else s)
  | none => some (if secure then b!"https" else b!"http")
  | some _ => none

/-- asgi_server.py:72-75. `none`: AttributeError. -/
def isHandshake (ws : Bool) (h : HDict) : Option Bool :=
  if ws && hmem h b!"upgrade" && hmem h b!"connection" && hmem h b!"sec-websocket-key" then
    match hget h b!"upgrade" with
    | some (.one v) => some (lower v == b!"websocket")
    | _ => none
  else some false

/-- asgi_server.py:60-70, with what 42-46 or 51-53 add. -/
def base (e : Env) (hs : List (Bytes × Bytes)) (r : Req) (ws : Bool) (m : Option Str) (s : Str) (subs : Option (List Str)) : Scope :=
  { websocket := ws, httpVersion := latin1 r.version, method := m, scheme := s, path := latin1 (unquoteToBytes r.path), rawPath := r.path,
    queryString := r.query, headers := hs, client := client e.peer, server := e.sock, subprotocols := subs }

/-- `headers_received` (asgi_server.py:55-78) until the application is called. `hs`: `request.header.getheaders()`. -/
def headersReceived (e : Env) (hs : List (Bytes × Bytes)) (r : Req) : Out :=
  if r.valid = false then .badRequest
  else
    match isHandshake e.ws r.headers with
    | none => .attributeError
    | some true =>
      match scheme e.secure r.headers, getlist r.headers b!"sec-websocket-protocol" with
      | some s, some l => .app (base e hs r true none (if s = b!"https" then latin1 b!"wss" else latin1 b!"ws") (some (l.map latin1)))
      | _, _ => .attributeError
    | some false =>
      match scheme e.secure r.headers with
      | some s => .app (base e hs r false (some (latin1 r.method)) (latin1 s) none)
      | none => .attributeError

/-- From the bytes of a head to the scope (asgi_server.py:55-84). -/
def scopeOf (e : Env) (data : Bytes) (headerSize : Nat) : Except Refusal Out :=
  (acceptData data headerSize).map (headersReceived e (parse data headerSize [b!"proxy"]).list)

end Verif.Model.AsgiScope
