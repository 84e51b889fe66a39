import Verif.Model.Response
/-!
# Model of `ASGIServer.send` for HTTP and of the end of the application (tremolo/asgi_server.py)

An application is an arbitrary coroutine; one run of it is the list of messages it passes to `send`, and how it ends. Messages
are dictionaries; `start` and `body` stand for `http.response.start` and `http.response.body` with the keys that are read.
Header names and values are bytes. Not modelled here: WebSocket messages and `receive` (see `Verif.Model.AsgiReceive`).
-/
namespace Verif.Model.Asgi
open Verif.Py Verif.Model.Response

/-- The messages of an application (asgi_server.py:174-247). -/
inductive Msg
  /-- `status`: `none` if the key is missing -/
  | start (status : Option Int) (headers : List (Bytes × Bytes))
  /-- `data`: empty if the key is missing. `more`: `'more_body' in data and data['more_body'] is not False` -/
  | body (data : Bytes) (more : Bool)
deriving DecidableEq, Repr

/-- Facts that do not change: `phrase` is `HTTPStatus(status).phrase` (`none`: ValueError), `bufferSize` is
`options['buffer_size']`, `page` the text that `error_500` (handlers.py:34-41) returns. -/
structure Env where
  phrase : Int → Option Bytes
  bufferSize : Nat := 16384
  page : Exc → Bytes := fun _ => []

/-- The response object (with the attributes of the request that it reads), and `self._http_chunked`, which belongs to the
connection (asgi_server.py:30-37). -/
structure A where
  resp : St := {}
  chunked : Option Bool := none
deriving DecidableEq, Repr

/-- `handle_exception` with `handle_error_500` (92-95). What it raises ends in the `except` of `send` (264-266) or ends the
task. -/
def handle (c : Cfg) (e : Env) (x : Exc) (s : St) : St :=
  (handleException c { ret := .ok (some (e.page x)) } x s).2

/-- The loop over the headers (185-218). Exceptions leave the loop and are printed (264-266). -/
def headerLoop (c : Cfg) (e : Env) : List (Bytes × Bytes) → A → A
  | [], a => a
  | (n, v) :: r, a =>
    if (10 : UInt8) ∈ n ∨ (10 : UInt8) ∈ v then { a with resp := handle c e ise a.resp }
    else if lower n = b!"content-type" then
      match setContentType v a.resp with
      | (.ok _, s) => headerLoop c e r { a with resp := s }
      | (.error _, s) => { a with resp := s }
    else if lower n ∈ [b!"date", b!"server", b!"transfer-encoding"] then headerLoop c e r a
    else if lower n = b!"connection" then
      headerLoop c e r (if lower v = b!"close" then { a with resp := { a.resp with keepalive := false } } else a)
    else
      let a := if lower n = b!"content-length" then { a with chunked := some false } else a
      match appendHeader n v a.resp with
      | (.ok _, s) => headerLoop c e r { a with resp := s }
      | (.error _, s) => { a with resp := s }

/-- `set_status` and `set_base_header` (178-182) -/
def statusOf (c : Cfg) (e : Env) (status : Option Int) : M Unit := do
  match status with
  | some st =>
    match e.phrase st with
    | some p => setStatus st p
    | none => raise .other
  | none => pure ()
  setBaseHeader c

/-- `send` with `http.response.start` (176-218) -/
def start (c : Cfg) (e : Env) (status : Option Int) (hs : List (Bytes × Bytes)) (a : A) : A :=
  match statusOf c e status a.resp with
  | (.ok _, s) => headerLoop c e hs { a with resp := s }
  | (.error _, s) => { a with resp := s }

/-- `send` with `http.response.body` (235-250) -/
def body (c : Cfg) (e : Env) (ch : Option Bool) (data : Bytes) (more : Bool) : M Unit := do
  let s ← get
  when (data ≠ []) (write c (some data) ch { throttle := headersSent s, bufferSize := e.bufferSize })
  when (!more) (do
    write c (some []) ch { throttle := false }
    close true)

/-- `send` (174-266) -/
def send (c : Cfg) (e : Env) (a : A) : Msg → A
  | .start st hs => start c e st hs a
  | .body d more => { a with resp := (body c e a.chunked d more a.resp).2 }

/-- The application runs and ends, by an exception if `x` is one (80-90). -/
def run (c : Cfg) (e : Env) (ms : List Msg) (x : Option Exc) (a : A) : A :=
  let a := ms.foldl (send c e) a
  match x with
  | some x => { a with resp := handle c e x a.resp }
  | none => a

end Verif.Model.Asgi
