import Verif.Model.App
import Verif.Model.Head
/-!
# Model of the life of a connection as the application sees it (tremolo/http_server.py)

The functions of the application that run for one connection: the connect hooks, for every request the request middlewares,
the handler and the response middlewares, and the close hooks. For each call: when it is made, and which `websocket` and `sse`
objects it is given in `**self._server`. A function is its place in the list it was registered in; the handler of a request
belongs to the request. An object is the number of the request it was made for.

Between two calls anything else may happen: each step of the handler's task, of the task of the connect hooks and of the task
of the close hooks is an event. Requests of one connection follow each other (C51).

Not modelled: what the functions write (`Verif.Model.Response`), `handle_error_500`, functions that go on after a cancellation,
and a request middleware that has sent a head before `SSE.__init__` sets its fields.
-/
namespace Verif.Model.Session
open Verif.Py Verif.Model.App Verif.Model.Head Verif.Model.HttpParser

/-- What is registered: the number of connect hooks and close hooks, the options of the request middlewares and of the response
middlewares, and the option `ws` (http_server.py:9-23). -/
structure Cfg (V : Type) where
  connect : Nat
  close : Nat
  qms : List (Opts V)
  rms : List (Opts V)
  ws : Bool

/-- A request: its fields, `has_body`, and the options of the route it is dispatched to (`kwargs`, http_server.py:280-281, 306, 331, 338). -/
structure Req (V : Type) where
  headers : HDict
  hasBody : Bool
  route : Opts V

/-- The calls, with the number of the request and the objects in `_server`. `connected i r`, `closed i r`: hook `i` has ended (http_server.py:25-110). -/
inductive Call (V : Type)
  | connect (i : Nat)
  | connected (i : Nat) (r : HookRet)
  | middleware (n i : Nat) (ws sse : Option Nat)
  | handler (n : Nat) (q : Req V) (o : Opts V) (ws sse : Option Nat)
  | response (n i : Nat) (ws sse : Option Nat)
  | close (i : Nat) (ws sse : Option Nat)
  | closed (i : Nat) (r : HookRet)
  | cleanup

/-- `context.ON_CONNECT`, the task of `_connection_made` (http_server.py:25-28, 45-48): not started, in hook `i`, ended.
A hook that returns is followed by the call of the next one without a pause. -/
inductive Hooks
  | todo
  | inside (i : Nat)
  | done
  | failed
deriving DecidableEq, Repr

/-- The task of `headers_received`: no request, before or at `await self.context.ON_CONNECT` (263-264), before the call of
request middleware `i` (268) or of the handler if there is no such middleware, in it, in the handler, before the call of the response middleware
below `i` (171-174, 235-238), in response middleware `i`. -/
inductive Stage (V : Type)
  | idle
  | begin (q : Req V)
  | mids (q : Req V) (i : Nat) (o : Opts V)
  | inMid (q : Req V) (i : Nat) (o : Opts V)
  | inHandler (o : Opts V)
  | resps (i : Nat) (o : Opts V)
  | inResp (i : Nat) (o : Opts V)

/-- The task of `_connection_lost` (30-40): not there, not started, in hook `i`, ended. -/
inductive Closer
  | none
  | todo
  | inside (i : Nat)
  | done
deriving DecidableEq, Repr

/-- A connection object: `reqs` requests so far, `self._server['websocket']` and `['sse']` (http_server.py:9-50). -/
structure St (V : Type) where
  hooks : Hooks
  reqs : Nat := 0
  stage : Stage V := .idle
  ws : Option Nat := none
  sse : Option Nat := none
  closer : Closer := .none
  lost : Bool := false
  cleaned : Bool := false
  trace : List (Call V) := []

/-- The events (http_server.py:25-110, 262-339). -/
inductive Ev (V : Type)
  /-- the task of the connect hooks starts -/
  | hookCall
  /-- the connect hook that runs ends -/
  | hookRet (r : HookRet)
  /-- a head was received, `_handle_request` makes the request and the task of `headers_received` (http_protocol.py:278-279, 342) -/
  | head (q : Req V)
  /-- the task of the handler goes on to its next call -/
  | go
  /-- the function of the request that runs ends -/
  | ret (r : Ret)
  /-- the handler is cancelled (http_protocol.py:188-193) -/
  | timeout
  /-- `connection_lost` (http_server.py:50-57) -/
  | lost
  /-- the task of the close hooks starts -/
  | closeCall
  | closeRet (r : HookRet)
  /-- `task.cancel` after `_app_close_timeout` (53-55) -/
  | closeTimeout

/-- `_handle_websocket` (http_server.py:91-96): whether a WebSocket object is made. `none`: AttributeError, for a field that came twice. -/
def handshake (ws : Bool) (h : HDict) : Option Bool :=
  if ws && hmem h b!"upgrade" && hmem h b!"connection" && hmem h b!"sec-websocket-key" then
    match hget h b!"upgrade" with
    | some (.one v) => some (lower v == b!"websocket")
    | _ => none
  else some false

/-- http_server.py:103-108: the new objects, for request `n`. -/
def objects {V : Type} (c : Cfg V) (n : Nat) (q : Req V) (o : Opts V) (ws sse : Option Nat) : Option (Option Nat × Option Nat) :=
  if q.hasBody then some (ws, sse)
  else
    let w := if Dict.mem o b!"websocket" then
        (handshake c.ws q.headers).map (fun b => if b then some n else ws)
      else some ws
    w.map (fun w => (w, if Dict.mem o b!"sse" then some n else sse))

/-- `HTTPProtocol.connection_lost` (http_protocol.py:506-537) as seen from here: the tasks are cancelled, `self.request` and
`self.response` are None. -/
def cleanup {V : Type} (s : St V) : St V :=
  { s with
    hooks := match s.hooks with
      | .todo | .inside _ => .failed
      | h => h
    stage := .idle, closer := .done, cleaned := true, trace := s.trace ++ [.cleanup] }

/-- The connection is made (http_server.py:42-48). -/
def init {V : Type} (c : Cfg V) : St V := { hooks := if c.connect = 0 then .done else .todo }

/-- One step. An event that does not apply changes nothing (http_server.py:25-110, 262-339). -/
def step {V : Type} (c : Cfg V) (s : St V) : Ev V → St V
  | .hookCall => match s.hooks with
    | .todo => { s with hooks := .inside 0, trace := s.trace ++ [.connect 0] }
    | _ => s
  | .hookRet r => match s.hooks with
    | .inside i => match r with
      | .falsy =>
        if i + 1 < c.connect then { s with hooks := .inside (i + 1), trace := s.trace ++ [.connected i .falsy, .connect (i + 1)] }
        else { s with hooks := .done, trace := s.trace ++ [.connected i .falsy] }
      | .truthy => { s with hooks := .done, trace := s.trace ++ [.connected i .truthy] }
      | .raises => { s with hooks := .failed, trace := s.trace ++ [.connected i .raises] }
    | _ => s
  | .head q => match s.stage with
    | .idle => if s.cleaned then s else { s with reqs := s.reqs + 1, stage := .begin q }
    | _ => s
  | .go =>
    match s.stage with
    | .begin q => match s.hooks with
      | .done => { s with stage := .mids q 0 [] }
      | .failed => { s with stage := .idle }       -- the exception of the hook is raised again (264)
      | _ => s
    | .mids q i o => match c.qms[i]? with
      | some m => { s with stage := .inMid q i (Dict.merge m o), trace := s.trace ++ [.middleware (s.reqs - 1) i s.ws s.sse] }
      | none =>
        let o := Dict.merge q.route o
        match objects c (s.reqs - 1) q o s.ws s.sse with
        | some (w, e) => { s with ws := w, sse := e, stage := .inHandler o, trace := s.trace ++ [.handler (s.reqs - 1) q o w e] }
        | none => { s with stage := .idle }        -- AttributeError
    | .resps i o => match i with
      | 0 => { s with stage := .idle }             -- the data is written
      | i + 1 => { s with stage := .inResp i (Dict.merge ((c.rms[i]?).getD []) o),
                          trace := s.trace ++ [.response (s.reqs - 1) i s.ws s.sse] }
    | _ => s
  | .ret r => match s.stage with
    | .inMid q i o => match r with
      | .none => { s with stage := .mids q (i + 1) o }
      | _ => { s with stage := .idle }
    | .inHandler o => match r with
      | .body => { s with stage := .resps c.rms.length o }
      | _ => { s with stage := .idle }
    | .inResp i o => match r with
      | .none => { s with stage := .resps i o }
      | _ => { s with stage := .idle }
    | _ => s
  | .timeout => match s.stage with
    | .idle => s
    | .begin _ => { s with          -- the task that is waited for is cancelled, too
        hooks := match s.hooks with
          | .todo | .inside _ => .failed
          | h => h
        stage := .idle }
    | _ => { s with stage := .idle }
  | .lost =>
    if s.lost then s
    else if c.close = 0 then cleanup { s with lost := true }
    else { s with lost := true, closer := .todo }
  | .closeCall => match s.closer with
    | .todo => { s with closer := .inside (c.close - 1), trace := s.trace ++ [.close (c.close - 1) s.ws s.sse] }
    | _ => s
  | .closeRet r => match s.closer with
    | .inside i => match r with
      | .falsy => match i with
        | 0 => cleanup { s with trace := s.trace ++ [.closed 0 .falsy] }
        | i + 1 => { s with closer := .inside i, trace := s.trace ++ [.closed (i + 1) .falsy, .close i s.ws s.sse] }
      | r => cleanup { s with trace := s.trace ++ [.closed i r] }
    | _ => s
  | .closeTimeout => match s.closer with
    | .inside _ => cleanup s
    | _ => s

/-- Events in order (http_server.py:25-110, 262-339). -/
def run {V : Type} (c : Cfg V) (es : List (Ev V)) : St V := es.foldl (step c) (init c)

end Verif.Model.Session
