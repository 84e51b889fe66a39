/-!
# Model of the handler timeout of a connection (tremolo/lib/http_protocol.py)

`_handle_request` starts a task for the handler, stores it in `self.handler` and starts a timer (343-346) that calls
`handler_timeout` (188-196). Time is a natural number. Simplifications: that a handler ends and that `_handle_request`
goes on behind `await self.handler` (348-352) is one event; the timers are distinguished by the number of their request.
-/
namespace Verif.Model.Timeout

/-- `asgi`: `options['_app'] is not None`. `limit`: `options['app_handler_timeout']` (lib/http_protocol.py:188-196, 343-346). -/
structure Cfg where
  asgi : Bool := false
  limit : Nat := 120
deriving DecidableEq, Repr

/-- `starts`: when the handler of request 0, 1, … was started. `done`: the handlers that have ended. `armed`: the timers
that have not fired and are not cancelled. `cur`: `self.handler`. `upgraded`: `self.request.upgraded`. `cancelled`: calls of
`cancel` on a handler that had not ended, with the time. -/
structure St where
  now : Nat := 0
  starts : List Nat := []
  done : List Nat := []
  armed : List Nat := []
  cur : Option Nat := none
  upgraded : Bool := false
  lost : Bool := false
  cancelled : List (Nat × Nat) := []
deriving DecidableEq, Repr

/-- The events (lib/http_protocol.py:188-196, 343-352). -/
inductive Ev
  | tick
  /-- `_handle_request` gets to line 343 -/
  | start
  /-- handler `i` ends, for whatever reason -/
  | finish (i : Nat)
  /-- timer `i` runs -/
  | fire (i : Nat)
  /-- `request.upgraded` is set -/
  | upgrade
  /-- `connection_lost` (492-524) -/
  | lose
deriving DecidableEq, Repr

/-- `handler_timeout` (188-196). `cancel` on a task that has ended does nothing. -/
def handlerTimeout (s : St) : St :=
  match s.cur with
  | none => s
  | some h => if s.upgraded || s.lost then s else if h ∈ s.done then s else { s with cancelled := s.cancelled ++ [(h, s.now)] }

/-- One event; an event that cannot happen changes nothing (lib/http_protocol.py:188-196, 343-352). -/
def step (c : Cfg) (s : St) : Ev → St
  | .tick => { s with now := s.now + 1 }
  | .start =>
    if s.lost then s
    else { s with starts := s.starts ++ [s.now], armed := s.armed ++ [s.starts.length], cur := some s.starts.length, upgraded := false }
  | .finish i =>
    if i < s.starts.length ∧ i ∉ s.done then { s with done := i :: s.done, armed := if c.asgi then s.armed else s.armed.filter (· ≠ i) }
    else s
  | .fire i =>
    match s.starts[i]? with
    | some t => if i ∈ s.armed ∧ t + c.limit ≤ s.now then handlerTimeout { s with armed := s.armed.filter (· ≠ i) } else s
    | none => s
  | .upgrade => { s with upgraded := true }
  | .lose => { s with cur := none, lost := true }

/-- Events in order (lib/http_protocol.py:188-196, 343-352). -/
def run (c : Cfg) (es : List Ev) : St := es.foldl (step c) {}

end Verif.Model.Timeout
