/-!
# Model of the ASGI lifespan (tremolo/asgi_lifespan.py, tremolo/tremolo.py:314-321 and 470-474)

A worker that serves an ASGI application runs the application once more, in a task, with the `lifespan` scope. The application
is arbitrary: it may call `receive` and `send` at any time (also from tasks of its own), may catch what `send` raises, and may
end in any way. Two other parties act: the timer of `exception()` and the worker itself, which waits in `exception()`.
An execution is a list of events. Not modelled: the log lines, BaseExceptions that stop the loop, the text of other exceptions.
-/
namespace Verif.Model.Lifespan

/-- The `type` of the messages that `send` distinguishes (42-56), with the `message` if there is one. -/
inductive Msg
  | startupComplete | shutdownComplete
  | startupFailed (message : Option String) | shutdownFailed (message : Option String)
  | other (type : String)
deriving DecidableEq, Repr

/-- What `send` raises, and what the application may end with (asgi_lifespan.py:42-56). -/
inductive Exc
  /-- `LifespanError` (exceptions.py:29) -/
  | lifespan (text : String)
  /-- `LifespanProtocolUnsupported` (exceptions.py:33) -/
  | unsupported
  /-- `asyncio.InvalidStateError` -/
  | invalidState
  /-- any other `Exception` -/
  | any (text : String)
deriving DecidableEq, Repr

/-- How the task of `main` ends (asgi_lifespan.py:17-26). -/
inductive Ending | returned | raised (e : Exc) | cancelled
deriving DecidableEq, Repr

/-- `self._waiter` (asgi_lifespan.py:14, 25-26, 45, 58-66). -/
inductive Fut | pending | result | cancelled
deriving DecidableEq, Repr

/-- The worker: waiting in `exception()` at start-up, serving, waiting in `exception()` at shutdown, done; `failed`: the
coroutine `_serve` ended with an exception (`none`: CancelledError) (tremolo.py:314-321, 470-474). -/
inductive Phase | starting | serving | stopping | stopped | failed (e : Option Exc)
deriving DecidableEq, Repr

/-- What `receive` returns (asgi_lifespan.py:28-40). -/
inductive Item | startup | shutdown
deriving DecidableEq, Repr

/-- The lifespan object and the worker (asgi_lifespan.py:8-15). -/
structure St where
  waiter : Fut := .pending
  /-- `self._task`: `none` while the application runs -/
  task : Option Ending := none
  phase : Phase := .starting
  /-- `self._queue` -/
  queue : List Item := [.startup]
  /-- what the application has received -/
  received : List Item := []
  /-- what `send` raised into the application -/
  raised : List Exc := []
  /-- LifespanErrors logged at shutdown (tremolo.py:473-474) -/
  logged : List Exc := []
deriving DecidableEq, Repr

/-- `startup()` and `shutdown()` (28-34) put into the queue; the initial state is the one after `__init__` and `startup()`,
with the worker in `exception()` (tremolo.py:314-318). -/
def init : St := {}

/-- The events (asgi_lifespan.py:17-88). -/
inductive Ev
  /-- the application's `await receive()` returns -/
  | receive
  | send (m : Msg)
  | finish (o : Ending)
  /-- the timer of `exception()` fires (59-60) -/
  | timer
  /-- the worker's `await self._waiter` ends -/
  | resume
  /-- the worker stops serving: `shutdown()`, `exception()` (470-471) -/
  | stop
deriving DecidableEq, Repr

/-- `'%s%s' % (data['type'], message)` (49-54) -/
def text (type : String) : Option String → String
  | some m => type ++ ": " ++ m
  | none => type

/-- `self._waiter.cancel()`: nothing happens if it is done already (asgi_lifespan.py:25-26, 58-60). -/
def cancel (s : St) : St := if s.waiter = .pending then { s with waiter := .cancelled } else s

/-- `send` (42-56) -/
def send (m : Msg) (s : St) : St :=
  match m with
  | .startupComplete | .shutdownComplete =>
    if s.waiter = .pending then { s with waiter := .result } else { s with raised := s.raised ++ [.invalidState] }
  | .startupFailed t => { s with raised := s.raised ++ [.lifespan (text "lifespan.startup.failed" t)] }
  | .shutdownFailed t => { s with raised := s.raised ++ [.lifespan (text "lifespan.shutdown.failed" t)] }
  | .other _ => { s with raised := s.raised ++ [.unsupported] }

/-- The end of `main` (17-26), with `finally: self._waiter.cancel()`. -/
def finish (o : Ending) (s : St) : St :=
  if s.task = none then cancel { s with task := some o } else s

/-- What `exception()` makes of a cancelled waiter (66-83). -/
inductive Result | none | error (e : Exc) | cancelled
deriving DecidableEq, Repr

/-- `self._task.exception()` raises InvalidStateError while the task runs (caught, 82) and CancelledError if it was cancelled
(not caught). -/
def judge : Option Ending → Result
  | .none => .none
  | some .returned => .none
  | some (.raised (.lifespan t)) => .error (.lifespan t)
  | some (.raised _) => .none
  | some .cancelled => .cancelled

/-- `exception()` returns (62-85) -/
def resume (s : St) : Option (Result × St) :=
  match s.waiter with
  | .pending => .none
  | .result => some (.none, { s with waiter := .pending })
  | .cancelled => some (judge s.task, s)

/-- The worker goes on: tremolo.py:318-321 at start-up, 471-474 at shutdown. -/
def worker (s : St) : St :=
  match s.phase, resume s with
  | .starting, some (.none, t) => { t with phase := .serving }
  | .starting, some (.error e, t) => { t with phase := .failed (some e) }
  | .starting, some (.cancelled, t) => { t with phase := .failed none }
  | .stopping, some (.none, t) => { t with phase := .stopped }
  | .stopping, some (.error e, t) => { t with phase := .stopped, logged := t.logged ++ [e] }
  | .stopping, some (.cancelled, t) => { t with phase := .failed none }
  | _, _ => s

/-- One event (asgi_lifespan.py:17-88). -/
def step (s : St) : Ev → St
  | .receive =>
    match s.queue with
    | [] => s
    | x :: q => { s with queue := q, received := s.received ++ [x] }
  | .send m => send m s
  | .finish o => finish o s
  | .timer => if s.phase = .starting ∨ s.phase = .stopping then cancel s else s
  | .resume => worker s
  | .stop => if s.phase = .serving then { s with phase := .stopping, queue := s.queue ++ [.shutdown] } else s

/-- Events in order (asgi_lifespan.py:17-88). -/
def run (s : St) (es : List Ev) : St := es.foldl step s

end Verif.Model.Lifespan
