import Verif.Py.Util
/-!
# The life of a worker (tremolo/tremolo.py:227-454 `_serve`, 456-474 `_worker_stop`, 476-478 `_stop`, 480-522 `_worker`)

`_worker` runs the task `_serve` with `run_until_complete`. It calls the `worker_start` hooks (or the lifespan startup of
the ASGI application), creates the server, loops, and on its way out closes the server and calls the `worker_stop` hooks.
Ctrl-C reaches the worker as KeyboardInterrupt, either while the loop waits or inside a step of the task; the worker then goes
on in `run_forever` until `_stop`, which awaits the task, has stopped the loop.

An ASGI application counts as one start hook and one stop hook; an error of the latter is only logged (470-474).
Simplified: the loop of `_serve` is `Verif.Model.Supervisor`; here it ends by an event. All other work of the worker is left out. The
KeyboardInterrupt inside a step of another task ends that task and is otherwise as while the loop waits.
-/
namespace Verif.Model.WorkerLife

/-- The number of start hooks and stop hooks (tremolo.py:266-321, 456-474). -/
structure Cfg where
  starts : Nat
  stops : Nat
  asgi : Bool := false

/-- What a hook does: it returns something true or false, or raises; `pipe` if it is one of BrokenPipeError, ConnectionResetError and EOFError (tremolo.py:271-276, 456-474). -/
inductive Hook | truthy | falsy | raises (pipe : Bool)
deriving DecidableEq, Repr

/-- How the task ends: it returns, an Exception, SystemExit, KeyboardInterrupt (tremolo.py:480-522). -/
inductive Out | ret | exc | exit | kbd
deriving DecidableEq, Repr

/-- What is recorded (tremolo.py:227-478). -/
inductive Act | start (i : Nat) (r : Hook) | listen | close | stop (i : Nat) (r : Hook)
deriving DecidableEq, Repr

/-- Where `_serve` is: start hook `i` is due (or creating the server, when there are none left), in the loop, in `wait_closed`, `k` stop hooks are left, done.
`guarded`: inside the `try` of 390, whose `except` (449) leaves the loop and shuts down. -/
inductive Pc | start (i : Nat) | serving | closing (o : Out) (guarded : Bool) | stopping (k : Nat) (o : Out) (guarded : Bool) | done (o : Out)
deriving DecidableEq, Repr

/-- The worker (tremolo.py:227-522). -/
structure St where
  pc : Pc := .start 0
  /-- in the `except KeyboardInterrupt` of `_worker` -/
  intr : Bool := false
  /-- the exit code of the process -/
  proc : Option Nat := none
  log : List Act := []
deriving DecidableEq, Repr

/-- The events (tremolo.py:227-522). -/
inductive Ev
  /-- the hook that is due is called -/
  | hook (r : Hook)
  /-- `create_server` returns (327-362) -/
  | created
  /-- any other exception in `_serve` before it closes the server -/
  | fail
  /-- the loop ends: the answer 0, a broken pipe -/
  | leave
  /-- lines 429-437: changed code -/
  | reload
  /-- line 438: too much memory -/
  | memory
  /-- `wait_closed` returns -/
  | closed
  /-- Ctrl-C, inside a step of the task or not -/
  | ctrlC (inside : Bool)
  /-- the loop runs what waits for the end of the task -/
  | wake
deriving DecidableEq, Repr

/-- The end of the task. SystemExit leaves `run_until_complete` or `run_forever` at once (tremolo.py:480-522). -/
def finish (o : Out) (s : St) : St := { s with pc := .done o, proc := if o = .exit then some 1 else s.proc }

/-- `while i > 0` (460). -/
def stopFrom (k : Nat) (o : Out) (g : Bool) (s : St) : St := if k = 0 then finish o s else { s with pc := .stopping k o g }

/-- A hook is called (tremolo.py:271-276, 456-474). -/
def hook (c : Cfg) (r : Hook) (s : St) : St :=
  match s.pc with
  | .start i =>
    if i < c.starts then
      let s := { s with log := s.log ++ [.start i r] }
      match r with
      | .truthy => { s with pc := .start c.starts }
      | .falsy => { s with pc := .start (i + 1) }
      | .raises _ => finish .exc s
    else s
  | .stopping k o g =>
    let s := { s with log := s.log ++ [.stop (k - 1) r] }
    match r with
    | .truthy => finish o s
    | .falsy => stopFrom (k - 1) o g s
    | .raises p =>
      if c.asgi then stopFrom (k - 1) o g s
      else if g && p then { s with pc := .closing .ret false, log := s.log ++ [.close] }
      else finish .exc s
  | _ => s

/-- Lines 508-512. -/
def ctrlC (inside : Bool) (s : St) : St :=
  let s := match s.pc with
    | .done _ => s
    | _ => if inside then { s with pc := .done .kbd } else s
  if s.intr then { s with proc := some 1 } else { s with intr := true }

/-- Lines 476-478 and 508-522. -/
def wake (s : St) : St :=
  match s.pc with
  | .done .ret => { s with proc := some 0 }
  | .done .exc => if s.intr then s else { s with proc := some 1 }
  | .done _ => { s with proc := some 1 }
  | _ => s

/-- One event (tremolo.py:227-522). -/
def step (c : Cfg) (s : St) (e : Ev) : St :=
  if s.proc ≠ none then s
  else match e, s.pc with
    | .hook r, _ => hook c r s
    | .created, .start i => if i < c.starts then s else { s with pc := .serving, log := s.log ++ [.listen] }
    | .fail, .start _ => finish .exc s
    | .fail, .serving => finish .exc s
    | .leave, .serving => { s with pc := .closing .ret false, log := s.log ++ [.close] }
    | .reload, .serving => { s with pc := .closing .ret true, log := s.log ++ [.close] }
    | .memory, .serving => { s with pc := .closing .exit true, log := s.log ++ [.close] }
    | .closed, .closing o g => stopFrom c.stops o g s
    | .ctrlC i, _ => ctrlC i s
    | .wake, _ => wake s
    | _, _ => s

/-- Events in order (tremolo.py:227-522). -/
def run (c : Cfg) (es : List Ev) : St := es.foldl (step c) {}

end Verif.Model.WorkerLife
