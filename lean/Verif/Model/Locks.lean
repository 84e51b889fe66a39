/-!
# Model of `ServerLock` (tremolo/lib/locks.py)

The locks are `multiprocessing.Lock`s (tremolo.py:627-630), shared by all workers: `acquire` waits in a thread, and
`release` frees the lock whoever holds it, with ValueError if nobody does. Each worker has one thread per lock (24-25), so
the acquires of one worker for one lock run one after the other. Every `async with lock(name):` is one task here; a task that
enters several times is several entries. Time is not modelled: a timer may fire whenever the future is pending, and
`acquire(True, timeout)` may give up whenever the lock is held.
-/
namespace Verif.Model.Locks

/-- The work item in the executor (lib/locks.py:46-65). -/
inductive Thread | queued | trying | ended | dropped
deriving DecidableEq, Repr

/-- The asyncio future that `run_in_executor` returns. `sent b`: the thread ended with `b`, the loop has not seen it yet (lib/locks.py:46-65). -/
inductive Fut | pending | sent (b : Bool) | result (b : Bool) | cancelled
deriving DecidableEq, Repr

/-- The task that enters: it waits in `acquire`, is inside, or has left (lib/locks.py:37-44). -/
inductive Task | waiting | inside | left
deriving DecidableEq, Repr

/-- One `async with lock(name):` (lib/locks.py:27-71). -/
structure Entry where
  worker : Nat
  /-- `self.name` (11): the lock's index -/
  idx : Nat
  thread : Thread := .queued
  fut : Fut := .pending
  task : Task := .waiting
deriving DecidableEq, Repr

/-- The locks and all entries (lib/locks.py:8-25). -/
structure St where
  /-- the locks: held or not -/
  locks : List Bool
  entries : List Entry := []
deriving DecidableEq, Repr

/-- The entry `t` becomes `e` (lib/locks.py:8-25). -/
def setEntry (s : St) (t : Nat) (e : Entry) : St := { s with entries := s.entries.set t e }

/-- `release` (67-71): frees the lock; ValueError is ignored. -/
def release (i : Nat) (s : St) : St := { s with locks := s.locks.set i false }

/-- `async with lock(name)` begins (27-39, 50-52): the work item is queued. -/
def enter (w name : Nat) (s : St) : St :=
  { s with entries := s.entries ++ [{ worker := w, idx := name % s.locks.length }] }

/-- The executor's thread of (worker, lock) starts the next work item when it is idle (lib/locks.py:24-25, 46-65). -/
def begin (t : Nat) (s : St) : St :=
  match s.entries[t]? with
  | some e =>
    if e.thread = .queued ∧ (s.entries.take t).all (fun d => !(d.worker == e.worker && d.idx == e.idx &&
      (d.thread == .queued || d.thread == .trying))) then setEntry s t { e with thread := .trying } else s
  | none => s

/-- The thread has ended with `b` (lib/locks.py:46-65). -/
def endFut (b : Bool) (f : Fut) : Fut := if f = .pending then .sent b else f

/-- `Lock.acquire` in the thread gets the lock (lib/locks.py:46-65). -/
def take (t : Nat) (s : St) : St :=
  match s.entries[t]? with
  | some e =>
    if e.thread = .trying ∧ s.locks[e.idx]? = some false then
      { (setEntry s t { e with thread := .ended, fut := endFut true e.fut }) with locks := s.locks.set e.idx true }
    else s
  | none => s

/-- `Lock.acquire` in the thread returns False after the timeout (lib/locks.py:46-65). -/
def giveUp (t : Nat) (s : St) : St :=
  match s.entries[t]? with
  | some e => if e.thread = .trying then setEntry s t { e with thread := .ended, fut := endFut false e.fut } else s
  | none => s

/-- The loop sets the result of the future (`call_soon_threadsafe`) (lib/locks.py:46-65). -/
def deliver (t : Nat) (s : St) : St :=
  match s.entries[t]? with
  | some e => match e.fut with
    | .sent b => setEntry s t { e with fut := .result b }
    | _ => s
  | none => s

/-- The timer of line 54 fires: `fut.cancel()`, which also drops the work item if it has not started. -/
def timer (t : Nat) (s : St) : St :=
  match s.entries[t]? with
  | some e => match e.fut with
    | .pending => setEntry s t { e with fut := .cancelled, thread := if e.thread = .queued then .dropped else e.thread }
    | .sent _ => setEntry s t { e with fut := .cancelled }
    | _ => s
  | none => s

/-- The waiting task is cancelled: its future, if pending; else CancelledError is raised at the await. Either way line 59
catches it. -/
def cancel (t : Nat) (s : St) : St :=
  match s.entries[t]? with
  | some e => if e.task = .waiting then
      setEntry s t { e with fut := .cancelled, thread := if e.thread = .queued then .dropped else e.thread } else s
  | none => s

/-- The task goes on behind `await fut` (57-65, 38-41): on False or CancelledError `__aenter__` catches TimeoutError,
releases the lock and returns, so the body runs. -/
def resume (t : Nat) (s : St) : St :=
  match s.entries[t]? with
  | some e =>
    if e.task = .waiting then
      match e.fut with
      | .result true => setEntry s t { e with task := .inside }
      | .result false | .cancelled => release e.idx (setEntry s t { e with task := .inside })
      | _ => s
    else s
  | none => s

/-- The body ends: `__aexit__` (43-44). -/
def leave (t : Nat) (s : St) : St :=
  match s.entries[t]? with
  | some e => if e.task = .inside then release e.idx (setEntry s t { e with task := .left }) else s
  | none => s

/-- The events (lib/locks.py:27-71). -/
inductive Ev | enter (w name : Nat) | begin (t : Nat) | take (t : Nat) | giveUp (t : Nat) | deliver (t : Nat) | timer (t : Nat)
  | cancel (t : Nat) | resume (t : Nat) | leave (t : Nat)
deriving DecidableEq, Repr

/-- One event (lib/locks.py:27-71). -/
def step (s : St) : Ev → St
  | .enter w n => enter w n s
  | .begin t => begin t s
  | .take t => take t s
  | .giveUp t => giveUp t s
  | .deliver t => deliver t s
  | .timer t => timer t s
  | .cancel t => cancel t s
  | .resume t => resume t s
  | .leave t => leave t s

/-- Events in order (lib/locks.py:27-71). -/
def run (s : St) (es : List Ev) : St := es.foldl step s

/-- `n` free locks (tremolo.py:630). -/
def init (n : Nat) : St := { locks := List.replicate n false }

end Verif.Model.Locks
