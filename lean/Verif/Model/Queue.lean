/-!
# Model of `Queue` (tremolo/lib/queue.py) under asyncio

Each call of `get` is a task of its own (`Request.recv` makes one with `create_task`; `_send_data` awaits it in its task).
Futures and calls are numbered in the order in which they are made. The event loop may run the woken calls in any order,
with other events in between; that is more than asyncio allows, so theorems for all schedules cover asyncio.
-/
namespace Verif.Model.Queue

/-- A future in `_getters` (lib/queue.py:17-37). -/
inductive Fut (α : Type) | pending | result (x : α) | cancelled
deriving DecidableEq, Repr

/-- How a call of `get` ended (lib/queue.py:27-37). -/
inductive Res (α : Type) | got (x : α) | cancelledError
deriving DecidableEq, Repr

/-- Where a call of `get` is: in `await self._getters[-1]` (28), in `await fut` (36), or at its end. -/
inductive Call (α : Type) | other (f : Nat) | own (f : Nat) | done (r : Res α)
deriving DecidableEq, Repr

/-- Who was handed an item: a call of `get`, or a call of `get_nowait` (lib/queue.py:17-41). -/
inductive Dest | call (t : Nat) | nowait
deriving DecidableEq, Repr

/-- The queue object with its futures and calls, and what was put and handed out (lib/queue.py:8-12). -/
structure St (α : Type) where
  queue : List α := []
  getters : List Nat := []
  /-- the futures, each with the number of the call that made it -/
  futs : List (Nat × Fut α) := []
  calls : List (Call α) := []
  /-- calls that were cancelled when the future they waited for was done already (`Task._must_cancel`) -/
  must : List Nat := []
  /-- history: the items put, and the items handed over with their receivers (when `set_result` or `popleft` ran) -/
  put : List α := []
  handed : List (Dest × α) := []
deriving DecidableEq, Repr

variable {α : Type}

/-- The future `f` becomes `x` (lib/queue.py:17-37). -/
def setFut (s : St α) (f : Nat) (x : Nat × Fut α) : St α := { s with futs := s.futs.set f x }
/-- The call `t` becomes `x` (lib/queue.py:27-37). -/
def setCall (s : St α) (t : Nat) (x : Call α) : St α := { s with calls := s.calls.set t x }

/-- `put_nowait` (17-25). -/
def putLoop (x : α) : List Nat → St α → St α
  | [], s => { s with getters := [], queue := s.queue ++ [x] }
  | f :: gs, s =>
    match s.futs[f]? with
    | some (t, .pending) => { (setFut s f (t, .result x)) with getters := gs, handed := s.handed ++ [(.call t, x)] }
    | _ => putLoop x gs s
/-- `put_nowait`, with the history (lib/queue.py:17-25). -/
def put (x : α) (s : St α) : St α := { (putLoop x s.getters s) with put := s.put ++ [x] }

/-- Lines 30-36: the part of `get` behind the first `await`. `t` is the number of the call. -/
def tail (t : Nat) (s : St α) : St α :=
  match s.queue with
  | x :: q => { (setCall s t (.done (.got x))) with queue := q, handed := s.handed ++ [(.call t, x)] }
  | [] =>
    let f := s.futs.length
    { (setCall s t (.own f)) with futs := s.futs ++ [(t, .pending)], getters := s.getters ++ [f] }

/-- A new call of `get` (27-36), up to where it waits or ends. Awaiting a future that is done already goes on at once. -/
def start (s : St α) : St α :=
  let t := s.calls.length
  let s' := { s with calls := s.calls ++ [.done .cancelledError] }
  match s.getters.getLast? with
  | none => tail t s'
  | some f =>
    match s.futs[f]? with
    | some (_, .pending) => setCall s' t (.other f)
    | some (_, .result _) => tail t s'
    | _ => s'

/-- `get_nowait` (38-39); nothing happens on an empty queue (IndexError). -/
def getNowait (s : St α) : St α :=
  match s.queue with
  | x :: q => { s with queue := q, handed := s.handed ++ [(.nowait, x)] }
  | [] => s

/-- The event loop runs a waiting call, if the future it waits for is done (lib/queue.py:27-37). -/
def resume (t : Nat) (s : St α) : St α :=
  match s.calls[t]? with
  | some (.other f) =>
    match s.futs[f]? with
    | some (_, .result _) => if t ∈ s.must then setCall s t (.done .cancelledError) else tail t s
    | some (_, .cancelled) => setCall s t (.done .cancelledError)
    | _ => s
  | some (.own f) =>
    match s.futs[f]? with
    | some (_, .result x) => if t ∈ s.must then setCall s t (.done .cancelledError) else setCall s t (.done (.got x))
    | some (_, .cancelled) => setCall s t (.done .cancelledError)
    | _ => s
  | _ => s

/-- `Task.cancel()`: cancels the future the call waits for, or, if that is done, has CancelledError raised later (lib/queue.py:27-37). -/
def cancel (t : Nat) (s : St α) : St α :=
  match s.calls[t]? with
  | some (.other f) | some (.own f) =>
    match s.futs[f]? with
    | some (o, .pending) => setFut s f (o, .cancelled)
    | _ => { s with must := t :: s.must }
  | _ => s

/-- `clear` (42-46); history is forgotten. -/
def clear (s : St α) : St α := { s with queue := [], getters := [], put := s.handed.map (·.2) }

/-- The events (lib/queue.py:8-47). -/
inductive Ev (α : Type) | put (x : α) | start | getNowait | resume (t : Nat) | cancel (t : Nat) | clear
deriving DecidableEq, Repr

/-- One event (lib/queue.py:8-47). -/
def step (s : St α) : Ev α → St α
  | .put x => put x s
  | .start => start s
  | .getNowait => getNowait s
  | .resume t => resume t s
  | .cancel t => cancel t s
  | .clear => clear s

/-- Events in order (lib/queue.py:8-47). -/
def run (s : St α) (es : List (Ev α)) : St α := es.foldl step s

end Verif.Model.Queue
