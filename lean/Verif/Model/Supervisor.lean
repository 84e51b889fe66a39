import Verif.Py.Util
/-!
# Model of the parent process and its workers (tremolo/tremolo.py)

`run` (595-804, from 702) starts the workers, then visits them in turn for ever: a worker that has ended is replaced, pings are answered with
the number of workers. A worker (`_serve`, 227-454) tells its pid, starts up, and then pings the parent, waits for up to
`2 * process_num` seconds, and takes the answer; an answer 0 or a broken pipe ends it. SIGTERM or Ctrl-C makes the parent send 0 to
all workers in turn and wait for each.

A step is what a process does between two operations on a pipe. One second of a worker's waiting is the event `sec`. Pipes are
socket pairs as on Linux: reading from a pipe whose other end is closed raises EOFError once it is empty, writing to it raises
BrokenPipeError. The parent keeps its copy of the worker's end of the pipe it made last (the variable `child_conn`, 703 and 762), so that
this pipe is never closed for it. Not modelled: Windows (`share`), and what becomes of the pipes after an exception in the parent.
-/
namespace Verif.Model.Supervisor

/-- What a worker sends: its pid (228), or the ping `None` (392). -/
inductive Up | pid | ping
deriving DecidableEq, Repr

/-- A worker: before it told its pid, starting up, about to ping, waiting with some seconds left, in `recv()` (448), shutting down
with an exit code to come, and ended. -/
inductive Child | starting | setup | pinging | polling (k : Nat) | receiving | stopping (code : Nat) | exited (code : Nat)
deriving DecidableEq, Repr

/-- A place in `processes` with its pipe; `pings` and `replies` count the pings the worker has sent and the answers
other than 0 it has received. -/
structure Slot where
  child : Child := .starting
  /-- `process_num` (385) -/
  num : Nat := 1
  up : List Up := []
  down : List Nat := []
  /-- the parent has closed its end -/
  closed : Bool := false
  /-- `processes[i]` still has the closed pipe of the worker before -/
  stale : Bool := false
  /-- how many workers there were before in this place -/
  life : Nat := 0
  pings : Nat := 0
  replies : Nat := 0
deriving DecidableEq, Repr

/-- Where the parent is: starting worker `i` (702-721), waiting for its pid (716, 774), at the top of the loop (728), answering pings
(782-790), sending 0 (796-799), joining (800), done, or ended by an exception. -/
inductive Pc | launch (i : Nat) | await (i : Nat) (boot : Bool) | visit (i : Nat) | answer (i : Nat) | stop (i : Nat) | join (i : Nat) | ended | crashed
deriving DecidableEq, Repr

/-- The parent with its workers (tremolo.py:702-792). -/
structure St where
  slots : List Slot := []
  pc : Pc := .launch 0
  /-- whose `child_conn` the parent holds -/
  held : Option Nat := none
deriving DecidableEq, Repr

/-- The events (tremolo.py:227-454, 702-804). -/
inductive Ev
  /-- a step of the parent; if `fail`, then making the new process raises an exception (reloading modules, sockets) -/
  | parent (fail : Bool)
  /-- SIGTERM or Ctrl-C -/
  | interrupt
  | pid (i : Nat) | up (i : Nat) | ping (i : Nat) | sec (i : Nat) | recv (i : Nat)
  /-- changed code (400-436), too much memory (438-443), end of the shutdown, any other end of the process -/
  | reload (i : Nat) | memory (i : Nat) | stopped (i : Nat) | die (i : Nat) (code : Nat)
deriving DecidableEq, Repr

/-- The process has ended (tremolo.py:729). -/
def ended : Child → Bool
  | .exited _ => true
  | _ => false

/-- The place `i` changes by `f` (tremolo.py:728-779). -/
def onSlot (i : Nat) (f : Slot → Slot) (s : St) : St :=
  match s.slots[i]? with
  | some x => { s with slots := s.slots.set i (f x) }
  | none => s

/-- The next worker to visit (726-728, 792). -/
def next (n i : Nat) : Pc := if i + 1 < n then .visit (i + 1) else .visit 0

/-- The other end of the pipe is closed (tremolo.py:703, 762, 789). -/
def broken (s : St) (i : Nat) (x : Slot) : Bool := ended x.child && s.held != some i

/-- `run` with `n` workers (tremolo.py:702-804). -/
def parent (n : Nat) (fail : Bool) (s : St) : St :=
  match s.pc with
  | .launch i =>
    if i < n then { s with slots := s.slots ++ [{}], held := some i, pc := .await i true } else { s with pc := .visit 0 }
  | .await i boot =>
    match s.slots[i]? with
    | none => s
    | some x =>
      match x.up with
      | [] => s
      | _ :: u => { s with slots := s.slots.set i { x with up := u, stale := false }, pc := if boot then .launch (i + 1) else .answer i }
  | .visit i =>
    match s.slots[i]? with
    | none => s
    | some x =>
      if ended x.child then
        if fail then { s with pc := .crashed }
        else { s with slots := s.slots.set i { life := x.life + 1, stale := true }, held := some i, pc := .await i false }
      else { s with pc := .answer i }
  | .answer i =>
    match s.slots[i]? with
    | none => s
    | some x =>
      match x.up with
      | [] => if broken s i x then { s with pc := .crashed } else { s with pc := next n i }
      | _ :: u =>
        if broken s i x then { s with slots := s.slots.set i { x with up := u }, pc := next n i }
        else { s with slots := s.slots.set i { x with up := u, down := x.down ++ [n] } }
  | .stop i =>
    match s.slots[i]? with
    | none => { s with pc := .ended }
    | some x =>
      if x.stale || broken s i x then { s with pc := .crashed }
      else { s with slots := s.slots.set i { x with down := x.down ++ [0], closed := true }, pc := .join i }
  | .join i =>
    match s.slots[i]? with
    | none => s
    | some x => if ended x.child then { s with pc := .stop (i + 1) } else s
  | .ended => s
  | .crashed => s

/-- Lines 394-395 and 445-446: one second, then a look at the pipe. -/
def second (x : Slot) : Slot :=
  match x.child with
  | .polling k => { x with child := if x.down ≠ [] ∨ x.closed = true ∨ k ≤ 1 then .receiving else .polling (k - 1) }
  | _ => x

/-- `process_num = options['_conn'].recv()` (448-450). -/
def receive (x : Slot) : Slot :=
  match x.child with
  | .receiving =>
    match x.down with
    | [] => if x.closed then { x with child := .stopping 0 } else x
    | m :: d => { x with down := d, num := m, replies := x.replies + (if m = 0 then 0 else 1), child := if m = 0 then .stopping 0 else .pinging }
  | _ => x

/-- Line 392. -/
def sendPing (x : Slot) : Slot :=
  match x.child with
  | .pinging => if x.closed then { x with child := .stopping 0 } else { x with up := x.up ++ [.ping], pings := x.pings + 1, child := .polling (2 * x.num) }
  | _ => x

/-- The worker waits for an answer (tremolo.py:389-395). -/
def waiting : Child → Bool
  | .polling _ => true
  | _ => false

/-- Line 228. -/
def tellPid (x : Slot) : Slot := if x.child = .starting then { x with child := .setup, up := x.up ++ [.pid] } else x

/-- Lines 229-385: the sockets, hooks and the server are ready. -/
def comeUp (x : Slot) : Slot := if x.child = .setup then { x with child := .pinging } else x

/-- Lines 400-443: the worker shuts down to be replaced. -/
def leave (code : Nat) (x : Slot) : Slot := if waiting x.child then { x with child := .stopping code } else x

/-- Lines 452-454 and the end of `_worker` (479-497). -/
def finish (x : Slot) : Slot :=
  match x.child with
  | .stopping code => { x with child := .exited code }
  | _ => x

/-- The process ends with this code, unless it has ended (tremolo.py:702-804). -/
def kill (code : Nat) (x : Slot) : Slot := if ended x.child then x else { x with child := .exited code }

/-- One event (tremolo.py:227-454, 702-804). -/
def step (n : Nat) (s : St) : Ev → St
  | .parent fail => parent n fail s
  | .interrupt =>
    match s.pc with
    | .launch _ => { s with pc := .crashed }
    | .await _ true => { s with pc := .crashed }
    | .await _ false => { s with pc := .stop 0 }
    | .visit _ => { s with pc := .stop 0 }
    | .answer _ => { s with pc := .stop 0 }
    | .stop _ => { s with pc := .crashed }
    | .join _ => { s with pc := .crashed }
    | .ended => s
    | .crashed => s
  | .pid i => onSlot i tellPid s
  | .up i => onSlot i comeUp s
  | .ping i => onSlot i sendPing s
  | .sec i => onSlot i second s
  | .recv i => onSlot i receive s
  | .reload i => onSlot i (leave 0) s
  | .memory i => onSlot i (leave 1) s
  | .stopped i => onSlot i finish s
  | .die i code => onSlot i (kill code) s

/-- Events in order (tremolo.py:227-454, 702-804). -/
def run (n : Nat) (s : St) (es : List Ev) : St := es.foldl (step n) s

end Verif.Model.Supervisor
