import Verif.Model.Queue
import Verif.Model.ErrorPage
import Verif.Py.Bytes
/-!
# Model of a handler that waits for body data (tremolo/lib/request.py, tremolo/lib/http_request.py)

`Request.recv` (request.py:30-52) reads each item of `queue[0]` with a task of its own, which a timer cancels after `keepalive_timeout`; a
CancelledError of the await becomes TimeoutError. The queue is that of `Verif.Model.Queue`. Time is a natural number; the event loop may
run what is ready in any order, with other events in between.

There is one reader, the handler (`Task.cancel` on it cancels the task that it waits for, or, if that is done, has CancelledError raised at the await).
Not modelled: what the handler does between its reads; a cancellation then is an exception of its own.
-/
namespace Verif.Model.Stall
open Verif.Py

/-- An item of `queue[0]`; `none` is the end marker. -/
abbrev Item := Option Bytes

/-- How a read ends: with a piece, with the end of the body (`break`, line 48-49, or the loop condition, 31), or with TimeoutError. -/
inductive Got | piece (d : Bytes) | eof | timeout
deriving DecidableEq, Repr

/-- A read that has ended: when it was begun and when it ended; how many items had been put by then; whether the handler was cancelled meanwhile (lib/request.py:30-52). -/
structure Read where
  t0 : Nat
  t1 : Nat
  p0 : Nat
  p1 : Nat
  cancelled : Bool
  got : Got
deriving DecidableEq, Repr

/-- Where the handler is: not in a read; the task for `get` is made but has not run (`c`: it is cancelled; `d`: it is done); the task is call `k` of the queue (lib/request.py:30-52). -/
inductive Rd
  | idle
  | fresh (t0 p0 : Nat) (c d : Bool)
  | inner (t0 p0 : Nat) (k : Nat)
deriving DecidableEq, Repr

/-- The handler, its queue, and the reads so far (lib/request.py:30-52). -/
structure St where
  now : Nat := 0
  q : Queue.St Item := {}
  /-- `protocol.queue[0] is None` (after `connection_lost`) -/
  gone : Bool := false
  rd : Rd := .idle
  /-- the handler was cancelled when the task it waits for was done -/
  must : Bool := false
  /-- the handler was cancelled in this read -/
  cancelled : Bool := false
  outs : List Read := []
  /-- history: when items were put -/
  puts : List Nat := []
deriving DecidableEq, Repr

/-- The events (lib/request.py:30-52). -/
inductive Ev
  | tick
  /-- an item is put into the queue, by `put_to_queue` or `eof_received` -/
  | put (x : Item)
  /-- the handler gets to the next item (31-40), or to the end of the loop if there is no queue -/
  | read
  /-- the task for `get` runs, first (27-36 of queue.py) or again -/
  | wake
  /-- the timer runs (36-40) -/
  | fire
  /-- `self.handler.cancel()`, by `handler_timeout` (http_protocol.py:193), say -/
  | cancel
  /-- `connection_lost` (http_protocol.py:506-537): the handler is cancelled with `_handle_request`, which awaits it, the queue is cleared -/
  | lose
  /-- the handler runs again behind `await task` (42-52) -/
  | run
deriving DecidableEq, Repr

/-- `task.cancel()` for the task of the read (lib/request.py:35-39). -/
def cancelTask (s : St) : St :=
  match s.rd with
  | .idle => s
  | .fresh t p c d => { s with rd := .fresh t p (c || !d) d }
  | .inner _ _ k => { s with q := Queue.cancel k s.q }

/-- Is the task of the read done? (lib/request.py:41-47). -/
def taskDone (s : St) : Bool :=
  match s.rd with
  | .idle => false
  | .fresh _ _ _ d => d
  | .inner _ _ k => match s.q.calls[k]? with
    | some (.done _) => true
    | _ => false

/-- `Task.cancel()` for the handler, in a read (lib/request.py:41-47). -/
def cancelHandler (s : St) : St :=
  match s.rd with
  | .idle => s
  | _ => if taskDone s then { s with must := true, cancelled := true } else { cancelTask s with cancelled := true }

/-- 48-52 and 43-44 -/
def gotOf : Queue.Res Item → Got
  | .got (some d) => .piece d
  | .got none => .eof
  | .cancelledError => .timeout

/-- The read that was begun at `t0` ends. -/
def finish (s : St) (t0 p0 : Nat) (g : Got) : St :=
  { s with rd := .idle, must := false, cancelled := false, outs := s.outs ++ [⟨t0, s.now, p0, s.puts.length, s.cancelled, if s.must then .timeout else g⟩] }

/-- One event; an event that cannot happen changes nothing. `K` is `keepalive_timeout` (lib/request.py:30-52). -/
def step (K : Nat) (s : St) : Ev → St
  | .tick => { s with now := s.now + 1 }
  | .put x => if s.gone then s else { s with q := Queue.put x s.q, puts := s.puts ++ [s.now] }
  | .read => match s.rd with
    | .idle =>
      if s.gone then { s with outs := s.outs ++ [⟨s.now, s.now, s.puts.length, s.puts.length, false, .eof⟩] }
      else { s with rd := .fresh s.now s.puts.length false false }
    | _ => s
  | .wake => match s.rd with
    | .idle => s
    | .fresh t p c d => if d then s else if c then { s with rd := .fresh t p c true } else { s with rd := .inner t p s.q.calls.length, q := Queue.start s.q }
    | .inner _ _ k => { s with q := Queue.resume k s.q }
  | .fire => match s.rd with
    | .idle => s
    | .fresh t _ _ _ => if t + K ≤ s.now then cancelTask s else s
    | .inner t _ _ => if t + K ≤ s.now then cancelTask s else s
  | .cancel => cancelHandler s
  | .lose => if s.gone then s else { cancelHandler s with gone := true, q := Queue.clear (cancelHandler s).q }
  | .run => match s.rd with
    | .idle => s
    | .fresh t p _ d => if d then finish s t p .timeout else s
    | .inner t p k => match s.q.calls[k]? with
      | some (.done r) => finish s t p (gotOf r)
      | _ => s

/-- Events in order (lib/request.py:30-52). -/
def run (K : Nat) (es : List Ev) : St := es.foldl (step K) {}

/-! ### What follows in the generators -/

/-- The reader of sized reads (http_request.py:148-167) behind generators that may raise: `dead` is that `_read_instance` has ended, by
its end or by an exception (an `async for` over it ends at once). -/
structure Sized where
  buf : Bytes := []
  eof : Bool := false
  dead : Bool := false
deriving DecidableEq, Repr

/-- The loop 158-163: pieces are taken from the generator (here: how its reads end) until there are `n` bytes. The result: the exception or not, the state, and
the reads that remain. `none` in place of a result: it still waits. -/
def fill (n : Nat) : List Got → Sized → Option (Bool × Sized × List Got)
  | gs, s =>
    if s.dead then some (true, s, gs)
    else match gs with
      | [] => none
      | .timeout :: r => some (false, { s with dead := true }, r)
      | .eof :: r => some (true, { s with dead := true, eof := true }, r)
      | .piece d :: r => if (s.buf ++ d).length ≥ n then some (true, { s with buf := s.buf ++ d }, r) else fill n r { s with buf := s.buf ++ d }

/-- `recv(n)`, `read(n)` for `n ≥ 0`, body neither chunked nor longer than announced: `some none` is TimeoutError, `none` that it waits. -/
def recvSized (n : Nat) (gs : List Got) (s : Sized) : Option (Option Bytes × Sized × List Got) :=
  if n = 0 ∨ (s.eof = true ∧ s.buf = []) then some (some [], s, gs)
  else match (if s.buf.length < n then fill n gs s else some (true, s, gs)) with
    | none => none
    | some (false, s, r) => some (none, s, r)
    | some (true, s, r) => some (some (s.buf.take n), { s with buf := s.buf.drop n }, r)

/-- `async for data in self.stream()` of `body()` (136-140): ends with the data so far and how. -/
def bodyOf : List Got → Option (Bytes × Got)
  | [] => none
  | .timeout :: _ => some ([], .timeout)
  | .eof :: _ => some ([], .eof)
  | .piece d :: r => (bodyOf r).map (fun x => (d ++ x.1, x.2))

/-- The exception of `await request.body()`, as `handle_exception` gets it when the handler does not catch it (request.py:44). -/
def excOf : Option (Bytes × Got) → Option ErrorPage.Raised
  | some (_, .timeout) => some (.timeout (some "recv timeout".toList))
  | _ => none

end Verif.Model.Stall
