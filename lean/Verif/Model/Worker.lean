import Verif.Model.Queue
/-!
# Model of the connections of one worker and the queues they share

`connection_made`, `connection_lost` (tremolo/lib/http_protocol.py:75-99, 506-538), the detour of `connection_lost` over
the close middlewares (tremolo/http_server.py:30-57), and everything that touches `self.queue`: `put_nowait` by the tasks
of a connection, `put_to_queue` (138-160), which is given the queue object once and goes on putting to it, the `get` of
`_send_data` (421-423) and of `Request.recv` (tremolo/lib/request.py:31-33), `get_nowait` (502).

The worker keeps one pair of `Queue` objects for each descriptor, forever (`worker.queues`, tremolo/lib/contexts.py:28).
The object of a descriptor that is not in `worker.queues` yet is the empty one. The queue objects are those of
`Verif.Model.Queue`. Every item is put with the number of the connection that put it.

asyncio calls `connection_lost` and then closes the socket (`_SelectorTransport._call_connection_lost`), so that the
descriptor can be given out again once `connection_lost` has returned.

Simplified: the tasks of a connection are not modelled as programs; they may do whatever a task can do to a queue, at any
time. `cleanup` cancels the waiting calls in the order of their numbers (`self.tasks` is a set); a cancelled
call ends with CancelledError in each order. What the calls return is what matters: `_send_data` writes it to the transport
of its own connection, `recv` gives it to the handler of its own connection.
-/
namespace Verif.Model.Worker
open Verif.Model

/-- A queue object, with the connection that made each call of `get`, and whether the call belongs to a task in
`self.tasks` of that connection or awaited by such a task (`tied`). Otherwise it is a task that the application made (lib/queue.py:8-12, lib/contexts.py:28). -/
structure Obj (α : Type) where
  q : Queue.St (Nat × α) := {}
  owner : List (Nat × Bool) := []

/-- A connection. `attached`: `self.queue` holds the queues of the descriptor. `isOpen`: the socket is open.
`live`: `connection_made` did not abort (lib/http_protocol.py:38-52, 75-99). -/
structure Conn where
  fd : Nat
  attached : Bool := true
  isOpen : Bool := true
  live : Bool := true
deriving DecidableEq, Repr

/-- A running `put_to_queue`, with the queue object it was given (lib/http_protocol.py:138-160). -/
structure Hold where
  conn : Nat
  fd : Nat
  side : Bool
  tied : Bool
  alive : Bool := true
deriving DecidableEq, Repr

/-- `objs fd false` is `queue[0]` (what the client sends), `objs fd true` is `queue[1]` (what it is sent).
`got`: what `get_nowait` returned, and to which connection. -/
structure St (α : Type) where
  objs : Nat → Bool → Obj α := fun _ _ => {}
  conns : List Conn := []
  holds : List Hold := []
  got : List (Nat × Bool × Nat × α) := []

variable {α : Type}

/-- The events (lib/http_protocol.py:75-99, 138-160, 421-423, 506-538). -/
inductive Ev (α : Type)
  /-- a client connects, and its socket has this descriptor -/
  | made (fd : Nat)
  /-- a task of the connection puts to `self.queue[side]` -/
  | put (c : Nat) (side : Bool) (x : α)
  /-- a task calls `put_to_queue(.., queue=self.queue[side])` -/
  | hold (c : Nat) (side tied : Bool)
  /-- that `put_to_queue` puts a piece -/
  | putHeld (h : Nat) (x : α)
  /-- a task calls `self.queue[side].get()` -/
  | get (c : Nat) (side tied : Bool)
  | getNowait (c : Nat) (side : Bool)
  /-- the event loop runs a waiting call -/
  | resume (fd : Nat) (side : Bool) (t : Nat)
  /-- a waiting call is cancelled, as by the timer in `recv` -/
  | cancel (fd : Nat) (side : Bool) (t : Nat)
  /-- asyncio calls `connection_lost` and closes the socket -/
  | lost (c : Nat)
  /-- the task of the close middlewares comes to its `finally` (http_server.py:43-44) -/
  | cleanup (c : Nat)
deriving DecidableEq, Repr

/-- The object of a descriptor and a side changes by `f` (lib/contexts.py:28). -/
def onObj (s : St α) (fd : Nat) (side : Bool) (f : Obj α → Obj α) : St α :=
  { s with objs := fun fd' side' => if fd' = fd ∧ side' = side then f (s.objs fd' side') else s.objs fd' side' }

/-- `put_nowait` by connection `c` (lib/queue.py:17-25). -/
def putObj (c : Nat) (x : α) (o : Obj α) : Obj α := { o with q := Queue.put (c, x) o.q }
/-- A call of `get` by connection `c` (lib/queue.py:27-37). -/
def getObj (c : Nat) (tied : Bool) (o : Obj α) : Obj α := { q := Queue.start o.q, owner := o.owner ++ [(c, tied)] }
/-- A call of `get` goes on (lib/queue.py:27-37). -/
def resumeObj (t : Nat) (o : Obj α) : Obj α := { o with q := Queue.resume t o.q }
/-- A call of `get` is cancelled (lib/queue.py:27-37). -/
def cancelObj (t : Nat) (o : Obj α) : Obj α := { o with q := Queue.cancel t o.q }

/-- The tasks of connection `c` are cancelled (510-523), and the queue is cleared (525-529). -/
def clearObj (c : Nat) (o : Obj α) : Obj α :=
  { o with q := Queue.clear ((List.range o.owner.length).foldl
      (fun q t => if o.owner[t]? = some (c, true) then Queue.cancel t q else q) o.q) }

/-- `HTTPProtocol.connection_lost` (506-538). -/
def cleanup (c : Nat) (s : St α) : St α :=
  match s.conns[c]? with
  | some k =>
    if k.attached then
      let s := onObj (onObj s k.fd false (clearObj c)) k.fd true (clearObj c)
      { s with
        conns := s.conns.set c { k with attached := false }
        holds := s.holds.map fun h => if h.conn = c ∧ h.tied then { h with alive := false } else h }
    else s
  | none => s

/-- A connection whose tasks can use `self.queue` (lib/http_protocol.py:75-99). -/
def usable (s : St α) (c : Nat) : Option Conn :=
  match s.conns[c]? with
  | some k => if k.attached && k.live then some k else none
  | none => none

/-- `closeMw`: there are close middlewares (lib/http_protocol.py:75-99, 138-160, 421-423, 506-538, http_server.py:30-57). -/
def step (closeMw : Bool) (s : St α) : Ev α → St α
  | .made fd =>
    -- 75-99; the system gives no descriptor out twice
    if s.conns.any (fun k => k.isOpen && k.fd == fd) then s
    else { s with conns := s.conns ++ [{ fd := fd, live := (s.objs fd false).q.queue.isEmpty }] }
  | .put c side x =>
    match usable s c with
    | some k => onObj s k.fd side (putObj c x)
    | none => s
  | .hold c side tied =>
    match usable s c with
    | some k => { s with holds := s.holds ++ [{ conn := c, fd := k.fd, side := side, tied := tied }] }
    | none => s
  | .putHeld h x =>
    match s.holds[h]? with
    | some h => if h.alive then onObj s h.fd h.side (putObj h.conn x) else s
    | none => s
  | .get c side tied =>
    match usable s c with
    | some k => onObj s k.fd side (getObj c tied)
    | none => s
  | .getNowait c side =>
    match usable s c with
    | some k =>
      match (s.objs k.fd side).q.queue with
      | x :: _ => { (onObj s k.fd side fun o => { o with q := Queue.getNowait o.q }) with got := s.got ++ [(c, side, x)] }
      | [] => s
    | none => s
  | .resume fd side t => onObj s fd side (resumeObj t)
  | .cancel fd side t => onObj s fd side (cancelObj t)
  | .lost c =>
    match s.conns[c]? with
    | some k =>
      if k.isOpen then
        if closeMw then { s with conns := s.conns.set c { k with isOpen := false } }
        else cleanup c { s with conns := s.conns.set c { k with isOpen := false } }
      else s
    | none => s
  | .cleanup c =>
    match s.conns[c]? with
    | some k => if closeMw && !k.isOpen then cleanup c s else s
    | none => s

/-- Events in order (lib/http_protocol.py:75-99, 138-160, 421-423, 506-538). -/
def run (closeMw : Bool) (s : St α) (es : List (Ev α)) : St α := es.foldl (step closeMw) s

end Verif.Model.Worker
