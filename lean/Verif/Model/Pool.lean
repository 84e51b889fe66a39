import Verif.Model.Conn
import Verif.Model.Connections
/-!
# Model of the connections of a worker and the table of those that are kept

All connections of a worker share one `KeepAliveConnections` (tremolo/tremolo.py:260-262, 355). A connection enters it in
`_handle_keepalive` (tremolo/lib/http_protocol.py:467-469), is closed there if it is not in it (471-476), and is deleted from
it when it is lost (506-508). Each connection is that of `Model/Conn`, whose `registered` is `self in _connections`.

`lost` is the moment of line 507, which with close hooks (tremolo/http_server.py:30-57) is later than the loss itself. What a
connection does behind that is not modelled here (see `Model/Worker`), so every connection has queues of its own (C50).
-/
namespace Verif.Model.Pool
open Model.Connections (Table)

/-- A connection object (lib/http_protocol.py:38-52), and whether `connection_lost` (506-508) has run. -/
structure Cn where
  s : Conn.St := {}
  lost : Bool := false
deriving DecidableEq, Repr

/-- The connections of a worker in the order in which they were made, and `_connections` (tremolo.py:260-262, 355). -/
structure St where
  conns : List Cn := []
  table : Table Nat Unit

/-- A client connects (lib/http_protocol.py:75-98); something happens on connection `i`; `connection_lost` (506-508). -/
inductive Ev
  | made
  | on (i : Nat) (e : Conn.Ev)
  | lost (i : Nat)
deriving DecidableEq, Repr

/-- `self in self.options['_connections']` (lib/http_protocol.py:471) for all connections. -/
def sync (t : Table Nat Unit) (l : List Cn) : List Cn :=
  l.mapIdx (fun j x => { x with s := { x.s with registered := Connections.mem t j } })

/-- One event. Being pushed out of the table is no event of its own here (lib/http_protocol.py:75-98, 466-476, 506-508). -/
def step (c : Conn.Cfg) (p : St) : Ev → St
  | .made => { p with conns := p.conns ++ [{}] }
  | .on i e =>
    match p.conns[i]? with
    | some x =>
      if x.lost = true ∨ e = .kick then p
      else
        let s := Conn.step c x.s e
        let t := if s.registered then Connections.set p.table i () else p.table
        { conns := sync t (p.conns.set i { x with s := s }), table := t }
    | none => p
  | .lost i =>
    match p.conns[i]? with
    | some x =>
      let t := Connections.del p.table i
      { conns := sync t (p.conns.set i { x with lost := true }), table := t }
    | none => p

/-- Events in order (lib/http_protocol.py:75-98, 466-476, 506-508). -/
def run (c : Conn.Cfg) (p : St) (es : List Ev) : St := es.foldl (step c) p

/-- A new worker with the option `keepalive_connections` (tremolo.py:260-262); `n` is at least 1, or the worker does not start. -/
def init (n : Nat) : St := { table := { maxlen := n, items := [] } }

end Verif.Model.Pool
