import Verif.Model.Conn
/-!
# Model of the timers that limit how long a connection waits for a head (tremolo/lib/http_protocol.py)

`connection_made` makes the future 'request' and starts a timer of `request_timeout` for it (91-98); every reset in
`_handle_keepalive` makes a future 'keepalive' with a timer of `keepalive_timeout` (490-498). The timer cancels the future
(127), whereupon `set_timeout` aborts the connection (131-137); it is cancelled when the future is done (139), which
`_handle_request` does just before it starts the handler (335-341). The futures are those of `Model/Conn`, where `futDone`
lists them; here they get a clock. Time is a natural number.

Simplifications: the task of `set_timeout` runs as soon as it is made, and aborts as soon as its future is cancelled. The
timer of the 'send' future (447-453) remains the untimed event `abort` of `Model/Conn`.
-/
namespace Verif.Model.Timers
open Verif.Model.Conn

/-- The options (lib/http_protocol.py:75-98, 466-504). -/
structure Cfg where
  conn : Conn.Cfg := {}
  requestTimeout : Nat := 30
  keepaliveTimeout : Nat := 30
deriving DecidableEq, Repr

/-- The time that the timer of the future of generation `g` allows (95, 496). -/
def limit (c : Cfg) : Nat → Nat
  | 0 => c.requestTimeout
  | _ + 1 => c.keepaliveTimeout

/-- `born`: when the futures were made. `aborts`: the timers that aborted the connection, and when (lib/http_protocol.py:75-137). -/
structure St where
  s : Conn.St := {}
  now : Nat := 0
  born : List Nat := [0]
  aborts : List (Nat × Nat) := []
deriving DecidableEq, Repr

/-- The events (lib/http_protocol.py:75-137, 490-498). -/
inductive Ev
  | tick
  | conn (e : Conn.Ev)
  /-- the timer of future `g` runs -/
  | fire (g : Nat)
deriving DecidableEq, Repr

/-- The timer of future `g` has not been cancelled, and its time has come (lib/http_protocol.py:114-137). -/
def due (c : Cfg) (t : St) (g : Nat) : Bool :=
  t.s.futDone[g]? == some false && (match t.born[g]? with | some b => decide (b + limit c g ≤ t.now) | none => false)

/-- One event; an event that cannot happen changes nothing. `abort` (100-105) does nothing on a connection being closed. -/
def step (c : Cfg) (t : St) : Ev → St
  | .tick => { t with now := t.now + 1 }
  | .conn e =>
    let s := Conn.step c.conn t.s e
    { t with s := s, born := t.born ++ List.replicate (s.futDone.length - t.born.length) t.now }
  | .fire g => if due c t g && !t.s.closing then { t with s := Conn.abort t.s, aborts := t.aborts ++ [(g, t.now)] } else t

/-- Events in order (lib/http_protocol.py:75-137, 490-498). -/
def run (c : Cfg) (es : List Ev) : St := es.foldl (step c) {}

end Verif.Model.Timers
