import Verif.Py.Util
import Verif.Py.Bytes
/-!
# Model of `_send_data` with the flow control of the transport (tremolo/lib/http_protocol.py:408-464)

`_send_data` takes an item of `queue[1]`; if more than `_watermarks['high']` bytes are still in the transport's buffer it makes the
future 'send' and waits for `resume_writing`, for `keepalive_timeout` at most. The transport is asyncio's: it calls
`pause_writing` when its buffer exceeds its own high limit and `resume_writing` once the buffer is down to its low limit, but
only if it had called `pause_writing` before (asyncio/transports.py `_FlowControlMixin`, asyncio/sslproto.py
`_control_app_writing`, CPython 3.11). Time is a natural number.

Whether an end marker closes the connection is decided in `Model/Conn`; here the marker carries the decision. Of TLS only the flow
control is modelled: it pauses at the limit already, and looks at both limits after every change.
-/
namespace Verif.Model.SendLoop
open Verif.Py

/-- An item of `queue[1]`: bytes, or the marker `None` where the connection is kept or closed (425-436). -/
inductive Item | bytes (b : Bytes) | fin (keep : Bool)
deriving DecidableEq, Repr

/-- The bytes of an item (lib/http_protocol.py:420-464). -/
def Item.data : Item → Bytes
  | .bytes b => b
  | .fin _ => []

/-- `high0`, `low0` are the limits of a new transport: 65536 and 16384, with TLS 524288 and 131072 (asyncio). -/
structure Cfg where
  tls : Bool := false
  high0 : Nat := 65536
  low0 : Nat := 16384
  timeout : Nat := 30
deriving DecidableEq, Repr

/-- The future 'send': made at a time, its result is set, or its timer cancelled it (lib/http_protocol.py:409-411, 449-455). -/
inductive Wait | none | pending (since : Nat) | woken | expired
deriving DecidableEq, Repr

/-- The transport: open, closing, or aborted (lib/http_protocol.py:100-112). -/
inductive Mode | alive | closing | dead
deriving DecidableEq, Repr

/-- The send task and the transport (lib/http_protocol.py:413-464). -/
structure St where
  q : List Item := []
  /-- the item taken, while `_send_data` waits -/
  hand : Option Bytes := none
  wait : Wait := .none
  /-- how often it has waited -/
  waits : Nat := 0
  /-- `_watermarks['high']`; the constructor says 65536 (50) -/
  high : Nat := 65536
  /-- the transport: its limits, whether `pause_writing` was called, its buffer, and what the socket took -/
  th : Nat
  tl : Nat
  paused : Bool := false
  buf : Bytes := []
  out : Bytes := []
  mode : Mode := .alive
  /-- `_send_data` has returned -/
  done : Bool := false
  now : Nat := 0
  /-- history: the items put into the queue, and which waits ended with a timeout, and when -/
  puts : List Item := []
  expiries : List (Nat × Nat) := []
deriving DecidableEq, Repr

/-- A new connection (lib/http_protocol.py:75-98). -/
def init (c : Cfg) : St := { th := c.high0, tl := c.low0 }

/-- A future that is waited for gets its result (lib/http_protocol.py:409-411). -/
def wake : Wait → Wait
  | .pending _ => .woken
  | w => w

/-- `resume_writing` (408-410), called by the transport when the buffer is down to the low limit. -/
def maybeResume (s : St) : St :=
  if s.paused = true ∧ s.buf.length ≤ s.tl then
    { s with paused := false, wait := wake s.wait }
  else s

/-- `_maybe_pause_protocol` after the buffer has grown or the limits have changed; with TLS `_control_app_writing` (asyncio, for lib/http_protocol.py:413-418). -/
def flowControl (c : Cfg) (s : St) : St :=
  if c.tls then
    if s.th ≤ s.buf.length ∧ s.paused = false then { s with paused := true } else maybeResume s
  else if s.th < s.buf.length then { s with paused := true } else s

/-- `set_watermarks` (412-418); it has no effect behind `connection_lost`, which does not matter here. Without a low limit asyncio takes a quarter of the high one; it refuses a low limit above the
high one, but only after `_watermarks` was changed. -/
def setMarks (c : Cfg) (h : Nat) (l : Option Nat) (s : St) : St :=
  if l.getD (h / 4) ≤ h then flowControl c { s with high := h, th := h, tl := l.getD (h / 4) }
  else { s with high := h }

/-- `transport.abort()`: what is in the buffer is lost (lib/http_protocol.py:100-105). -/
def kill (s : St) : St := { s with mode := .dead, buf := [] }

/-- `transport.write(b)`, of which the socket takes `n` bytes at once if nothing is waiting before them (lib/http_protocol.py:460). -/
def write (c : Cfg) (n : Nat) (b : Bytes) (s : St) : St :=
  if s.mode = .dead ∨ b = [] then s
  else if s.buf = [] then
    if b.drop n = [] then { s with out := s.out ++ b }
    else flowControl c { s with out := s.out ++ b.take n, buf := b.drop n }
  else flowControl c { s with buf := s.buf ++ b }

/-- `_send_data` (420-464) runs up to its next await. A wait that timed out aborts the connection (`set_timeout`, 131-137). -/
def send (c : Cfg) (n : Nat) (s : St) : St :=
  if s.done then s
  else match s.hand with
    | some b => match s.wait with
      | .woken => write c n b { s with hand := none, wait := .none }
      | .expired => { (kill s) with hand := none, wait := .none }
      | _ => s
    | none => match s.q with
      | [] => s
      | .fin keep :: q => if keep then { s with q := q } else
          { s with q := q, done := true, mode := if s.mode = .alive then .closing else s.mode }
      | .bytes b :: q =>
        if s.high < s.buf.length then { s with q := q, hand := some b, wait := .pending s.now, waits := s.waits + 1 }
        else write c n b { s with q := q }

/-- The events (lib/http_protocol.py:408-464). -/
inductive Ev
  | put (x : Item)
  | marks (h : Nat) (l : Option Nat)
  | send (n : Nat)
  /-- the socket can be written to, and takes `n` bytes (`_write_ready`) -/
  | drain (n : Nat)
  | tick
  /-- the timer of the future 'send' runs (127) -/
  | timer
  /-- another timer, or an error, aborts the connection; `connection_lost` ends the task -/
  | abort | lost
deriving DecidableEq, Repr

/-- One event (lib/http_protocol.py:408-464). -/
def step (c : Cfg) (s : St) : Ev → St
  | .put x => { s with q := s.q ++ [x], puts := s.puts ++ [x] }
  | .marks h l => setMarks c h l s
  | .send n => send c n s
  | .drain n => if s.buf = [] then s else maybeResume { s with out := s.out ++ s.buf.take n, buf := s.buf.drop n }
  | .tick => { s with now := s.now + 1 }
  | .timer => match s.wait with
    | .pending t => if t + c.timeout ≤ s.now then { s with wait := .expired, expiries := s.expiries ++ [(s.waits, s.now)] } else s
    | _ => s
  | .abort => kill s
  | .lost => { (kill s) with done := true }

/-- Events in order (lib/http_protocol.py:408-464). -/
def run (c : Cfg) (s : St) (es : List Ev) : St := es.foldl (step c) s

end Verif.Model.SendLoop
