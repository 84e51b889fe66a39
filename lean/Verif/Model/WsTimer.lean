import Verif.Model.NativeWs
/-!
# Model of the timers of `WebSocket.receive` (tremolo/lib/websocket.py:108-128, tremolo/lib/request.py:30-52)

Every `recv()` starts a timer of half the `keepalive_timeout` that sends a ping (websocket.py:114-118) and is cancelled when
`recv()` ends (126). Every `queue.get()` in it starts a timer of the whole `keepalive_timeout` that cancels the wait
(request.py:35-39) and is cancelled when a piece has come (46). Time is a natural number, in units of which `half` make half the
`keepalive_timeout`. A timer runs when its time has come: `tick` is not possible before.

The coroutine is suspended within a frame; here the bytes of the incomplete frame are kept and the frame is read again from
its beginning when more bytes have come, which gives the same. Not modelled: what `receive` gives after it has raised.
-/
namespace Verif.Model.WsTimer
open Verif.Py Verif.Model.WebSocket Verif.Model.BodyStream Verif.Model.NativeWs

/-- The options (lib/websocket.py:58-64, 114-118). -/
structure Cfg where
  half : Nat := 15
  max : Nat := 2097152
deriving DecidableEq, Repr

/-- `listed`: the connection is in `_connections`. `buf`: what has arrived and not been read. `waiting`: the handler is in
`receive`. `frameAt`, `getAt`: when the current `recv()` and the current `queue.get()` began. `armed`: the ping timer has not
run. The rest records what happened and when: pings and pongs sent, results of `receive`, pieces that arrived, the expiry (lib/websocket.py:108-128, lib/request.py:30-52). -/
structure T where
  now : Nat := 0
  listed : Bool := true
  buf : Bytes := []
  waiting : Bool := false
  over : Bool := false
  frameAt : Nat := 0
  getAt : Nat := 0
  armed : Bool := false
  pings : List Nat := []
  pongs : List (Nat × Bytes) := []
  got : List (Nat × Got) := []
  heard : List Nat := []
  expired : Option Nat := none
deriving DecidableEq, Repr

/-- A reader that has got these bytes and waits for more (lib/websocket.py:37-106). -/
def reader (b : Bytes) : Reader := ⟨⟨if b = [] then [] else [b], .blocked⟩, [], false⟩

/-- What a reader has not read (lib/websocket.py:37-106). -/
def left (r : Reader) : Bytes := r.buf ++ r.gen.pieces.flatten

/-- The loop of `receive` on what has arrived: the end of the last `recv()`, pongs, and the bytes that are left (lib/websocket.py:108-128). -/
def readFrames (max : Nat) : Nat → Bytes → Res × List Bytes × Bytes
  | 0, b => (.failed .blocked, [], b)
  | n + 1, b =>
    match recv max (reader b) with
    | (.failed .blocked, _, _) => (.failed .blocked, [], b)
    | (res, sent, r) =>
      if res.isEmpty then
        ((readFrames max n (left r)).1, sent ++ (readFrames max n (left r)).2.1, (readFrames max n (left r)).2.2)
      else (res, sent, (left r))

/-- The call raises (lib/websocket.py:119-126). -/
def raises : Got → Bool
  | .raised _ => true
  | _ => false

/-- A frame was read if fewer bytes are left; then a new `recv()` began, with a new ping timer. In any case there is a new
`queue.get()` (lib/websocket.py:108-118, lib/request.py:33-39). -/
def goOn (t : T) (rest : Bytes) (sent : List Bytes) : T :=
  if rest = t.buf then { t with getAt := t.now }
  else { t with buf := rest, pongs := t.pongs ++ sent.map (t.now, ·), frameAt := t.now, getAt := t.now, armed := true }

/-- `receive` returns or raises; the timers are cancelled (lib/websocket.py:119-128). -/
def give (t : T) (rest : Bytes) (sent : List Bytes) (g : Got) : T :=
  { t with buf := rest, pongs := t.pongs ++ sent.map (t.now, ·), waiting := false, armed := false, got := t.got ++ [(t.now, g)], over := raises g }

/-- `receive` reads what is there (lib/websocket.py:108-128). -/
def settle (c : Cfg) (t : T) : T :=
  match readFrames c.max (t.buf.length + 1) t.buf with
  | (.failed .blocked, sent, rest) => goOn t rest sent
  | (res, sent, rest) => give t rest sent (gives res)

/-- The events (lib/websocket.py:108-128, lib/request.py:30-52). -/
inductive Ev
  | tick
  /-- a piece arrives (never empty) -/
  | data (b : Bytes)
  /-- the handler calls `receive` -/
  | call
  /-- the ping timer runs: `_ping` (175-179) -/
  | pingTimer
  /-- the timer of `queue.get()` runs; `receive` raises WebSocketServerClosed 1000 (121-124) -/
  | getTimer
  /-- the connection leaves `_connections` because there are too many -/
  | evict
deriving DecidableEq, Repr

/-- The time of the ping timer has come (lib/websocket.py:114-118). -/
def pingDue (c : Cfg) (t : T) : Bool := t.waiting && t.armed && decide (t.frameAt + c.half ≤ t.now)
/-- The time of the timer of `queue.get()` has come (lib/request.py:35-39). -/
def getDue (c : Cfg) (t : T) : Bool := t.waiting && decide (t.getAt + 2 * c.half ≤ t.now)

/-- A piece arrives (lib/request.py:30-52). -/
def arrive (c : Cfg) (t : T) (b : Bytes) : T :=
  if t.waiting then settle c { t with buf := t.buf ++ b, heard := t.heard ++ [t.now] }
  else { t with buf := t.buf ++ b, heard := t.heard ++ [t.now] }

/-- The handler calls `receive` (lib/websocket.py:108-118). -/
def enter (c : Cfg) (t : T) : T := settle c { t with waiting := true, frameAt := t.now, getAt := t.now, armed := true }

/-- The ping timer runs (lib/websocket.py:114-118, 175-182). -/
def sendPing (t : T) : T := if t.listed then { t with armed := false, pings := t.pings ++ [t.now] } else { t with armed := false }

/-- The timer of `queue.get()` runs (lib/websocket.py:119-126, lib/request.py:35-44). -/
def expire (t : T) : T :=
  { t with waiting := false, armed := false, over := true, got := t.got ++ [(t.now, .raised (.wsServer 1000))], expired := some t.now }

/-- One event; an event that cannot happen changes nothing (lib/websocket.py:108-128, lib/request.py:30-52). -/
def step (c : Cfg) (t : T) : Ev → T
  | .tick => if pingDue c t || getDue c t then t else { t with now := t.now + 1 }
  | .data b => if t.over || b = [] then t else arrive c t b
  | .call => if t.over || t.waiting then t else enter c t
  | .pingTimer => if pingDue c t then sendPing t else t
  | .getTimer => if getDue c t then expire t else t
  | .evict => { t with listed := false }

/-- Events in order (lib/websocket.py:108-128, lib/request.py:30-52). -/
def run (c : Cfg) (es : List Ev) : T := es.foldl (step c) {}

end Verif.Model.WsTimer
