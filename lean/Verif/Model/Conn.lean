import Verif.Model.Head
import Verif.Model.Upload
/-!
# Model of one connection of `HTTPProtocol` (tremolo/lib/http_protocol.py) as a transition system

The tasks of a connection are `_handle_request` (one per head found), `_receive_data` (one per segment that arrives while a
request is handled), the handlers, and `_send_data`. A step is what one task does between two awaits; any task that can run
may run next, so that statements for all schedules cover asyncio's. Timers are the events `abort` and `kick`.

Not modelled: cancelled reads of the queues (see `Model/Queue`), so an item is taken when a reader runs; the error response
that `handle_exception` produces is a sequence of `emit` events of the task that failed.
-/
namespace Verif.Model.Conn
open Verif.Py Verif.Model.Head Verif.Model.HttpParser

/-- `bufferSize` is for later segments; the bytes behind a head are queued in pieces of 16 KiB (line 144). -/
structure Cfg where
  maxHeader : Nat := 8192
  maxBody : Nat := 2097152
  maxQueue : Nat := 128
  bufferSize : Nat := 16384
  firstSize : Nat := 16384
deriving DecidableEq, Repr

/-- An item of a queue: bytes, or the end marker `None` (lib/http_protocol.py:86-89). -/
abbrev Item := Option Bytes

/-- What a `_receive_data` task awaits first (395-400): a future of the connection, or another such task. -/
inductive Waiter | fut (g : Nat) | task (t : Nat)
deriving DecidableEq, Repr

/-- `put_to_queue` at work: the bytes not yet queued, and `len(data)` (lib/http_protocol.py:138-160). -/
structure Feed where
  rest : Bytes
  size : Nat
deriving DecidableEq, Repr

/-- A `_handle_request` task. `raw` is the head it was given, including the blank line (lib/http_protocol.py:267-354). -/
inductive HTask
  | new (data : Bytes) (headerSize : Nat)
  | feeding (f : Feed) (req : Nat) (raw : Bytes)
  | handling (req : Nat)
  | failing (req : Nat)
  | done
deriving DecidableEq, Repr

/-- A `_receive_data` task (lib/http_protocol.py:356-364). -/
inductive RTask | waiting (data : Bytes) (w : Waiter) | feeding (f : Feed) | done
deriving DecidableEq, Repr

/-- A request object (lib/http_request.py:36-72). -/
structure Rq where
  req : Req
  upgraded : Bool := false
  bodySize : Nat := 0
deriving DecidableEq, Repr

/-- What became of received bytes: the head (with its blank line) of a request whose handler started, or an item of
`queue[0]` that a handler took. -/
inductive Act | head (k : Nat) (raw : Bytes) | body (k : Nat) (x : Item)
deriving DecidableEq, Repr

/-- The bytes that an action takes from the stream of the client (lib/http_protocol.py:267-364). -/
def Act.bytes : Act → Bytes
  | .head _ b => b
  | .body _ x => x.getD []

/-- The connection with its tasks, and the history that theorems speak about (lib/http_protocol.py:38-52). -/
structure St where
  /-- `_header_buf` -/
  hb : Option Bytes := some []
  q0 : List Item := []
  q1 : List Item := []
  /-- all request objects made so far; `self.request` is the index `cur` -/
  reqs : List Rq := []
  cur : Option Nat := none
  heads : List HTask := []
  recvs : List RTask := []
  /-- `_waiters`: the future of generation `gen` is under 'request' (`first`) or, for `gen > 0`, under 'keepalive' -/
  gen : Nat := 0
  first : Bool := true
  receive : Option Waiter := none
  futDone : List Bool := [false]
  /-- the transport: reading not paused; `close` or `abort` was called; writes have no effect -/
  reading : Bool := true
  closing : Bool := false
  noWrite : Bool := false
  /-- in `_connections` -/
  registered : Bool := false
  /-- `_send_data` has returned -/
  sendDone : Bool := false
  /-- handlers that are running -/
  running : List Nat := []
  /-- history: items put into and taken from `queue[1]`, bytes written, whether a body was too large, bytes received and what
  became of them -/
  queued : List Item := []
  sent : List Item := []
  written : List Bytes := []
  tooLarge : Bool := false
  rx : Bytes := []
  log : List Act := []
deriving DecidableEq, Repr

/-- Handlers started, with the bytes of their heads (lib/http_protocol.py:343). -/
def St.started (s : St) : List (Nat × Bytes) := s.log.filterMap (fun | .head k raw => some (k, raw) | .body _ _ => none)

/-- Items taken by handlers (lib/request.py:30-52). -/
def St.took (s : St) : List (Nat × Item) := s.log.filterMap (fun | .head _ _ => none | .body k x => some (k, x))

/-- `self.queue[0].put_nowait(x)` (lib/http_protocol.py:149, 172, 324, 407). -/
def put0 (x : Item) (s : St) : St := { s with q0 := s.q0 ++ [x] }
/-- `self.queue[1].put_nowait(x)` (lib/http_protocol.py:178, 274, lib/response.py:50-52). -/
def put1 (x : Item) (s : St) : St := { s with q1 := s.q1 ++ [x], queued := s.queued ++ [x] }

/-- `abort` (100-105). -/
def abort (s : St) : St := { s with closing := true, noWrite := true }
/-- `close` (107-112): `write_eof`, or for TLS `close`; later writes are refused or dropped. -/
def close (s : St) : St := if s.closing then s else { s with closing := true, noWrite := true }

/-- Assignments to attributes of a request (lib/http_protocol.py:283-320). -/
def setReq (k : Nat) (f : Rq → Rq) (s : St) : St :=
  match s.reqs[k]? with
  | some r => { s with reqs := s.reqs.set k (f r) }
  | none => s

/-- `request.http_keepalive = False` (lib/http_protocol.py:177, lib/http_response.py:172, 260, 271). -/
def noKeep (r : Rq) : Rq := { r with req := { r.req with httpKeepalive := false } }

/-- `put_to_queue` behind its loop (162-180). -/
def account (c : Cfg) (size : Nat) (s : St) : St :=
  match s.cur with
  | none => s
  | some k =>
    match s.reqs[k]? with
    | none => s
    | some r =>
      if r.upgraded then { s with reading := true }
      else
        let n := r.bodySize + size
        let s := { s with reqs := s.reqs.set k { r with bodySize := n } }
        if hmem r.req.headers b!"content-length" = true ∧ r.req.contentLength ≤ (n : Int) then put0 none s
        else if n < c.maxBody then { s with reading := true }
        else put1 none { (setReq k noKeep s) with tooLarge := true }

/-- `put_to_queue` (146-180) up to its next await: `some f` if it sleeps, `none` if it has returned. -/
def feed (c : Cfg) (bs : Nat) (f : Feed) (s : St) : St × Option Feed :=
  if f.rest = [] then (account c f.size s, none)
  else
    let s := put0 (some (f.rest.take bs)) s
    if s.q0.length > c.maxQueue then (abort s, none)
    else (s, some { f with rest := f.rest.drop bs })

/-- `data_received` (366-404). -/
def dataReceived (c : Cfg) (d : Bytes) (s : St) : St :=
  match Head.dataReceived c.maxHeader s.hb d with
  | (hb, .wait) => { s with hb := hb }
  | (hb, .start data n) => { s with hb := hb, reading := false, heads := s.heads ++ [.new data n] }
  | (hb, .abort) => abort { s with hb := hb }
  | (hb, .body d) => { s with hb := hb, reading := false, recvs := s.recvs ++ [.waiting d (s.receive.getD (.fut s.gen))]
                              receive := some (.task s.recvs.length) }

/-- Lines 338-346: the waiting segments may go on, and the handler starts. -/
def begin (k : Nat) (raw : Bytes) (s : St) : St :=
  { s with futDone := if s.first || s.gen > 0 then s.futDone.set s.gen true else s.futDone
           running := s.running ++ [k], log := s.log ++ [.head k raw] }

/-- `_handle_request` behind `put_to_queue`, or still in it (lib/http_protocol.py:326-352). -/
def fed (i k : Nat) (raw : Bytes) : St × Option Feed → St
  | (s, none) => { (begin k raw s) with heads := s.heads.set i (.handling k) }
  | (s, some f) => { s with heads := s.heads.set i (.feeding f k raw) }

/-- A new request object becomes `self.request` (279-280). -/
def newReq (r : Req) (s : St) : St := { s with reqs := s.reqs ++ [{ req := r }], cur := some s.reqs.length }

/-- `_handle_request` (267-334) from its start to its first await. A request object that was refused keeps the keep-alive
flag it had by then. -/
def startHead (c : Cfg) (i : Nat) (data : Bytes) (n : Nat) (s : St) : St :=
  let raw := data.take (n + 2)
  match acceptData data n with
  | .error .notRequest => put1 none { s with heads := s.heads.set i .done }
  | .error .ctorError => { s with heads := s.heads.set i .done }
  | .error _ =>
    match initReq (HttpParser.parse data n [b!"proxy"]) with
    | some r =>
      let r := match setKeepalive r with | .ok r => r | .error _ => r
      { (newReq r s) with heads := s.heads.set i (.failing s.reqs.length) }
    | none => { s with heads := s.heads.set i .done }
  | .ok r =>
    let k := s.reqs.length
    let s := newReq r s
    let s := if r.hasBody then s else put0 (some []) s
    if r.hasBody = true ∨ data.length > n + 2 then
      fed i k raw (feed c c.firstSize { rest := data.drop (n + 2), size := (data.drop (n + 2)).length } s)
    else fed i k raw (s, none)

/-- A `_handle_request` task runs (lib/http_protocol.py:267-354). -/
def headStep (c : Cfg) (i : Nat) (s : St) : St :=
  match s.heads[i]? with
  | some (.new data n) => startHead c i data n s
  | some (.feeding f k raw) => fed i k raw (feed c c.firstSize f s)
  | _ => s

/-- What a `_receive_data` task awaits has come (lib/http_protocol.py:356-361). -/
def waited (s : St) : Waiter → Bool
  | .fut g => s.futDone[g]? == some true
  | .task t => s.recvs[t]? == some .done

/-- `_receive_data` behind `put_to_queue`, or still in it (lib/http_protocol.py:362-364). -/
def recvFed (i : Nat) : St × Option Feed → St
  | (s, none) => { s with recvs := s.recvs.set i .done }
  | (s, some f) => { s with recvs := s.recvs.set i (.feeding f) }

/-- A `_receive_data` task (356-364) runs. -/
def recvStep (c : Cfg) (i : Nat) (s : St) : St :=
  match s.recvs[i]? with
  | some (.waiting d w) => if waited s w then recvFed i (feed c c.bufferSize { rest := d, size := d.length } s) else s
  | some (.feeding f) => recvFed i (feed c c.bufferSize f s)
  | _ => s

/-- Lines 500-502. -/
def drain (c : Cfg) (items : List Item) (s : St) : St := items.foldl (fun s x => dataReceived c (x.getD []) s) s

/-- Lines 488-498: ready for a new head. -/
def reset (k : Nat) (s : St) : St :=
  { (setReq k (fun r => { r with bodySize := 0 }) s) with
    hb := some [], gen := s.gen + 1, first := false, receive := none, futDone := s.futDone ++ [false] }

/-- `_handle_keepalive` (466-504); `k` is `self.request`. -/
def handleKeepalive (c : Cfg) (k : Nat) (r : Rq) (s : St) : St :=
  let s := { s with registered := s.registered || s.first }
  if !s.registered then close s
  else
    let s :=
      if r.req.httpContinue then setReq k (fun r => { r with req := { r.req with httpContinue := false } }) s
      else if r.upgraded then (if s.first then { s with receive := some (.fut s.gen), first := false } else close s)
      else
        let s := reset k s
        if r.req.hasBody then s else drain c s.q0 { s with q0 := [] }
    { s with reading := true }

/-- `_send_data` takes the marker `None` (425-436). -/
def marker (c : Cfg) (s : St) : St :=
  match s.cur with
  | none => { (close s) with sendDone := true }
  | some k =>
    match s.reqs[k]? with
    | none => s
    | some r =>
      if r.req.httpKeepalive = true ∧ s.hb = none then handleKeepalive c k r s
      else { (close (setReq k (fun r => { r with bodySize := 0 }) s)) with sendDone := true }

/-- `_send_data` (420-464) takes one item. -/
def sendStep (c : Cfg) (s : St) : St :=
  if s.sendDone then s
  else match s.q1 with
    | [] => s
    | x :: q =>
      let s := { s with q1 := q, sent := s.sent ++ [x] }
      match x with
      | some b => if s.noWrite then s else { s with written := s.written ++ [b] }
      | none => marker c s

/-- The events (lib/http_protocol.py:75-538). -/
inductive Ev
  /-- a segment arrives -/
  | data (d : Bytes)
  /-- the client half-closes; asyncio closes the transport, which still sends what is buffered unless `drop` -/
  | eof (drop : Bool)
  | head (i : Nat) | recv (i : Nat) | send
  /-- the handler of request `k` (or its error handling) queues bytes; calls `close(keepalive)`; takes an item of
  `queue[0]`; makes the request an upgraded one; has read the body (http_request.py:260); ends -/
  | emit (k : Nat) (b : Bytes) | mark (k : Nat) (keep : Bool) | take (k : Nat) | upgrade (k : Nat) | clear (k : Nat) | finish (k : Nat)
  /-- the last step of a handler: `self.response.close(keepalive)` and return (http_server.py:260), or of `handle_exception`
  (http_protocol.py:265) -/
  | leave (k : Nat) (keep : Bool)
  /-- a timer aborts; another connection takes this one's place in `_connections` -/
  | abort | kick
deriving DecidableEq, Repr

/-- `HTTPResponse.close` (http_response.py:169-174). -/
def closeResponse (k : Nat) (keep : Bool) (s : St) : St := put1 none (if keep then s else setReq k noKeep s)

/-- The handler, or the error handling, of request `k` ends (lib/http_protocol.py:348-354). -/
def finish (k : Nat) (s : St) : St :=
  { s with running := s.running.filter (· ≠ k), heads := s.heads.map (fun h => if h = .failing k then .done else h) }

/-- It has not ended yet (lib/http_protocol.py:343-354). -/
def active (k : Nat) (s : St) : Bool := s.running.contains k || s.heads.contains (.failing k)

/-- One event (lib/http_protocol.py:75-538). -/
def step (c : Cfg) (s : St) : Ev → St
  | .data d => if s.reading && !s.closing then dataReceived c d { s with rx := s.rx ++ d } else s
  | .eof drop => { (put0 none s) with closing := true, noWrite := s.noWrite || drop }
  | .head i => headStep c i s
  | .recv i => recvStep c i s
  | .send => sendStep c s
  | .emit _ b => put1 (some b) s
  | .mark k keep => closeResponse k keep s
  | .take k => match s.q0 with
    | x :: q => { s with q0 := q, log := s.log ++ [.body k x] }
    | [] => s
  | .upgrade k => setReq k (fun r => { r with upgraded := true }) s
  | .clear k => setReq k (fun r => { r with bodySize := 0 }) s
  | .finish k => finish k s
  | .leave k keep => if active k s then closeResponse k keep (finish k s) else s
  | .abort => abort s
  | .kick => { s with registered := false }

/-- Events in order (lib/http_protocol.py:75-538). -/
def run (c : Cfg) (s : St) (es : List Ev) : St := es.foldl (step c) s

end Verif.Model.Conn
