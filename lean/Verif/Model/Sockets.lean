import Verif.Py.Util
/-!
# Model of the listening sockets (tremolo/tremolo.py)

`create_sock` (524-569) in the parent (`run` 700, 754-759) and in each worker (`_serve` 231-238, followed by `listen`), `close_sock`
(571-581), for one address with `n` workers, on Linux.

A step is one system call (`bind`, `exists`, `stat`, `unlink`, `listen`), so that processes interleave between them. What Linux does is
modelled like this: a TCP socket with SO_REUSEPORT may be bound and may listen if all sockets on the port have that option (of one
user); one with SO_REUSEADDR if no other socket listens on the port; a Unix socket may be bound if nothing exists at the path, and its
file has size 0. When a process ends, its sockets are closed; the file of a Unix socket stays. The sockets of the parent never listen.
Not modelled: other programs that use the port or change the path, permissions, addresses that overlap, Windows (`share`).
The order in which the parent visits the workers is not fixed here (see `Supervisor`).
-/
namespace Verif.Model.Sockets

/-- The family of the socket, and `reuse_port` for TCP (tremolo.py:524-553). -/
inductive Kind | tcp (reuse : Bool) | unix
deriving DecidableEq, Repr

/-- What exists at the path: nothing, a socket (by its number), or a file with a size (tremolo.py:555-567). -/
inductive Path | absent | sock (id : Nat) | file (size : Nat)
deriving DecidableEq, Repr

/-- The port, or the path (tremolo.py:524-581). -/
structure Net where
  path : Path := .absent
  /-- the sockets that listen -/
  listening : List Nat := []
deriving DecidableEq, Repr

/-- Where a run of `create_sock` is; `k` counts the rounds of the loop (556-563). `made b`: it returned a socket, bound or not. -/
inductive Pc | bind (k : Nat) | exist (k : Nat) | stat (k : Nat) | unlink (k : Nat) | made (bound : Bool) | failed
deriving DecidableEq, Repr

/-- The next round of `for _ in range(2)`. -/
def again : Nat → Pc
  | 0 => .bind 1
  | _ + 1 => .made false

/-- Another socket may be bound, or listen, on the port (tremolo.py:524-553). -/
def free (r : Bool) (net : Net) : Bool := r || net.listening.isEmpty

/-- One system call of `create_sock` (555-567). -/
def call (kind : Kind) (id : Nat) : Pc → Net → Pc × Net
  | .bind k, net =>
    match kind with
    | .tcp r => if free r net then (.made true, net) else (.failed, net)
    | .unix => if net.path = .absent then (.made true, { net with path := .sock id }) else (.exist k, net)
  | .exist k, net => if net.path = .absent then (again k, net) else (.stat k, net)
  | .stat k, net =>
    match net.path with
    | .absent => (.failed, net)                    -- FileNotFoundError
    | .sock _ => (.unlink k, net)
    | .file 0 => (.unlink k, net)
    | .file (_ + 1) => (again k, net)
  | .unlink k, net =>
    match net.path with
    | .absent => (.failed, net)                    -- FileNotFoundError
    | _ => (again k, { net with path := .absent })
  | pc, net => (pc, net)

/-- A worker: not started, in `create_sock` (or just behind it), listening, or ended (exit code 0 or not). -/
inductive W | none | making (id : Nat) (pc : Pc) | up (id : Nat) | dead (clean : Bool)
deriving DecidableEq, Repr

/-- The parent: in the first `create_sock` (700), starting worker `i` (702-721), in the loop, in `create_sock` for the place `i`
(757), or ended by an exception. -/
inductive P | boot (id : Nat) (pc : Pc) | spawn (i : Nat) | loop | renew (i id : Nat) (pc : Pc) | crashed
deriving DecidableEq, Repr

/-- The parent, the workers and their sockets (tremolo.py:524-569, 700-712). -/
structure St where
  net : Net := {}
  /-- the number of the next socket -/
  next : Nat := 1
  parent : P := .boot 0 (.bind 0)
  ws : List W := []
deriving DecidableEq, Repr

/-- Before the parent makes its socket (tremolo.py:700-712). -/
def init (n : Nat) (path : Path) : St := { net := { path := path }, ws := List.replicate n .none }

/-- The events (tremolo.py:524-569, 700-773). -/
inductive Ev
  /-- a system call of the parent, or the start of a worker -/
  | parent
  /-- a system call of worker `i` -/
  | worker (i : Nat)
  /-- worker `i` ends from another cause -/
  | die (i : Nat) (clean : Bool)
  /-- the parent visits the place `i` (728-777) -/
  | visit (i : Nat)
deriving DecidableEq, Repr

/-- A new worker in place `i` (tremolo.py:703-712, 754-773). -/
def start (s : St) (i : Nat) : St := { s with ws := s.ws.set i (.making s.next (.bind 0)), next := s.next + 1 }

/-- `sock.listen` (238). An unbound Unix socket: OSError. -/
def listens (kind : Kind) (bound : Bool) (net : Net) : Bool :=
  match kind with
  | .tcp r => free r net
  | .unix => bound

/-- One event (tremolo.py:524-569, 700-773). -/
def step (kind : Kind) (s : St) : Ev → St
  | .parent =>
    match s.parent with
    | .boot _ (.made _) => { s with parent := .spawn 0 }
    | .boot _ .failed => { s with parent := .crashed }
    | .boot id pc => { s with parent := .boot id (call kind id pc s.net).1, net := (call kind id pc s.net).2 }
    | .spawn i => if i < s.ws.length then { start s i with parent := .spawn (i + 1) } else { s with parent := .loop }
    | .renew i _ (.made _) => { start s i with parent := .loop }
    | .renew _ _ .failed => { s with parent := .crashed }
    | .renew i id pc => { s with parent := .renew i id (call kind id pc s.net).1, net := (call kind id pc s.net).2 }
    | _ => s
  | .worker i =>
    match s.ws[i]? with
    | some (.making id (.made b)) =>
      if listens kind b s.net then { s with ws := s.ws.set i (.up id), net := { s.net with listening := id :: s.net.listening } }
      else { s with ws := s.ws.set i (.dead false) }
    | some (.making _ .failed) => { s with ws := s.ws.set i (.dead false) }
    | some (.making id pc) => { s with ws := s.ws.set i (.making id (call kind id pc s.net).1), net := (call kind id pc s.net).2 }
    | _ => s
  | .die i clean =>
    match s.ws[i]? with
    | some (.making _ _) => { s with ws := s.ws.set i (.dead clean) }
    | some (.up id) => { s with ws := s.ws.set i (.dead clean), net := { s.net with listening := s.net.listening.filter (· ≠ id) } }
    | _ => s
  | .visit i =>
    match s.parent, s.ws[i]? with
    | .loop, some (.dead true) => start s i
    | .loop, some (.dead false) => { s with parent := .renew i s.next (.bind 0), next := s.next + 1 }
    | _, _ => s

/-- Events in order (tremolo.py:524-569, 700-773). -/
def run (kind : Kind) (s : St) (es : List Ev) : St := es.foldl (step kind) s

/-! ## `close_sock` -/

/-- A socket object of the parent; `path` is what `getsockname` gives while it is open (tremolo.py:571-581). -/
structure Sock where
  kind : Kind
  id : Nat
  closed : Bool := false
deriving DecidableEq, Repr

/-- `close_sock` (571-581). `shutdown` of a TCP socket that is not connected raises OSError, that of a Unix socket does not;
`getsockname` of a closed socket raises OSError. -/
def closeSock (k : Sock) (net : Net) : Sock × Net :=
  match k.kind with
  | .tcp _ => ({ k with closed := true }, net)                 -- shutdown: OSError (ENOTCONN); closed in the handler
  | .unix =>
    let k := { k with closed := true }
    if k.closed then ({ k with closed := true }, net)          -- getsockname: OSError (EBADF)
    else match net.path with
      | .absent => (k, net)                                    -- FileNotFoundError: pass
      | _ => (k, { net with path := .absent })

end Verif.Model.Sockets
