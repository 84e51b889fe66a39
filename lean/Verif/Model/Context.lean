import Verif.Model.App
/-!
# Model of the context objects

`tremolo/lib/contexts.py` (classes `Context`, `WorkerContext`, `ServerContext`) and who has which of them: each connection makes a
`ServerContext` of its own (http_protocol.py:39), handed to every function of the application as `context` and as `request.context`
(http_server.py:17-23, request.py:14-20); a worker makes one `WorkerContext` (tremolo.py:263), handed to all as `worker`.

`V` is the type of the values that a program stores.  Simplified: names that begin with two underscores (`__dict__`, `__class__`, the
special methods) change how Python treats the object itself; a name in this model is one that does not begin so, and a program that
reaches for `context.__dict__` is not modelled.  All attributes that come from `object` have such names.
-/
namespace Verif.Model.Context
open Verif.Py Verif.Model.App

/-- The two classes of which objects are made (contexts.py:24-37 and 40-53). -/
inductive Kind
  | worker
  | server
deriving DecidableEq, Repr

/-- The names that are properties of the class, without a setter and without a deleter (contexts.py:31-37, 47-53). -/
def props : Kind → List Bytes
  | .worker => [b!"options", b!"queues"]
  | .server => [b!"options", b!"tasks"]

/-- The name of the only method that is not a special method (contexts.py:11). -/
def method : Bytes := b!"get"

/-- A value found in a context: the object that `__init__` made under a name (a dict or a set), the bound method, or what a program
has stored (lib/contexts.py:4-54). -/
inductive Val (V : Type)
  | made (name : Bytes)
  | method
  | val (v : V)
deriving DecidableEq, Repr

/-- The exceptions of attribute and item access (lib/contexts.py:4-22). -/
inductive Exc
  | attributeError
  | keyError
  | typeError
deriving DecidableEq, Repr

/-- A context: its class, its `__dict__`, and the content of the dict object that `__init__` made as `options` (lib/contexts.py:4-54). -/
structure Ctx (V : Type) where
  kind : Kind
  dict : Dict Bytes (Val V)
  opts : Opts V

/-- `__init__` (contexts.py:25-29, 41-45). -/
def init {V : Type} (k : Kind) : Ctx V :=
  { kind := k, dict := (props k).map (fun n => (n, .made n)), opts := [] }

/-- What a program does with a context (lib/contexts.py:4-22). -/
inductive Op (V : Type)
  | setattr (n : Bytes) (v : V)        -- `context.n = v`
  | setitem (n : Bytes) (v : V)        -- `context['n'] = v`
  | getattr (n : Bytes)                -- `context.n`
  | getitem (n : Bytes)                -- `context['n']`
  | contains (n : Bytes)               -- `'n' in context`
  | get (n : Bytes)                    -- `context.get('n')`
  | delattr (n : Bytes)                -- `del context.n`
  | delitem (n : Bytes)                -- `del context['n']`
  | update (o : Opts V)                -- `context.options.update(o)`

/-- What it gets: nothing, a value, a truth value, an exception, or whatever comes of calling a value of the program's own (lib/contexts.py:4-22). -/
inductive Ans (V : Type)
  | none
  | val (v : Val V)
  | bool (b : Bool)
  | raises (e : Exc)
  | calls (v : Val V)
deriving DecidableEq, Repr

/-- Attribute assignment: a property without a setter refuses, everything else goes to `__dict__` (lib/contexts.py:4-54). -/
def setattr {V : Type} (c : Ctx V) (n : Bytes) (v : V) : Ans V × Ctx V :=
  if n ∈ props c.kind then (.raises .attributeError, c)
  else (.none, { c with dict := Dict.set c.dict n (.val v) })

/-- Attribute lookup: a property first (it reads `__dict__`, contexts.py:33, 37, 49, 53), then `__dict__`, then the class. -/
def getattr {V : Type} (c : Ctx V) (n : Bytes) : Ans V :=
  if n ∈ props c.kind then
    match Dict.get c.dict n with
    | some v => .val v
    | Option.none => .raises .keyError
  else match Dict.get c.dict n with
    | some v => .val v
    | Option.none => if n = method then .val .method else .raises .attributeError

/-- Attribute deletion: a property without a deleter refuses, a missing name raises (lib/contexts.py:4-54). -/
def delattr {V : Type} (c : Ctx V) (n : Bytes) : Ans V × Ctx V :=
  if n ∈ props c.kind then (.raises .attributeError, c)
  else match Dict.get c.dict n with
    | some _ => (.none, { c with dict := c.dict.filter (fun p => p.1 != n) })
    | Option.none => (.raises .attributeError, c)

/-- The operations: `__setitem__` calls `__setattr__` (contexts.py:14-15), `__getitem__`, `__contains__` and `get` read `__dict__`
(contexts.py:11-12, 17-21); `context.get` is itself an attribute lookup; there is no `__delitem__`. -/
def call {V : Type} (c : Ctx V) : Op V → Ans V × Ctx V
  | .setattr n v => setattr c n v
  | .setitem n v => setattr c n v
  | .getattr n => (getattr c n, c)
  | .getitem n => (match Dict.get c.dict n with
    | some v => .val v
    | Option.none => .raises .keyError, c)
  | .contains n => (.bool (Dict.mem c.dict n), c)
  | .get n => (match getattr c method with
    | .val .method => (match Dict.get c.dict n with
      | some v => .val v
      | Option.none => .none)
    | .val v => .calls v
    | a => a, c)
  | .delattr n => delattr c n
  | .delitem _ => (.raises .typeError, c)
  | .update o => (.none, { c with opts := Dict.merge c.opts o })

/-- What happens in a worker (lib/http_protocol.py:39, tremolo.py:263). -/
inductive Ev (V : Type)
  | accept (c : Nat)                   -- `HTTPProtocol.__init__` of connection `c` (http_protocol.py:39)
  | on (c : Nat) (op : Op V)           -- code that runs for connection `c` uses its `context`
  | worker (op : Op V)                 -- any code uses `worker`

/-- The context of the worker and those of the connections (lib/http_protocol.py:39, tremolo.py:263). -/
structure World (V : Type) where
  worker : Ctx V
  conns : Dict Nat (Ctx V)

/-- A worker before its first connection (tremolo.py:263). -/
def start {V : Type} : World V := { worker := init .worker, conns := [] }

/-- One event, and what it gives to the code that causes it (lib/http_protocol.py:39, lib/contexts.py:4-54). -/
def step {V : Type} (w : World V) : Ev V → Ans V × World V
  | .accept c => (.none, { w with conns := Dict.set w.conns c (init .server) })
  | .on c op => match Dict.get w.conns c with
    | some x => let r := call x op; (r.1, { w with conns := Dict.set w.conns c r.2 })
    | Option.none => (.none, w)
  | .worker op => let r := call w.worker op; (r.1, { w with worker := r.2 })

/-- Events in order (lib/http_protocol.py:39, lib/contexts.py:4-54). -/
def run {V : Type} (w : World V) (evs : List (Ev V)) : World V := evs.foldl (fun w e => (step w e).2) w

/-- What the calls of `App.headersReceived` do to the context before the function runs: `self.context.options.update(options)`
(http_server.py:61, 117). -/
def updateOf {F V : Type} : Call F V → Option (Opts V)
  | .middleware _ o => some o
  | .handler _ o => some o
  | _ => Option.none

/-- `connection_made` stores the task of the connect hooks under a name of the same context (http_server.py:47), and
`headers_received` awaits what it finds under that name (http_server.py:264). -/
def onConnect : Bytes := b!"ON_CONNECT"

end Verif.Model.Context
