/-!
# Model of `tremolo/lib/connections.py` (KeepAliveConnections, lines 4-20)

A `dict` subclass; modelled as an association list in insertion order (CPython dicts keep insertion order).
-/
namespace Verif.Model.Connections

variable {κ ν : Type} [DecidableEq κ]

/-- The dictionary with its limit (lib/connections.py:4-9). -/
structure Table (κ ν : Type) where
  maxlen : Nat
  items : List (κ × ν)

/-- `__init__` (lib/connections.py:5-14), called as in tremolo.py:260-262 without initial items.
`none` models the `ValueError` for `maxlen < 1` (lines 10-11); non-integers (lines 6-8) are excluded by the type. -/
def mk? (maxlen : Int) : Option (Table κ ν) :=
  if maxlen < 1 then none else some { maxlen := maxlen.toNat, items := [] }

/-- `dict.__setitem__`: an existing key keeps its place and gets the new value, a new key goes to the end (lib/connections.py:12-20). -/
def dictSet (k : κ) (v : ν) : List (κ × ν) → List (κ × ν)
  | [] => [(k, v)]
  | (k', v') :: t => if k' = k then (k', v) :: t else (k', v') :: dictSet k v t

/-- `__setitem__` (lib/connections.py:16-20): insert, then delete the first key in iteration order if too long. -/
def set (t : Table κ ν) (k : κ) (v : ν) : Table κ ν :=
  let items := dictSet k v t.items
  if items.length > t.maxlen then { t with items := items.tail } else { t with items := items }

/-- `k in self` (used in lib/http_protocol.py:471, 507; lib/websocket.py:178). -/
def mem (t : Table κ ν) (k : κ) : Bool := t.items.any (fun p => p.1 = k)

/-- `if self in connections: del connections[self]` (lib/http_protocol.py:507-508). -/
def del (t : Table κ ν) (k : κ) : Table κ ν := { t with items := t.items.filter (fun p => ¬ p.1 = k) }

/-- The operations of the server on the dictionary (lib/connections.py:4-20). -/
inductive Op (κ ν : Type)
  | set (k : κ) (v : ν)
  | del (k : κ)

/-- One operation (lib/connections.py:4-20). -/
def step (t : Table κ ν) : Op κ ν → Table κ ν
  | .set k v => set t k v
  | .del k => del t k

/-- the table after a history of operations on a freshly constructed one (lib/connections.py:4-20). -/
def run (t : Table κ ν) (ops : List (Op κ ν)) : Table κ ν := ops.foldl step t

end Verif.Model.Connections
