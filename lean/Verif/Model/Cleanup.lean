/-!
# Model of what is stopped when a connection is lost (tremolo/lib/http_protocol.py)

`self.tasks` (a set) with `create_task`, `handle_task_done` and the loop of `connection_lost`. Tasks and callables are numbers; a
callable may add to the set while it runs, and may raise. `set.pop` takes any element: `Loop` is a relation.

Not modelled: a callable that raises no `Exception` but another `BaseException`, which ends the loop; what a cancelled task does.
-/
namespace Verif.Model.Cleanup

/-- The elements of `self.tasks`: tasks, and callables to be called at the end (lib/http_protocol.py:54-73). -/
inductive Item
  | task (k : Nat)
  | func (f : Nat)
deriving DecidableEq, Repr

/-- `set.add` (lib/http_protocol.py:61). -/
def add (x : Item) (l : List Item) : List Item := if x ∈ l then l else x :: l

/-- What may happen to the set before the connection is lost (lib/http_protocol.py:54-73). -/
inductive Ev
  /-- `self.create_task(...)` (http_protocol.py:56-62), or line 93 for the task of `_send_data`; the loop gives every task a new identity -/
  | create (watched : Bool)
  /-- a task is done; the callback `handle_task_done` (64-71) was set by `create_task` only -/
  | finish (k : Nat)
  /-- `context.tasks.add(f)` by a handler, or by `sendfile` (http_response.py:325-327) -/
  | add (f : Nat)

/-- The set, how many tasks were made, and which of them leave the set when they end (lib/http_protocol.py:54-73). -/
structure St where
  tasks : List Item := []
  created : Nat := 0
  watched : List Nat := []
deriving DecidableEq, Repr

/-- One event (lib/http_protocol.py:54-73). -/
def step (s : St) : Ev → St
  | .create w => { tasks := add (.task s.created) s.tasks, created := s.created + 1, watched := if w then s.created :: s.watched else s.watched }
  | .finish k => if k ∈ s.watched then { s with tasks := s.tasks.filter (fun x => x ≠ .task k) } else s
  | .add f => { s with tasks := add (.func f) s.tasks }

/-- Events in order (lib/http_protocol.py:54-73). -/
def run (es : List Ev) : St := es.foldl step {}

/-- What the loop does with an element (lib/http_protocol.py:510-523). -/
inductive Act
  | cancel (k : Nat)
  | call (f : Nat)
deriving DecidableEq, Repr

/-- `while self.tasks: task = self.tasks.pop() ...` (510-523): from this set, these actions. `adds f`: what `f` adds to the set. That `f` raises
makes no difference (522-523). -/
inductive Loop (adds : Nat → List Item) : List Item → List Act → Prop
  | done : Loop adds [] []
  | cancel {l : List Item} {k : Nat} {as : List Act} : .task k ∈ l → Loop adds (l.filter (fun x => x ≠ .task k)) as → Loop adds l (.cancel k :: as)
  | call {l : List Item} {f : Nat} {as : List Act} : .func f ∈ l → Loop adds ((adds f).foldr add (l.filter (fun x => x ≠ .func f))) as →
      Loop adds l (.call f :: as)

end Verif.Model.Cleanup
