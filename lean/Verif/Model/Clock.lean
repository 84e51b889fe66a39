import Verif.Py.Bytes
/-!
# The main loop of a worker: the date, the memory limit, the parent (tremolo.py:385-450; utils.py:37-47)

Times are in milliseconds. What a turn of the loop does behind the sleep takes no time here; the time it takes makes the next one
later. Whether the code has changed is `Model/Reload`; what the parent answers, and when, is `Model/Supervisor`.
-/
namespace Verif.Model.Clock
open Verif.Py

/-- `f.read().split()[1]` (utils.py:43); `none`: IndexError. -/
def second (s : Bytes) : Option Bytes :=
  let t := ((s.dropWhile isSpace).dropWhile (fun c => !isSpace c)).dropWhile isSpace
  if t = [] then none else some (t.takeWhile (fun c => !isSpace c))

/-- `memory_usage` (utils.py:37-47) in KiB. `statm = none`: there is no such file. `none`: it raises. -/
def memoryUsage (page : Nat) (statm : Option Bytes) : Option Int :=
  match statm with
  | none => some (-1)
  | some s => ((second s).bind intDec).map (fun n => n * page / 1024)

/-- Why the loop ends: the parent says so or is gone (449-450), the code has changed (432-437), the memory limit (439-444). -/
inductive End | stop | reload | memory
deriving DecidableEq, Repr

/-- In the sleep of line 395, which is followed by `left - 1` others; in `recv` (449), where the event loop stands still; behind the
loop (452-454). -/
inductive Pc | sleep (left : Nat) | recv | ended (why : End)
deriving DecidableEq, Repr

/-- `since`: when the present sleep or `recv` began. `date`: the second of `server_info['date']`. `out`: the responses so far, when
they were made, with which date, and whether the loop had ended (tremolo.py:385-454, lib/http_response.py:73-76). -/
structure St where
  pc : Pc
  since : Nat
  date : Nat
  out : List (Nat × Nat × Bool) := []
deriving DecidableEq, Repr

/-- A sleep is over, `changed` is what the search for code changes says, `mem` what `memory_usage()` returns, `polled` what `poll()`
returns (395-447). `recv` returns a number, or raises (`none`), and the next ping is sent or is not (391-392, 449-450). A response is
made (lib/http_response.py:73-76). -/
inductive Ev
  | wake (now : Nat) (changed : Bool) (mem : Int) (polled : Bool)
  | answer (now : Nat) (num : Option Nat) (sent : Bool)
  | respond (now : Nat)
deriving DecidableEq, Repr

/-- One event, with the option `limit_memory` (tremolo.py:388-450). -/
def step (limit : Int) (s : St) : Ev → St
  | .wake now changed mem polled =>
    match s.pc with
    | .sleep left =>
      { s with
        since := now, date := now / 1000
        pc := if changed then .ended .reload
              else if limit > 0 ∧ mem > limit then .ended .memory
              else if polled ∨ left ≤ 1 then .recv
              else .sleep (left - 1) }
    | _ => s
  | .answer now num sent =>
    match s.pc with
    | .recv =>
      { s with
        since := now
        pc := match num with
          | none => .ended .stop
          | some 0 => .ended .stop
          | some n => if sent then .sleep (2 * n) else .ended .stop }
    | _ => s
  | .respond now =>
    match s.pc with
    | .sleep _ => { s with out := s.out ++ [(now, s.date, false)] }
    | .recv => s
    | .ended _ => { s with out := s.out ++ [(now, s.date, true)] }

/-- Events in order (tremolo.py:388-450). -/
def run (limit : Int) (s : St) (es : List Ev) : St := es.foldl (step limit) s

/-- The worker begins to serve, and the first ping is sent (tremolo.py:323-326, 384-392). -/
def start (now : Nat) : St := { pc := .sleep 2, since := now, date := now / 1000 }

end Verif.Model.Clock
