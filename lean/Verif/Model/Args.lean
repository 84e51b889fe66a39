import Verif.Model.App
/-!
# Model of `parse_args` (tremolo/utils.py:53-105) and of `tremolo/__main__.py`

Arguments are byte strings (the UTF-8 form of the Python strings; every operation used works on ASCII characters only).  Python's
`int(str)` is a parameter `int?`, so the theorems hold for whatever texts it accepts.
-/
namespace Verif.Model.Args
open Verif.Py Verif.Model.App

/-- Values of the `options` dictionary other than `ssl` (utils.py:54, 57-97). -/
inductive OVal
  | str (s : Bytes)
  | int (n : Int)
  | bool (b : Bool)
  | none
deriving DecidableEq, Repr

/-- `options` (utils.py:54); its entry `ssl`, a dictionary that is only updated in place (lines 95, 97), is kept apart. -/
structure Options where
  opts : Dict Bytes OVal
  ssl : Dict Bytes Bytes
deriving DecidableEq, Repr

/-- How the program ends early: `sys.exit(1)` after a message, or `sys.exit()` of `usage`. -/
inductive Exit
  | badNumber (opt val : Bytes)
  | unrecognized (opt : Bytes)
  | badBind (val : Bytes)
  | usage
deriving DecidableEq, Repr

/-- `options` before the loop (utils.py:54-55). -/
def defaults : Options := { opts := [(b!"host", .str b!"127.0.0.1"), (b!"port", .int 8000)], ssl := [] }

/-- utils.py:64-68 -/
def strOpts : List Bytes := [b!"--host", b!"--log-level", b!"--loop", b!"--server-name", b!"--root-path"]
/-- utils.py:70-85 -/
def numOpts : List Bytes := [b!"--port", b!"--worker-num", b!"--limit-memory", b!"--backlog", b!"--download-rate", b!"--upload-rate",
  b!"--buffer-size", b!"--ws-max-payload-size", b!"--client-max-body-size", b!"--client-max-header-size", b!"--max-queue-size",
  b!"--request-timeout", b!"--keepalive-timeout", b!"--keepalive-connections", b!"--app-handler-timeout", b!"--app-close-timeout"]

/-- `s.lstrip('-').replace('-', '_')` (utils.py:58) -/
def optName (s : Bytes) : Bytes := replace1 45 b!"_" (s.dropWhile (· == 45))

/-- What a callback given to `parse_args` does with the value and the options; `S` is the state it may change besides (utils.py:53, 98-103). -/
abbrev Callbacks (S : Type) := Dict Bytes (Bytes → Options × S → Except Exit (Options × S))

/-- One turn of the loop (utils.py:58-103): `prev` is `sys.argv[i - 1]`, `cur` is `sys.argv[i]`. -/
def stepArg {S : Type} (int? : Bytes → Option Int) (cbs : Callbacks S) (prev cur : Bytes) (st : Options × S) : Except Exit (Options × S) :=
  let name := optName prev
  let o := st.1
  if prev = b!"--no-ws" then .ok ({ o with opts := Dict.set o.opts b!"ws" (.bool false) }, st.2)
  else if prev = b!"--debug" ∨ prev = b!"--reload" then .ok ({ o with opts := Dict.set o.opts name (.bool true) }, st.2)
  else if prev ∈ strOpts then .ok ({ o with opts := Dict.set o.opts name (.str cur) }, st.2)
  else if prev ∈ numOpts then match int? cur with
    | some n => .ok ({ o with opts := Dict.set o.opts name (.int n) }, st.2)
    | none => .error (.badNumber prev cur)
  else if prev = b!"--ssl-cert" then .ok ({ o with ssl := Dict.set o.ssl b!"cert" cur }, st.2)
  else if prev = b!"--ssl-key" then .ok ({ o with ssl := Dict.set o.ssl b!"key" cur }, st.2)
  else if startsWith prev b!"-" then match Dict.get cbs name with
    | some cb => cb cur st
    | none => .error (.unrecognized prev)
  else .ok st

/-- The pairs `(sys.argv[i - 1], sys.argv[i])` in loop order: the first is `(argv[-1], argv[0])`. -/
def argPairs (argv : List Bytes) : List (Bytes × Bytes) :=
  match argv.getLast? with
  | none => []
  | some l => (l :: argv.dropLast).zip argv

/-- The loop of `parse_args` (utils.py:57-103). -/
def loopArgs {S : Type} (int? : Bytes → Option Int) (cbs : Callbacks S) : List (Bytes × Bytes) → Options × S → Except Exit (Options × S)
  | [], st => .ok st
  | (p, c) :: t, st => match stepArg int? cbs p c st with
    | .ok st => loopArgs int? cbs t st
    | .error e => .error e

/-- `parse_args(**callbacks)` (utils.py:53-105). -/
def parseArgs {S : Type} (int? : Bytes → Option Int) (cbs : Callbacks S) (argv : List Bytes) (s : S) : Except Exit (Options × S) :=
  loopArgs int? cbs (argPairs argv) (defaults, s)

/-! ## `__main__` -/

/-- the addresses registered by `server.listen` (tremolo.py:77-81). -/
abbrev Ports := Dict Addr Unit

/-- `s.rsplit(':', 1)` for a text that has a colon: the part before the last one and the part after it. -/
def rsplitColon (s : Bytes) : Bytes × Bytes :=
  match rfind b!":" s with
  | some n => (s.take n, s.drop (n + 1))
  | none => (s, [])

/-- One element of the `--bind` list (`__main__.py:78-83`); `none` is the ValueError of `int(port)`. -/
def bindOne (int? : Bytes → Option Int) (b : Bytes) (ports : Ports) : Option Ports :=
  if !contains b!":\\" b && contains b!":" b then
    let (host, port) := rsplitColon b
    match int? port with
    | some n =>
      let h := stripBy (fun c => c == 91 || c == 93) host
      some (listen ports (.port n) (if h = [] then none else some h) ()).2
    | none => none
  else some (listen ports (.path b) none ()).2

/-- The loop of `bind`; `none` is the ValueError (__main__.py:77-86). -/
def bindAll (int? : Bytes → Option Int) : List Bytes → Ports → Option Ports
  | [], p => some p
  | b :: t, p => match bindOne int? b p with
    | some p => bindAll int? t p
    | none => none

/-- `bind` (`__main__.py:74-86`). `value.split(',')` has no limit; splitting at most `len(value)` times is the same. -/
def bind (int? : Bytes → Option Int) (value : Bytes) (st : Options × Ports) : Except Exit (Options × Ports) :=
  let o := { st.1 with opts := Dict.set st.1.opts b!"host" .none }
  match bindAll int? (splitByte 44 value.length value) st.2 with
  | some p => .ok (o, p)
  | none => .error (.badBind value)

/-- the callbacks of `parse_args(help=usage, bind=bind)` (`__main__.py:90`) -/
def mainCallbacks (int? : Bytes → Option Int) : Callbacks Ports :=
  [(b!"help", fun _ _ => .error .usage), (b!"bind", bind int?)]

/-- `__main__.py:90-99` up to `server.run(**options)`: `none` for a missing app. -/
def main (int? : Bytes → Option Int) (argv : List Bytes) : Except Exit (Options × Ports × Option Bytes) :=
  match parseArgs int? (mainCallbacks int?) argv [] with
  | .error e => .error e
  | .ok (o, p) => .ok (o, p, match argv.getLast?, argv.head? with
    | some l, some h => if l ≠ h ∧ ¬ startsWith l b!"-" = true then some l else none
    | _, _ => none)

end Verif.Model.Args
