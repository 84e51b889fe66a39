import Verif.Py.Dict
/-!
# Detecting code changes (tremolo.py:382-384, 400-437; utils.py:16-19)

The part of the loop in `_serve` that looks for changed files once a second when the option `reload` is set. A module is its
identity and its `__file__`; a signature is the triple of `file_signature`; the file system and `sys.modules` are given for
each second. The `os.path.exists` and the `os.stat` of one look see the same file system.
-/
namespace Verif.Model.Reload
open Verif.Py

/-- Texts (for tremolo.py:400-437). -/
abbrev Str := List Char

/-- `file_signature` (utils.py:16-19): type, size, time of modification. -/
structure Sig where
  fmt : Nat
  size : Nat
  mtime : Nat
deriving DecidableEq, Repr

/-- A module object. `file = none`: it has no attribute `__file__`; `some none`: it is `None` (tremolo.py:400-437). -/
structure Mod where
  id : Nat
  file : Option (Option Str)
deriving DecidableEq, Repr

/-- One second: the values of `sys.modules`, and the signatures of the files that exist (tremolo.py:400-437). -/
structure Tick where
  mods : List Mod
  fs : Str → Option Sig

/-- Lines 382-383: the entries of `sys.path` that the directory of the application does not start with. -/
def paths (sysPath : List Str) (appDir : Str) : List Str := sysPath.filter (fun p => !p.isPrefixOf appDir)

/-- The result of looking at a module, or at all: the loop goes on with this dictionary, the worker is reloaded because of a
module, or `os.path.exists(None)` raises TypeError (tremolo.py:400-437). -/
inductive Res
  | go (w : Dict Mod Sig)
  | reload (m : Mod)
  | fail
deriving DecidableEq

/-- Lines 403-437: one module. -/
def look (ps : List Str) (fs : Str → Option Sig) (w : Dict Mod Sig) (m : Mod) : Res :=
  match m.file with
  | none => .go w
  | some none => if ps = [] then .fail else .go w
  | some (some f) =>
    if ps.any (fun p => p.isPrefixOf f) then .go w
    else match fs f with
      | none => .go (w.filter (fun p => p.1 ≠ m))
      | some sg =>
        match Dict.get w m with
        | some old => if old = sg then .go w else .reload m
        | none => .go (Dict.set w m sg)

/-- The loop of line 402. -/
def scanL (ps : List Str) (fs : Str → Option Sig) : List Mod → Dict Mod Sig → Res
  | [], w => .go w
  | m :: l, w =>
    match look ps fs w m with
    | .go w => scanL ps fs l w
    | r => r

/-- Line 402: `dict(modules) or sys.modules.values()`. -/
def scan (ps : List Str) (t : Tick) (w : Dict Mod Sig) : Res := scanL ps t.fs (if w = [] then t.mods else w.map (·.1)) w

/-- Seconds, up to the first that reloads the worker (tremolo.py:382-437). -/
def run (ps : List Str) : List Tick → Dict Mod Sig → Res
  | [], w => .go w
  | t :: ts, w =>
    match scan ps t w with
    | .go w => run ps ts w
    | r => r

end Verif.Model.Reload
