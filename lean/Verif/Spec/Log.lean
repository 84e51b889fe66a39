import Verif.Py.Urllib
/-!
# Reading a log
-/
namespace Verif.Spec.Log
open Verif.Py

/-- The lines of a text, each ended by `\n`. -/
def lines : Str → Str → List Str
  | _, [] => []
  | acc, c :: t => if c = '\n' then acc.reverse :: lines [] t else lines (c :: acc) t

/-- A text cut at its first `": "`. -/
def cut : Str → Option (Str × Str)
  | [] => none
  | ':' :: ' ' :: t => some ([], t)
  | c :: t => (cut t).map (fun x => (c :: x.1, x.2))

/-- What stands behind `[time] module: LEVEL: `. -/
def message (l : Str) : Option Str := do
  let (_, l) ← cut l
  let (_, l) ← cut l
  return l

/-- Where it happened, the class of the exception, and its text. -/
def read (l : Str) : Option (Str × Str × Str) := do
  let m ← message l
  let (place, m) ← cut m
  let (cls, text) ← cut m
  return (place, cls, text)

/-- A printable character of ASCII that is neither a space nor a colon. -/
def graphic (c : Char) : Prop := 32 < c.toNat ∧ c.toNat < 127 ∧ c ≠ ':'

end Verif.Spec.Log
