import Verif.Py.Bytes
/-!
# Specification vocabulary for the head phase (independent of the model)
-/
namespace Verif.Spec.Head
open Verif.Py

/-- The first blank line (CRLF CRLF) of `s` starts at position `n`. -/
def FirstBlank (s : Bytes) (n : Nat) : Prop :=
  (∃ a b, s = a ++ CRLF2 ++ b ∧ a.length = n) ∧ ∀ a b, s = a ++ CRLF2 ++ b → n ≤ a.length

/-- `s` contains no blank line. -/
def NoBlank (s : Bytes) : Prop := ∀ a b, s ≠ a ++ CRLF2 ++ b

/-- Canonical decimal numeral: digits only, no leading zero except in `0` itself. -/
def Canonical (v : Bytes) : Prop :=
  v ≠ [] ∧ (∀ c ∈ v, 48 ≤ c ∧ c ≤ 57) ∧ (v.head? = some 48 → v = [48])

/-- The number a string of digits denotes. -/
def valueOf (v : Bytes) : Nat := v.foldl (fun a c => 10 * a + (c.toNat - 48)) 0

/-- Comma-separated options of a header value, spaces removed, letter case folded. -/
def options : Bytes → List Bytes
  | [] => [[]]
  | c :: t =>
    if c = 44 then [] :: options t
    else if c = 32 then options t
    else match options t with
      | [] => [[lowerB c]]
      | o :: os => (lowerB c :: o) :: os

end Verif.Spec.Head
