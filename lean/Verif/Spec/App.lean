import Verif.Py.Dict
import Verif.Py.Bytes
/-!
# Specification side of routing, registration and middlewares

Stated on raw URLs, lists and dictionaries; nothing here uses the model's functions.
-/
namespace Verif.Spec.App
open Verif.Py

/-- The spellings of the path `p`: one or more slashes, `p`, any number of slashes, an optional query string. -/
def Spelling (p url : Bytes) : Prop :=
  ∃ n m tail, url = List.replicate (n + 1) 47 ++ p ++ List.replicate m 47 ++ tail ∧ (tail = [] ∨ ∃ q, tail = 63 :: q)

/-- A path that means itself: no byte of it is special in Python's `re` syntax. -/
def Literal (p : Bytes) : Prop := ∀ c ∈ p, c ∉ b!".^$*+?{}[]\\|()"

/-- `p` is the path text with the slashes around it removed: `path` is slashes, `p`, slashes, optionally `?...`; `p` neither
starts nor ends with a slash and has no `?`. -/
def Stripped (path p : Bytes) : Prop :=
  ∃ n m tail, path = List.replicate n 47 ++ p ++ List.replicate m 47 ++ tail ∧ (tail = [] ∨ ∃ q, tail = 63 :: q) ∧
    p.head? ≠ some 47 ∧ p.getLast? ≠ some 47 ∧ (63 : UInt8) ∉ p

/-- The value of `k` in the first of several dictionaries that has it. -/
def resolve {K V : Type} [DecidableEq K] (ds : List (Dict K V)) (k : K) : Option V := ds.findSome? (fun d => Dict.get d k)

end Verif.Spec.App
