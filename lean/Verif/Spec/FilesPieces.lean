import Verif.Spec.Files
/-!
# Which pieces of a form with files are asked for
-/
namespace Verif.Spec.Files
open Verif.Py

/-- The bytes at hand and the pieces left after pieces were fetched, at least one, until `n` bytes are at hand. -/
def fetchUntil (n : Nat) : Nat → List Bytes → Nat × List Bytes
  | k, [] => (k, [])
  | k, d :: ds => if n ≤ k + d.length then (k + d.length, ds) else fetchUntil n (k + d.length) ds

/-- The same, but nothing is fetched if `held` (a part has just been given out) and `n` bytes are at hand; says if nothing was fetched. -/
def fetchFor (n k : Nat) (held : Bool) (ds : List Bytes) : Nat × Bool × List Bytes :=
  if held = true ∧ n ≤ k then (k, true, ds) else ((fetchUntil n k ds).1, false, (fetchUntil n k ds).2)

/-- A reader of the parts that looks for the end of a header with every piece it fetches, and then, with the next piece, for the
end of the part: is it told the end of the body? It is if no piece is left behind the one that completed a header. -/
def takesEnd (b : Bytes) : List Part → Nat → Bool → List Bytes → Bool
  | [], _, _, _ => false
  | p :: ps, k, held, ds =>
    let h := fetchFor (p.head b).length k held ds
    if h.2.1 = false ∧ h.2.2 = [] then true
    else
      let c := fetchFor (p.content ++ delimiter b).length (h.1 - (p.head b).length) h.2.1 h.2.2
      takesEnd b ps (c.1 - (p.content ++ CRLF).length) true c.2.2

end Verif.Spec.Files
