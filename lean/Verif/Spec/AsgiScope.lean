import Verif.Spec.Params
/-!
# Specification vocabulary for ASGI scopes
-/
namespace Verif.Spec.AsgiScope
open Verif.Py

/-- A list of tokens as a client writes it in one field: with a comma between two of them, and a space after the comma or not. The
flag of the first token has no meaning. -/
def tokensText : List (Bool × Bytes) → Bytes
  | [] => []
  | [(_, t)] => t
  | (_, t) :: (sp, u) :: l => t ++ b!"," ++ (if sp then b!" " else []) ++ tokensText ((sp, u) :: l)

/-- A token contains no comma and does not begin with a space. -/
def token (t : Bytes) : Prop := (44 : UInt8) ∉ t ∧ t.head? ≠ some 32

/-- `url` is `path`, or `path ? query`. -/
def SplitsAt (url path query : Bytes) : Prop := (63 : UInt8) ∉ path ∧ ((url = path ∧ query = []) ∨ url = path ++ 63 :: query)

end Verif.Spec.AsgiScope
