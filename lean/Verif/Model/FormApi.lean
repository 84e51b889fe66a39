import Verif.Model.ReadApi
import Verif.Model.Params
/-!
# Model of `form()` among the other calls by which a handler reads its body

`tremolo/lib/http_request.py` 301-321 (`form`), on the state of `Model/ReadApi.lean`. `Model/Form.lean` has one call of `form` against the
arrival of the body; here all of the body has arrived, so `body_size` is one number, and what was read before matters.
-/
namespace Verif.Model.FormApi
open Verif.Py Verif.Model.ReadApi Verif.Model.Params

/-- The arguments of `form`, whether the content type is that of a form (307-308), and `body_size`. -/
structure Args where
  limit : Nat := 8388608
  maxFields : Nat := 100
  isForm : Bool := true
  size : Nat

/-- `post`: `self.params['post']` (lib/http_request.py:301-321). -/
structure FSt where
  st : St
  post : Option Fields := none

/-- What `form` raises: what the stream does, the `ValueError` of 313, or that of `parse_qs`. -/
inductive FExc | stream (e : Exc) | limit | fields
deriving DecidableEq, Repr

/-- The loop 309-313. -/
def loop (c : Cfg) (a : Args) : Nat → Gen → St → Except FExc Unit × St
  | 0, _, s => (.error (.stream .fuel), s)
  | fuel + 1, g, s =>
    match next c g s with
    | (.ok d, g, s) =>
      let s := { s with body := s.body ++ d }
      if a.size > a.limit then (.error .limit, s) else loop c a fuel g s
    | (.error .stop, _, s) => (.ok (), s)
    | (.error e, _, s) => (.error (.stream e), s)

/-- `form(limit, max_fields)` (lib/http_request.py:301-321). -/
def form (c : Cfg) (a : Args) (x : FSt) : Except FExc Fields × FSt :=
  match x.post with
  | some d => (.ok d, x)
  | none =>
    if a.isForm then
      match loop c a (bound {} x.st) {} x.st with
      | (.error e, s) => (.error e, ⟨s, some []⟩)
      | (.ok _, s) =>
        if 2 < a.size ∧ a.size ≤ a.limit then
          match parseQs a.maxFields s.body with
          | some d => (.ok d, ⟨s, some d⟩)
          | none => (.error .fields, ⟨s, some []⟩)
        else (.ok [], ⟨s, some []⟩)
    else (.ok [], { x with post := some [] })

end Verif.Model.FormApi
