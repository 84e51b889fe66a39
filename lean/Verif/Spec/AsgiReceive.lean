import Verif.Model.AsgiReceive
/-!
# What an ASGI application takes for the request body
-/
namespace Verif.Spec.AsgiReceive
open Verif.Py
open Verif.Model.AsgiReceive (Msg Res)

/-- The bodies of the messages up to and including the first one without `more_body`; nothing if there is no such message, or
if anything but `http.request` comes before it. -/
def bodyOf : List Res → Option Bytes
  | .msg (.request d true) :: r => (bodyOf r).map (d ++ ·)
  | .msg (.request d false) :: _ => some d
  | _ => none

/-- All bodies of `http.request` messages. -/
def bodies : List Res → Bytes
  | [] => []
  | .msg (.request d _) :: r => d ++ bodies r
  | _ :: r => bodies r

/-- An application that has seen the whole body goes by what it has seen. -/
theorem bodyOf_append {l : List Res} {b : Bytes} (h : bodyOf l = some b) (r : List Res) : bodyOf (l ++ r) = some b := by
  induction l generalizing b with
  | nil => cases h
  | cons x l ih =>
    match x with
    | .msg (.request d true) =>
      simp only [bodyOf, Option.map_eq_some_iff, List.cons_append] at h ⊢
      obtain ⟨a, ha, e⟩ := h
      exact ⟨a, ih ha, e⟩
    | .msg (.request d false) => exact h
    | .msg .disconnect => cases h
    | .typeError => cases h

end Verif.Spec.AsgiReceive
