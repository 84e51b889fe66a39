import Verif.Py.Urllib
import Verif.Spec.Text
/-!
# Specification of URL-encoded fields, of cookies and of the parameters of multipart parts
-/
namespace Verif.Spec.Params
open Verif.Py Verif.Spec.Text

/-- The UTF-8 form of a text. -/
def utf8 (s : Str) : Bytes := s.flatMap String.utf8EncodeChar

/-- `Written stop s t`: `t` is a way to write the bytes `s` as `application/x-www-form-urlencoded` has it: every byte may be
escaped as `%` and two hexadecimal digits of either case; a space may be written `+`; ASCII bytes may stand for themselves, except
`%`, `+` and those in `stop`. -/
inductive Written (stop : List UInt8) : Bytes → Bytes → Prop
  | nil : Written stop [] []
  | raw {x : UInt8} {s t : Bytes} (h1 : x < 128) (h2 : x ∉ stop) (h3 : x ≠ 37) (h4 : x ≠ 43) (h : Written stop s t) : Written stop (x :: s) (x :: t)
  | plus {s t : Bytes} (h : Written stop s t) : Written stop (32 :: s) (43 :: t)
  | esc {a b : UInt8} {s t : Bytes} (ha : isHexC a = true) (hb : isHexC b = true) (h : Written stop s t) :
    Written stop (UInt8.ofNat (16 * hexv a + hexv b) :: s) (37 :: a :: b :: t)

/-- What stands between two `&`: `name=value`, or a name alone (perhaps empty). -/
inductive Item
  | field (name value : Str)
  | flag (name : Str)

def Item.Written (stop : List UInt8) : Item → Bytes → Prop
  | .field n v, t => ∃ a b, Params.Written (38 :: 61 :: stop) (utf8 n) a ∧ Params.Written (38 :: stop) (utf8 v) b ∧ t = a ++ 61 :: b
  | .flag n, t => Params.Written (38 :: 61 :: stop) (utf8 n) t

/-- The values given for `k`, in order. -/
def values (items : List Item) (k : Str) : List Str :=
  items.filterMap (fun i => match i with | .field n v => if n = k then some v else none | .flag _ => none)

/-- What a dictionary of lists has for a key with these values. -/
def given : List Str → Option (List Str)
  | [] => none
  | vs => some vs

/-- `d` has exactly the values of `items`, without the blank ones. -/
def Holds (d : Dict Str (List Str)) (items : List Item) : Prop :=
  ∀ k, Dict.get d k = given ((values items k).filter (· ≠ []))

/-- The two lists have the same length and `R` holds of what is at the same place. -/
inductive Each {α β : Type} (R : α → β → Prop) : List α → List β → Prop
  | nil : Each R [] []
  | cons {a b l m} (h : R a b) (r : Each R l m) : Each R (a :: l) (b :: m)

/-! ### Cookies -/

/-- What a client stores of a Set-Cookie value, and sends back (RFC 6265, 5.2): what stands before the first semicolon. -/
def stored (setCookie : Bytes) : Bytes := setCookie.takeWhile (· ≠ 59)

/-! ### Multipart -/

/-- How browsers write names and file names (WHATWG HTML, multipart/form-data encoding algorithm). -/
def mpEscape (s : Bytes) : Bytes := s.flatMap (fun c => if c = 34 then b!"%22" else if c = 13 then b!"%0D" else if c = 10 then b!"%0A" else [c])

/-- The Content-Disposition of a part with these parameters. -/
def dispositionText (params : List (Bytes × Bytes)) : Bytes :=
  b!"form-data" ++ params.flatMap (fun p => b!"; " ++ p.1 ++ b!"=\"" ++ mpEscape p.2 ++ b!"\"")

end Verif.Spec.Params
