import Verif.Spec.Head
import Verif.Spec.Response
/-!
# Specification vocabulary for `sendfile`: byte ranges (RFC 9110, section 14.1.1) and multipart bodies
-/
namespace Verif.Spec.Sendfile
open Verif.Py

/-- A non-empty string of digits. -/
def Digits (d : Bytes) : Prop := d ≠ [] ∧ ∀ c ∈ d, 48 ≤ c ∧ c ≤ 57

/-- A range as a client writes it. The fields are digit strings (leading zeros are allowed). -/
inductive Range
  | between (first last : Bytes)
  | fromOn (first : Bytes)
  | suffix (n : Bytes)

namespace Range

def Ok : Range → Prop
  | between a b => Digits a ∧ Digits b
  | fromOn a => Digits a
  | suffix n => Digits n

def text : Range → Bytes
  | between a b => a ++ b!"-" ++ b
  | fromOn a => a ++ b!"-"
  | suffix n => b!"-" ++ n

/-- The first and last position of the range in a file of `size` bytes, for a range that lies within the file. -/
def within (size : Nat) : Range → Option (Nat × Nat)
  | between a b => if Head.valueOf a ≤ Head.valueOf b ∧ Head.valueOf b < size then some (Head.valueOf a, Head.valueOf b) else none
  | fromOn a => if Head.valueOf a < size then some (Head.valueOf a, size - 1) else none
  | suffix n => if 0 < Head.valueOf n ∧ Head.valueOf n ≤ size then some (size - Head.valueOf n, size - 1) else none

/-- The two forms that the code treats differently from every specification: a last position 0 behind a first position
that is not 0, and a suffix of length 0. -/
def Odd : Range → Prop
  | between a b => Head.valueOf b = 0 ∧ 0 < Head.valueOf a
  | fromOn _ => False
  | suffix n => Head.valueOf n = 0

end Range

/-- White space that may surround the elements of a list. -/
def Blank (w : Bytes) : Prop := ∀ c ∈ w, isSpace c = true

/-- An element with white space around it. -/
structure Elem where
  pre : Bytes
  range : Range
  post : Bytes

def Elem.Ok (e : Elem) : Prop := Blank e.pre ∧ e.range.Ok ∧ Blank e.post
def Elem.text (e : Elem) : Bytes := e.pre ++ e.range.text ++ e.post

/-- The value of a Range header with these elements. -/
def headerText (es : List Elem) : Bytes := b!"bytes=" ++ join b!"," (es.map Elem.text)

/-- The bytes of a file from position `p.1` to position `p.2`, both included. -/
def slice (file : Bytes) (p : Nat × Nat) : Bytes := (file.drop p.1).take (p.2 + 1 - p.1)

/-- The value of a Content-Range header. -/
def contentRange (p : Nat × Nat) (size : Nat) : Bytes := b!"bytes " ++ fmtNat p.1 ++ b!"-" ++ fmtNat p.2 ++ b!"/" ++ fmtNat size

/-- A multipart/byteranges body (RFC 9110, section 15.3.7.2): one part for each range. -/
def multipart (boundary ctype file : Bytes) (ps : List (Nat × Nat)) : Bytes :=
  (ps.map (fun p => b!"--" ++ boundary ++ b!"\r\nContent-Type: " ++ ctype ++ b!"\r\nContent-Range: " ++ contentRange p file.length ++ CRLF2 ++
    slice file p ++ CRLF)).flatten ++ b!"--" ++ boundary ++ b!"--\r\n"

end Verif.Spec.Sendfile
