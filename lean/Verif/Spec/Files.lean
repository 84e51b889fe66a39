import Verif.Spec.HttpParser
/-!
# Multipart bodies as a client writes them (independent of the model of `files`)
-/
namespace Verif.Spec.Files
open Verif.Py Verif.Spec.HttpParser

/-- A part: header fields and content. -/
structure Part where
  fields : List Field
  content : Bytes
deriving DecidableEq

/-- The delimiter that ends a part's content. -/
def delimiter (b : Bytes) : Bytes := CRLF ++ b!"--" ++ b

/-- Boundary line, fields, blank line. -/
def Part.head (b : Bytes) (p : Part) : Bytes := b!"--" ++ b ++ CRLF ++ (p.fields.map (fun f => f.line ++ CRLF)).flatten ++ CRLF

def closing (b : Bytes) : Bytes := b!"--" ++ b ++ b!"--" ++ CRLF

/-- The body of a multipart request. -/
def multipart (b : Bytes) : List Part → Bytes
  | [] => closing b
  | p :: ps => p.head b ++ p.content ++ CRLF ++ multipart b ps

/-- The value of the only field of that name. -/
def Part.field (p : Part) (k : Bytes) : Option Bytes :=
  match p.fields.filter (fun f => lower f.name = k) with
  | [f] => some f.value
  | _ => none

/-- A boundary: no CR or LF, and not longer than 8186 bytes (RFC 2046 allows 70). -/
structure BoundaryOk (b : Bytes) : Prop where
  cr : (13 : UInt8) ∉ b
  lf : (10 : UInt8) ∉ b
  size : b.length ≤ 8186

/-- A part that a client may send: legal fields, at most 99 of them and 8193 bytes in all with the boundary line and the
blank line; none of the three fields that are looked at twice, and less than 100 parameters; a Content-Length, if there is
one, says the length of the content; and if there is none, the content does not contain the delimiter. -/
structure Part.Ok (b : Bytes) (p : Part) : Prop where
  fields : ∀ f ∈ p.fields, f.Wf
  count : p.fields.length ≤ 99
  size : (p.head b).length ≤ 8193
  once : ∀ k ∈ [b!"content-disposition", b!"content-length", b!"content-type"],
    (p.fields.filter (fun f => lower f.name = k)).length ≤ 1
  params : ∀ v, p.field b!"content-disposition" = some v → count1 38 v + count1 59 v < 100
  length : ∀ v, p.field b!"content-length" = some v → v = fmtNat p.content.length
  delim : p.field b!"content-length" = none → ¬ delimiter b <:+: p.content

/-- Legal fields, and not too many; whatever they say. -/
structure Part.Legal (b : Bytes) (p : Part) : Prop where
  fields : ∀ f ∈ p.fields, f.Wf
  count : p.fields.length ≤ 99
  size : (p.head b).length ≤ 8193

/-- A part of which the application cannot be told: it has one of the three fields twice, or a Content-Disposition of 100 parameters. -/
def Part.Odd (p : Part) : Prop :=
  (∃ k ∈ [b!"content-disposition", b!"content-length", b!"content-type"], 2 ≤ (p.fields.filter (fun f => lower f.name = k)).length) ∨
  ∃ v, p.field b!"content-disposition" = some v ∧ 100 ≤ count1 38 v + count1 59 v

/-- How many parts have been received with the delimiter that ends them. -/
def complete (b : Bytes) : List Part → Bytes → Nat
  | [], _ => 0
  | p :: ps, D =>
    if (p.head b ++ p.content ++ delimiter b).isPrefixOf D then 1 + complete b ps (D.drop (p.head b ++ p.content ++ CRLF).length) else 0

end Verif.Spec.Files
