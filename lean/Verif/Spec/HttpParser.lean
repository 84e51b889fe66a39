import Verif.Py.Bytes
/-!
# Specification vocabulary for HTTP heads (independent of the parser model)
-/
namespace Verif.Spec.HttpParser
open Verif.Py

/-- A header field as a client writes it: `name ":" [" "] value`. -/
structure Field where
  name : Bytes
  space : Bool
  value : Bytes
deriving DecidableEq

/-- A request head as a client writes it. -/
structure ReqHead where
  method : Bytes
  url : Bytes
  version : Bytes
  fields : List Field
deriving DecidableEq

/-- The text of a start line, without CRLF. -/
def ReqHead.line (r : ReqHead) : Bytes := r.method ++ b!" " ++ r.url ++ b!" HTTP/" ++ r.version
def Field.line (f : Field) : Bytes := f.name ++ b!":" ++ (if f.space then b!" " else []) ++ f.value
/-- All lines, each followed by CRLF (the blank line is not included). -/
def ReqHead.text (r : ReqHead) : Bytes := r.line ++ CRLF ++ (r.fields.map (fun f => f.line ++ CRLF)).flatten
/-- The bytes on the wire: head, blank line, rest of the stream. -/
def ReqHead.wire (r : ReqHead) (rest : Bytes) : Bytes := r.text ++ CRLF ++ rest

/-- A field line is legal: non-empty name without colon or LF that does not end in a space, a value without LF; when
no space follows the colon the value does not start with one. -/
structure Field.Wf (f : Field) : Prop where
  ne : f.name ≠ []
  colon : (58 : UInt8) ∉ f.name
  last : f.name.getLast? ≠ some 32
  lfName : (10 : UInt8) ∉ f.name
  lfValue : (10 : UInt8) ∉ f.value
  sp : f.space = false → f.value.head? ≠ some 32

/-- Field names that collide with the parser's own dictionary keys. -/
def reserved : List Bytes := [b!"_method", b!"_url", b!"_version", b!"_line"]

/-- A well-formed request head for the given limits. -/
structure ReqHead.Wf (r : ReqHead) (maxLines maxLineSize : Nat) : Prop where
  methodSp : (32 : UInt8) ∉ r.method
  lf : (10 : UInt8) ∉ r.line
  version : ¬ b!"HTTP/" <:+: r.version
  fields : ∀ f ∈ r.fields, f.Wf
  host : r.version = b!"1.1" → ∃ f ∈ r.fields, lower f.name = b!"host"
  count : r.fields.length + 1 ≤ maxLines
  size0 : r.line.length ≤ maxLineSize
  size : ∀ f ∈ r.fields, f.line.length ≤ maxLineSize

/-- No field name collides with a parser key. -/
def ReqHead.NoReserved (r : ReqHead) : Prop := ∀ f ∈ r.fields, lower f.name ∉ reserved

/-- What an application should see as field list: names lower-cased, values without the optional space. -/
def ReqHead.pairs (r : ReqHead) : List (Bytes × Bytes) := r.fields.map (fun f => (lower f.name, f.value))

/-- The values of all fields with a given (lower-case) name, in order. -/
def valuesOf (ps : List (Bytes × Bytes)) (name : Bytes) : List Bytes := (ps.filter (fun p => p.1 = name)).map (·.2)

/-- `head` is a sequence of LF-free lines each ended by CRLF, followed by a tail without CRLF. -/
def HeadLines (head : Bytes) (ls : List Bytes) : Prop :=
  ∃ tail, head = (ls.map (· ++ CRLF)).flatten ++ tail ∧ (∀ l ∈ ls, (10 : UInt8) ∉ l) ∧ ¬ CRLF <:+: tail

/-- `METHOD SP url SP HTTP/version`. -/
def IsRequestLine (l m u v : Bytes) : Prop :=
  l = m ++ b!" " ++ u ++ b!" HTTP/" ++ v ∧ (32 : UInt8) ∉ m ∧ ¬ b!"HTTP/" <:+: v

/-- `name ":" value` with a non-empty name not ending in a space; the colon is the first one after the first byte. -/
def IsFieldLine (l n v : Bytes) : Prop :=
  l = n ++ b!":" ++ v ∧ n ≠ [] ∧ (58 : UInt8) ∉ n.tail ∧ n.getLast? ≠ some 32

end Verif.Spec.HttpParser
