import Verif.Model.ErrorPage
/-!
# Specification: error pages as a client reads them
-/
namespace Verif.Spec.ErrorPage
open Verif.Py Verif.Model.ErrorPage

/-- Status, reason and type that belong to what was raised. -/
def statusOf : Raised → Int × Str × Str
  | .http h => (h.code, h.message, h.ctype)
  | .timeout _ => (408, "Request Timeout".toList, "text/html; charset=utf-8".toList)
  | .other _ => (500, "Internal Server Error".toList, "text/html; charset=utf-8".toList)

/-- What the page of an exception says without the debug option: the arguments of an HTTPException with a blank between
them, or its message when it has none; for anything else only the reason. -/
inductive PageText : Raised → Str → Prop
  | message (h) : h.args = [] → PageText (.http h) h.message
  | args (h) (a : Str) (r : List Str) : h.args = (a :: r).map some → PageText (.http h) (a ++ r.flatMap (fun s => ' ' :: s))
  | timeout (t : Str) : PageText (.timeout (some t)) "Request Timeout".toList
  | other (t : Str) : PageText (.other (some t)) "Internal Server Error".toList

/-- A text that fits into a header line. -/
def Line (s : Str) : Prop := ∀ ch ∈ s, ch.toNat < 256 ∧ ch ≠ '\n'

/-- A part of a content type declares a charset. -/
def Declares (part name : Str) : Prop :=
  ∃ w w' w'', (∀ ch ∈ w ++ w' ++ w'', pySpace ch = true) ∧ part = w ++ "charset=".toList ++ w' ++ name ++ w'' ∧
    (∀ ch ∈ name.head?, pySpace ch = false) ∧ (∀ ch ∈ name.getLast?, pySpace ch = false)

/-- The white space of Python's `str`, written out. -/
def blanks : Str :=
  ['\t', '\n', '\x0b', '\x0c', '\r', '\x1c', '\x1d', '\x1e', '\x1f', ' ', '\u0085', '\u00a0', '\u1680', '\u2000', '\u2001', '\u2002', '\u2003', '\u2004', '\u2005',
   '\u2006', '\u2007', '\u2008', '\u2009', '\u200a', '\u2028', '\u2029', '\u202f', '\u205f', '\u3000']

/-- A letter or digit of a name of an encoding, or a dot. -/
def Letter (c : Char) : Prop := c ∈ "abcdefghijklmnopqrstuvwxyzABCDEFGHIJKLMNOPQRSTUVWXYZ0123456789.".toList
instance (c : Char) : Decidable (Letter c) := inferInstanceAs (Decidable (c ∈ _))

/-- Parts with semicolons between them. -/
def parts : List Str → Str
  | [] => []
  | [p] => p
  | p :: q :: r => p ++ ';' :: parts (q :: r)

/-- The five entities of `html.escape`, undone from left to right. -/
def unescapeS : Str → Str
  | '&' :: 'a' :: 'm' :: 'p' :: ';' :: t => '&' :: unescapeS t
  | '&' :: 'l' :: 't' :: ';' :: t => '<' :: unescapeS t
  | '&' :: 'g' :: 't' :: ';' :: t => '>' :: unescapeS t
  | '&' :: 'q' :: 'u' :: 'o' :: 't' :: ';' :: t => '"' :: unescapeS t
  | '&' :: '#' :: 'x' :: '2' :: '7' :: ';' :: t => '\'' :: unescapeS t
  | c :: t => c :: unescapeS t
  | [] => []

/-- The classes of http_exceptions.py:44-107: code and message. -/
def classes : List (Int × Str) :=
  [(400, "Bad Request".toList), (401, "Unauthorized".toList), (403, "Forbidden".toList), (404, "Not Found".toList),
   (405, "Method Not Allowed".toList), (408, "Request Timeout".toList), (412, "Precondition Failed".toList),
   (413, "Payload Too Large".toList), (416, "Range Not Satisfiable".toList), (417, "Expectation Failed".toList),
   (429, "Too Many Requests".toList), (500, "Internal Server Error".toList), (503, "Service Unavailable".toList)]

end Verif.Spec.ErrorPage
