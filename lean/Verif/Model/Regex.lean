import Verif.Py.Bytes
/-!
# The part of Python's `re` that `Tremolo.add_route` relies on

The route patterns built by tremolo/tremolo.py:200-212 (and the default one at line 50) are text in `re` syntax.  `parse`
reads the fragment of that syntax they use: literal bytes, `.`, `^`, `$`, `\` followed by a punctuation byte, `(?:...)`, and
the quantifiers `*`, `+`, `?` (the first two on a single byte or `.` only).  Anything else gives `none`.  `search` is
`re.compile(p).search(s)` for that fragment, as a yes/no answer (captured groups are not modelled: the fragment has none).
-/
namespace Verif.Model.Regex
open Verif.Py

/-- one-byte matchers (tremolo.py:210-212). -/
inductive Cls
  | lit (c : UInt8)
  | any
deriving DecidableEq, Repr

/-- The byte is matched; `.` matches anything but LF (tremolo.py:210-212). -/
def Cls.ok : Cls → UInt8 → Bool
  | .lit c, x => x == c
  | .any, x => x != 10

/-- Regular expressions (tremolo.py:210-212). -/
inductive Re
  | eps
  | chr (p : Cls)
  | many (p : Cls)
  | many1 (p : Cls)
  | opt (r : Re)
  | seq (a b : Re)
  | bol
  | eol
deriving DecidableEq, Repr

/-- the rests of `s` after zero or more bytes satisfying `p` (for http_server.py:296). -/
def manyRests (p : UInt8 → Bool) : Bytes → List Bytes
  | [] => [[]]
  | c :: t => (c :: t) :: (if p c then manyRests p t else [])

/-- The rests of `s` after all the ways `r` can match at its start; `n` is the length of the whole subject (for http_server.py:296). -/
def run (n : Nat) : Re → Bytes → List Bytes
  | .eps, s => [s]
  | .chr p, s => match s with
    | [] => []
    | c :: t => if p.ok c then [t] else []
  | .many p, s => manyRests p.ok s
  | .many1 p, s => match s with
    | [] => []
    | c :: t => if p.ok c then manyRests p.ok t else []
  | .opt r, s => s :: run n r s
  | .seq a b, s => (run n a s).flatMap (run n b)
  | .bol, s => if s.length = n then [s] else []
  | .eol, s => if s = [] ∨ s = [10] then [s] else []

/-- The places where a search may begin (for http_server.py:296). -/
def tails : Bytes → List Bytes
  | [] => [[]]
  | c :: t => (c :: t) :: tails t

/-- `pattern.search(s)` is not None (http_server.py:296, 314). -/
def search (r : Re) (s : Bytes) : Bool := (tails s).any (fun t => !(run s.length r t).isEmpty)

/-- the metacharacters of `re` syntax (for tremolo.py:210-212). -/
def metaB (c : UInt8) : Bool := b!".^$*+?{}[]\\|()".contains c

/-- ASCII letters and digits (for tremolo.py:210-212). -/
def alnum (c : UInt8) : Bool := (48 ≤ c && c ≤ 57) || (65 ≤ c && c ≤ 90) || (97 ≤ c && c ≤ 122)

/-- sequence of the atoms of a group (kept reversed while parsing) (for tremolo.py:219-225). -/
def seqRev (l : List Re) : Re := l.foldl (fun acc r => .seq r acc) .eps

/-- `st` is the stack of open groups, innermost first, each a reversed list of atoms; `q` tells whether the last atom can take
a quantifier (for tremolo.py:219-225). -/
def parseAux : Bytes → List (List Re) → Bool → Option Re
  | [], [g], _ => some (seqRev g)
  | [], _, _ => none
  | 40 :: 63 :: 58 :: t, st, _ => parseAux t ([] :: st) false
  | 92 :: c :: t, g :: st, _ => if alnum c then none else parseAux t ((.chr (.lit c) :: g) :: st) true
  | c :: t, st, q =>
    if c = 41 then match st with
      | g :: g' :: st => parseAux t ((seqRev g :: g') :: st) true
      | _ => none
    else match st with
      | [] => none
      | g :: st =>
        if c = 46 then parseAux t ((.chr .any :: g) :: st) true
        else if c = 94 then parseAux t ((.bol :: g) :: st) false
        else if c = 36 then parseAux t ((.eol :: g) :: st) false
        else if c = 42 then match q, g with
          | true, .chr p :: g => parseAux t ((.many p :: g) :: st) false
          | _, _ => none
        else if c = 43 then match q, g with
          | true, .chr p :: g => parseAux t ((.many1 p :: g) :: st) false
          | _, _ => none
        else if c = 63 then match q, g with
          | true, r :: g => parseAux t ((.opt r :: g) :: st) false
          | _, _ => none
        else if metaB c then none
        else parseAux t ((.chr (.lit c) :: g) :: st) true

/-- parse a pattern; `none` when it is outside the fragment (tremolo.py:219-225). -/
def parse (p : Bytes) : Option Re := parseAux p [[]] false

end Verif.Model.Regex
