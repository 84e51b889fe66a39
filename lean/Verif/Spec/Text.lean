import Verif.Py.Bytes
/-!
# Specifications: HTML entities, percent-decoding, the event-stream grammar
-/
namespace Verif.Spec.Text
open Verif.Py

/-- The four entities. -/
def entities : List (Bytes × UInt8) := [(b!"&amp;", 38), (b!"&lt;", 60), (b!"&gt;", 62), (b!"&quot;", 34)]

/-- Unescape: replace each of the four entities by its character, left to right. -/
def unescape : Bytes → Bytes
  | 38 :: 97 :: 109 :: 112 :: 59 :: t => 38 :: unescape t
  | 38 :: 108 :: 116 :: 59 :: t => 60 :: unescape t
  | 38 :: 103 :: 116 :: 59 :: t => 62 :: unescape t
  | 38 :: 113 :: 117 :: 111 :: 116 :: 59 :: t => 34 :: unescape t
  | c :: t => c :: unescape t
  | [] => []

/-- Percent-decoding. -/
def hexv (c : UInt8) : Nat := if c ≤ 57 then c.toNat - 48 else if c ≤ 70 then c.toNat - 55 else c.toNat - 87
def isHexC (c : UInt8) : Bool := (48 ≤ c && c ≤ 57) || (65 ≤ c && c ≤ 70) || (97 ≤ c && c ≤ 102)
def unquote : Bytes → Bytes
  | [] => []
  | 37 :: a :: b :: t => if isHexC a && isHexC b then UInt8.ofNat (16 * hexv a + hexv b) :: unquote t
      else 37 :: unquote (a :: b :: t)
  | c :: t => c :: unquote t

/-! ### The event-stream grammar (WHATWG HTML, "Interpreting an event stream") -/

structure Event where
  type : Bytes
  data : Bytes
deriving DecidableEq, Repr

structure ES where
  data : Bytes := []
  type : Bytes := []
  lastId : Bytes := []
  retry : Option Nat := none
  events : List Event := []
deriving DecidableEq, Repr

/-- Complete lines of a stream; lines end with LF, CR LF or CR.  An unterminated last line is dropped. -/
def esLines : Bytes → Bytes → List Bytes
  | _, [] => []
  | acc, 10 :: t => acc :: esLines [] t
  | acc, 13 :: 10 :: t => acc :: esLines [] t
  | acc, 13 :: t => acc :: esLines [] t
  | acc, c :: t => esLines (acc ++ [c]) t

def isDigits (s : Bytes) : Bool := s ≠ [] && s.all (fun c => 48 ≤ c && c ≤ 57)
def decNum (s : Bytes) : Nat := s.foldl (fun a c => 10 * a + (c.toNat - 48)) 0

/-- One field of an event. -/
def esField (s : ES) (name value : Bytes) : ES :=
  if name = b!"event" then { s with type := value }
  else if name = b!"data" then { s with data := s.data ++ value ++ [10] }
  else if name = b!"id" then (if (0 : UInt8) ∈ value then s else { s with lastId := value })
  else if name = b!"retry" then (if isDigits value then { s with retry := some (decNum value) } else s)
  else s

/-- Split a line at its first colon and drop one space after it. -/
def esSplit (line : Bytes) : Bytes × Bytes :=
  match partition1 58 line with
  | (a, _, 32 :: b) => (a, b)
  | (a, _, b) => (a, b)

def esLine (s : ES) (line : Bytes) : ES :=
  if line = [] then
    if s.data = [] then { s with data := [], type := [] }
    else { s with events := s.events ++ [⟨s.type, s.data.dropLast⟩], data := [], type := [] }
  else if line.head? = some 58 then s
  else esField s (esSplit line).1 (esSplit line).2

def esParse (s : ES) (stream : Bytes) : ES := (esLines [] stream).foldl esLine s

end Verif.Spec.Text
