import Verif.Py.Bytes
/-!
# Specification vocabulary for request bodies (independent of the stream model)
-/
namespace Verif.Spec.Body
open Verif.Py

/-- Is `c` one of 0-9, a-f, A-F, and which value does it have. -/
def isHex (c : UInt8) : Prop := (48 ≤ c ∧ c ≤ 57) ∨ (97 ≤ c ∧ c ≤ 102) ∨ (65 ≤ c ∧ c ≤ 70)
def hexVal (c : UInt8) : Nat :=
  if c ≤ 57 then c.toNat - 48 else if c ≤ 70 then c.toNat - 55 else c.toNat - 87
/-- The number written by a string of hexadecimal digits. -/
def hexNum (s : Bytes) : Nat := s.foldl (fun a c => 16 * a + hexVal c) 0

/-- One chunk as a client writes it. -/
structure Chunk where
  size : Bytes
  ext : Bytes
  data : Bytes
deriving DecidableEq

/-- A legal size line: hexadecimal digits (any case, leading zeros allowed) and an optional extension starting with a
semicolon, without LF. -/
structure SizeLine (size ext : Bytes) (n : Nat) : Prop where
  ne : size ≠ []
  hex : ∀ c ∈ size, isHex c
  val : hexNum size = n
  lf : (10 : UInt8) ∉ ext
  semi : ext = [] ∨ ∃ e, ext = 59 :: e

def Chunk.Wf (c : Chunk) : Prop := SizeLine c.size c.ext c.data.length ∧ c.data ≠ []

/-- The encoding of a list of chunks followed by `rest`. -/
def encode : List Chunk → Bytes → Bytes
  | [], rest => rest
  | c :: cs, rest => c.size ++ c.ext ++ CRLF ++ c.data ++ CRLF ++ encode cs rest

/-- The last chunk: a zero size line and whatever follows (trailers, blank line, next request). -/
def lastChunk (size ext rest : Bytes) : Bytes := size ++ ext ++ CRLF ++ rest

def payload (cs : List Chunk) : Bytes := (cs.map Chunk.data).flatten

/-- No segment ends between a chunk's data and the end of the CRLF that follows it. -/
def SafeCuts (cs : List Chunk) (last : Bytes) (segs : List Bytes) : Prop :=
  ∀ a b, segs = a ++ b → ∀ pre c post, cs = pre ++ c :: post →
    b.flatten ≠ 13 :: 10 :: encode post last ∧ b.flatten ≠ 10 :: encode post last

/-- What a size line means to the server: the part before the first semicolon read by Python's `int('0x' + _, 16)`. -/
def LineSize (line : Bytes) (n : Nat) : Prop :=
  ∃ num ext, line = num ++ ext ∧ (59 : UInt8) ∉ num ∧ (ext = [] ∨ ∃ e, ext = 59 :: e) ∧ intHex0x num = some n

/-- `r` consists of chunks up to and including a zero-size line, then anything; the payload is `p`.  Up to two bytes
after a chunk's data are skipped unseen. -/
inductive Complete : Bytes → Bytes → Prop
  | zero {line rest} : ¬ CRLF <:+: line ++ [13] → LineSize line 0 → Complete (line ++ CRLF ++ rest) []
  | chunk {line data skip r p} : ¬ CRLF <:+: line ++ [13] → LineSize line data.length → data ≠ [] → skip.length ≤ 2 →
      Complete r p → Complete (line ++ CRLF ++ data ++ skip ++ r) (data ++ p)

end Verif.Spec.Body
