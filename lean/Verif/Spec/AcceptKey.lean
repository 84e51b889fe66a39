import Verif.Py.Bytes
/-!
# The accept key of a WebSocket handshake, by the standards

SHA-1 as in FIPS 180-4, sections 5.1.1, 5.2.1, 5.3.1 and 6.1.2, the symbols of base64 as in RFC 4648, section 4, and the key as in
RFC 6455, section 4.2.2.
-/
namespace Verif.Spec.AcceptKey
open Verif.Py

/-! ## SHA-1 -/

/-- ROTL^n(x). -/
def rot (n : Nat) (x : BitVec 32) : BitVec 32 := x.rotateLeft n

def ch (x y z : BitVec 32) : BitVec 32 := (x &&& y) ^^^ (~~~x &&& z)
def parity (x y z : BitVec 32) : BitVec 32 := x ^^^ y ^^^ z
def maj (x y z : BitVec 32) : BitVec 32 := (x &&& y) ^^^ (x &&& z) ^^^ (y &&& z)

def f (t : Nat) : BitVec 32 → BitVec 32 → BitVec 32 → BitVec 32 :=
  if t ≤ 19 then ch else if t ≤ 39 then parity else if t ≤ 59 then maj else parity
def K (t : Nat) : BitVec 32 := if t ≤ 19 then 0x5a827999 else if t ≤ 39 then 0x6ed9eba1 else if t ≤ 59 then 0x8f1bbcdc else 0xca62c1d6

/-- The number that four bytes are, the first the most significant. -/
def number (l : Bytes) : Nat := l.foldl (fun n b => 256 * n + b.toNat) 0

/-- The word `t` of the message schedule of the block `M`. -/
def W (M : Bytes) (t : Nat) : BitVec 32 :=
  if t < 16 then BitVec.ofNat 32 (number ((M.drop (4 * t)).take 4))
  else rot 1 (W M (t - 3) ^^^ W M (t - 8) ^^^ W M (t - 14) ^^^ W M (t - 16))
termination_by t
decreasing_by all_goals omega

/-- The working variables a, b, c, d, e. -/
abbrev V := BitVec 32 × BitVec 32 × BitVec 32 × BitVec 32 × BitVec 32

/-- The variables before round `t`. -/
def vars (M : Bytes) (h : V) : Nat → V
  | 0 => h
  | t + 1 => match vars M h t with
    | (a, b, c, d, e) => (rot 5 a + f t b c d + e + K t + W M t, a, rot 30 b, c, d)

def add (x y : V) : V := (x.1 + y.1, x.2.1 + y.2.1, x.2.2.1 + y.2.2.1, x.2.2.2.1 + y.2.2.2.1, x.2.2.2.2 + y.2.2.2.2)

/-- The hash value after the blocks before block `i` of the padded message `P`. -/
def hash (P : Bytes) : Nat → V
  | 0 => (0x67452301, 0xefcdab89, 0x98badcfe, 0x10325476, 0xc3d2e1f0)
  | i + 1 => add (hash P i) (vars ((P.drop (64 * i)).take 64) (hash P i) 80)

/-- `P` is the padded message: a one bit, the fewest zero bits so that the length is a multiple of 512 bits, and the length of the
message in 64 bits. -/
structure Padded (m P : Bytes) : Prop where
  is : ∃ k l, P = m ++ 0x80 :: List.replicate k 0 ++ l ∧ k < 64 ∧ l.length = 8 ∧ number l = 8 * m.length
  whole : P.length % 64 = 0

/-- `d` is the SHA-1 digest of `m`. -/
def Digest (m d : Bytes) : Prop :=
  ∃ P, Padded m P ∧ ∃ a b c e g : Bytes, d = a ++ b ++ c ++ e ++ g ∧ (∀ x ∈ [a, b, c, e, g], x.length = 4) ∧
    hash P (P.length / 64) = (.ofNat 32 (number a), .ofNat 32 (number b), .ofNat 32 (number c), .ofNat 32 (number e), .ofNat 32 (number g))

/-! ## base64 -/

/-- The lowest `k` bits of a number, the most significant first. -/
def bits : Nat → Nat → List Bool
  | 0, _ => []
  | k + 1, n => bits k (n / 2) ++ [n % 2 == 1]

/-- The number that bits are. -/
def value (l : List Bool) : Nat := l.foldl (fun a b => 2 * a + b.toNat) 0

/-- Groups of six bits; the last one is filled up with zero bits. -/
def six : List Bool → List (List Bool)
  | a :: b :: c :: d :: e :: f :: t => [a, b, c, d, e, f] :: six t
  | [] => []
  | l => [l ++ List.replicate (6 - l.length) false]

/-- The symbol of a value: letters, digits, `+` and `/`. -/
def symbol (n : Nat) : UInt8 :=
  if n < 26 then UInt8.ofNat (65 + n) else if n < 52 then UInt8.ofNat (97 + (n - 26)) else if n < 62 then UInt8.ofNat (48 + (n - 52))
  else if n = 62 then 43 else 47

/-- The base64 text: the symbols of the groups, and `=` up to a multiple of four symbols. -/
def base64 (d : Bytes) : Bytes :=
  let s := (six (d.flatMap (fun b => bits 8 b.toNat))).map (fun g => symbol (value g))
  s ++ List.replicate ((4 - s.length % 4) % 4) 61

/-! ## The key -/

/-- `r` answers the handshake with the key `k` (RFC 6455, section 4.2.2, item 5.4). -/
def Answers (k r : Bytes) : Prop := ∃ d, Digest (k ++ b!"258EAFA5-E914-47DA-95CA-C5AB0DC85B11") d ∧ r = base64 d

end Verif.Spec.AcceptKey
