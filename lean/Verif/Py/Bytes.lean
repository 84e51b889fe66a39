/-!
# Python `bytes` primitives

Bytes are `List UInt8`.  Each function below models the CPython method named in its comment, on the arguments the
tremolo sources use.  `b!"..."` is a literal (UTF-8 bytes of the string, expanded at elaboration time).
-/

namespace Verif.Py

/-- `bytes` and `bytearray`, as read from the transport (lib/http_protocol.py:367-372). -/
abbrev Bytes := List UInt8

syntax:max "b!" str : term
open Lean in
macro_rules
  | `(b! $s:str) => do
    let bs := s.getString.toUTF8.toList
    let elems : Array (TSyntax `term) := (bs.map (fun b => (⟨Syntax.mkNumLit (toString b.toNat)⟩ : TSyntax `term))).toArray
    `(([ $[$elems],* ] : List UInt8))

/-- `pat` is a prefix of `s` (`s.startswith(pat)`). Used at tremolo.py:196, 589. -/
def startsWith (s pat : Bytes) : Bool := pat.isPrefixOf s

/-- `s.endswith(pat)`. Used at tremolo.py:196, 553; lib/http_response.py:382. -/
def endsWith (s pat : Bytes) : Bool := pat.reverse.isPrefixOf s.reverse

/-- `s.find(pat)`: least index at which `pat` occurs; `none` models `-1`. Used at lib/http_request.py:103, 207, 364. -/
def find (pat : Bytes) : Bytes → Option Nat
  | [] => if pat = [] then some 0 else none
  | c :: t => if pat.isPrefixOf (c :: t) then some 0 else (find pat t).map (· + 1)

/-- `pat in s`. Used at lib/http_request.py:187. -/
def contains (pat s : Bytes) : Bool := (find pat s).isSome

/-- `s.find(pat, start)` for `0 ≤ start`: the index is relative to `s`. Used at lib/http_request.py:405; lib/http_parser.py:65. -/
def findFrom (pat s : Bytes) (start : Nat) : Option Nat :=
  if s.length < start then none else (find pat (s.drop start)).map (· + start)

/-- `s.rfind(pat)` for non-empty `pat`: greatest index at which `pat` occurs. Used at lib/http_parser.py:81. -/
def rfind (pat : Bytes) : Bytes → Option Nat
  | [] => if pat = [] then some 0 else none
  | c :: t =>
    match rfind pat t with
    | some n => some (n + 1)
    | none => if pat.isPrefixOf (c :: t) then some 0 else none

/-- ASCII lower-casing of one byte (`bytes.lower`). Used at lib/http_parser.py:116. -/
def lowerB (c : UInt8) : UInt8 := if 65 ≤ c ∧ c ≤ 90 then c + 32 else c
/-- ASCII upper-casing of one byte (`bytes.upper`). Used at lib/http_request.py:52. -/
def upperB (c : UInt8) : UInt8 := if 97 ≤ c ∧ c ≤ 122 then c - 32 else c
/-- `s.lower()`. Used at lib/http_parser.py:116; http_server.py:95. -/
def lower (s : Bytes) : Bytes := s.map lowerB
/-- `s.upper()`. Used at lib/http_request.py:52; tremolo.py:597. -/
def upper (s : Bytes) : Bytes := s.map upperB

/-- ASCII whitespace as stripped by `bytes.strip()` and skipped by `int(bytes)`: space, \t \n \v \f \r. Used at lib/http_request.py:98; lib/http_protocol.py:304. -/
def isSpace (c : UInt8) : Bool := c == 32 || (9 ≤ c && c ≤ 13)

/-- `s.lstrip()`. Used at lib/http_protocol.py:253; lib/http_response.py:162. -/
def lstrip (s : Bytes) : Bytes := s.dropWhile isSpace
/-- `s.rstrip()`. (with `lstrip` makes `strip`, lib/http_request.py:98) -/
def rstrip (s : Bytes) : Bytes := (s.reverse.dropWhile isSpace).reverse
/-- `s.strip()`. Used at lib/http_request.py:98, 117. -/
def strip (s : Bytes) : Bytes := rstrip (lstrip s)

/-- `s.strip(cs)` for a set of bytes given as a predicate. Used at http_server.py:285; tremolo.py:200. -/
def stripBy (p : UInt8 → Bool) (s : Bytes) : Bytes := ((s.dropWhile p).reverse.dropWhile p).reverse

/-- `s.replace(bytes([c]), r)` for a one-byte pattern. Used at lib/http_request.py:288, 295. -/
def replace1 (c : UInt8) (r s : Bytes) : Bytes := s.flatMap (fun x => if x = c then r else [x])

/-- `s.replace(pat, r)` for non-empty `pat`: left-to-right, non-overlapping. `skip` counts bytes of a match still to drop. Used at lib/http_request.py:288, 294. -/
def replaceAux (pat r : Bytes) : Nat → Bytes → Bytes
  | _, [] => []
  | 0, c :: t => if pat.isPrefixOf (c :: t) then r ++ replaceAux pat r (pat.length - 1) t else c :: replaceAux pat r 0 t
  | k + 1, _ :: t => replaceAux pat r k t
/-- `s.replace(pat, r)` (lib/http_request.py:288, 294; lib/sse.py:23). -/
def replace (pat r s : Bytes) : Bytes := replaceAux pat r 0 s

/-- `s.split(bytes([c]), n)`: at most `n` splits at the byte `c`. Never empty. Used at lib/http_request.py:220; lib/http_parser.py:15, 19. -/
def splitByte (c : UInt8) : Nat → Bytes → List Bytes
  | _, [] => [[]]
  | 0, s => [s]
  | n + 1, x :: t =>
    if x = c then [] :: splitByte c n t
    else match splitByte c (n + 1) t with
      | [] => [[x]]
      | h :: r => (x :: h) :: r

/-- `s.partition(bytes([c]))`: (before, found, after). Used at lib/http_request.py:54. -/
def partition1 (c : UInt8) : Bytes → Bytes × Bool × Bytes
  | [] => ([], false, [])
  | x :: t => if x = c then ([], true, t) else
    let (a, f, r) := partition1 c t
    (x :: a, f, r)

/-- `s.count(bytes([c]))`. Used at http_server.py:291; tremolo.py:208. -/
def count1 (c : UInt8) (s : Bytes) : Nat := s.countP (· == c)

/-- `sep.join(parts)`. Used at lib/http_parser.py:191-193; lib/http_request.py:287. -/
def join (sep : Bytes) : List Bytes → Bytes
  | [] => []
  | [a] => a
  | a :: b :: r => a ++ sep ++ join sep (b :: r)

/-- `b'\r\n'` (lib/http_request.py:207). -/
abbrev CRLF : Bytes := [13, 10]
/-- `b'\r\n\r\n'` (lib/http_request.py:187, 364). -/
abbrev CRLF2 : Bytes := [13, 10, 13, 10]

/-! ### Integers -/

/-- value of a decimal digit byte (for `int`, lib/http_protocol.py:304) -/
def decDigit? (c : UInt8) : Option Nat := if 48 ≤ c ∧ c ≤ 57 then some (c.toNat - 48) else none
/-- value of a hexadecimal digit byte (for `int(…, 16)`, lib/http_request.py:220) -/
def hexDigit? (c : UInt8) : Option Nat :=
  if 48 ≤ c ∧ c ≤ 57 then some (c.toNat - 48)
  else if 97 ≤ c ∧ c ≤ 102 then some (c.toNat - 87)
  else if 65 ≤ c ∧ c ≤ 70 then some (c.toNat - 55)
  else none

/-- Digits with single underscores allowed between digits, as in CPython's `int()`.
`acc` is the value so far; `prev` tells whether the previous character was a digit (so that `_` may follow). Used at lib/http_protocol.py:304; lib/http_request.py:220. -/
def digitsAux (dig : UInt8 → Option Nat) (base : Nat) : Nat → Bool → Bytes → Option Nat
  | acc, prev, [] => if prev then some acc else none
  | acc, prev, c :: t =>
    match dig c with
    | some d => digitsAux dig base (acc * base + d) true t
    | none => if c = 95 ∧ prev then digitsAux dig base acc false t else none

/-- unsigned decimal literal body (for `int`, lib/http_protocol.py:304) -/
def decBody (s : Bytes) : Option Nat := digitsAux decDigit? 10 0 false s

/-- `int(s)` on bytes: surrounding whitespace stripped, optional sign, digits with single underscores between them.
`none` models `ValueError`.  (CPython's 4300-digit limit is not modelled.) Used at lib/http_protocol.py:304; lib/http_response.py:374, 383, 393-394. -/
def intDec (s : Bytes) : Option Int :=
  match strip s with
  | [] => none
  | c :: t =>
    if c = 43 then (decBody t).map Int.ofNat
    else if c = 45 then (decBody t).map (fun n => - Int.ofNat n)
    else (decBody (c :: t)).map Int.ofNat

/-- `int(b'0x' + s, 16)`: after the prefix an underscore may come first (`0x_1f`), digits with single underscores,
trailing whitespace stripped; no leading whitespace or sign.  `none` models `ValueError`. Used at lib/http_request.py:220. -/
def intHex0x (s : Bytes) : Option Nat := digitsAux hexDigit? 16 0 false
  (match rstrip s with | 95 :: t => t | t => t)

/-- digit byte of `d < 16` in upper-case hexadecimal / decimal (for `%d` and `%X`, http_server.py:143; lib/http_response.py:289) -/
def digitB (d : Nat) : UInt8 := if d < 10 then UInt8.ofNat (48 + d) else UInt8.ofNat (55 + d)

/-- most significant digit first (for `%d` and `%X`, http_server.py:143; lib/http_response.py:289) -/
def toDigitsAux (base : Nat) (fuel n : Nat) (acc : Bytes) : Bytes :=
  match fuel with
  | 0 => acc
  | fuel + 1 =>
    let acc := digitB (n % base) :: acc
    if n / base = 0 then acc else toDigitsAux base fuel (n / base) acc

/-- `b'%d' % n` for `n ≥ 0`. Used at http_server.py:143, 229, 290. -/
def fmtNat (n : Nat) : Bytes := toDigitsAux 10 (n + 1) n []
/-- `b'%X' % n` for `n ≥ 0`. Used at lib/http_response.py:289. -/
def fmtHex (n : Nat) : Bytes := toDigitsAux 16 (n + 1) n []
/-- `b'%d' % n`. Used at http_server.py:143. -/
def fmtInt (n : Int) : Bytes := if n < 0 then 45 :: fmtNat n.natAbs else fmtNat n.natAbs

/-- big-endian bytes, `n.to_bytes(k, 'big')` for `n < 256^k`. Used at lib/websocket.py:149, 152; lib/http_protocol.py:220. -/
def toBE : Nat → Nat → Bytes
  | 0, _ => []
  | k + 1, n => toBE k (n / 256) ++ [UInt8.ofNat (n % 256)]
/-- `int.from_bytes(s, 'big')`. Used at lib/websocket.py:52, 55, 95. -/
def fromBE (s : Bytes) : Nat := s.foldl (fun a c => a * 256 + c.toNat) 0

/-- Python slice `s[:k]` for a possibly negative `k`. Used at lib/http_request.py:248; lib/http_response.py:383. -/
def sliceTo (s : Bytes) (k : Int) : Bytes :=
  if k < 0 then s.take (s.length - k.natAbs) else s.take k.natAbs

end Verif.Py
