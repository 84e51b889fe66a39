import Verif.Model.HttpParser
/-!
# Model of the accept key of a WebSocket handshake (tremolo/lib/websocket.py:25-30)

`hashlib.sha1(x).digest()` and `base64.b64encode` are functions of the Python library; they are written out here the way
their C sources do it: the schedule in a window of the last words, the base64 text three bytes at a time.
-/
namespace Verif.Model.AcceptKey
open Verif.Py Verif.Model.HttpParser

/-- Rotation to the left (for hashlib.sha1, websocket.py:27). -/
def rotl (x : UInt32) (n : UInt32) : UInt32 := (x <<< n) ||| (x >>> (32 - n))

/-- The five words of a digest being computed (for hashlib.sha1, websocket.py:27). -/
structure H where
  a : UInt32
  b : UInt32
  c : UInt32
  d : UInt32
  e : UInt32
deriving DecidableEq, Repr

/-- The initial words (for hashlib.sha1, websocket.py:27). -/
def h0 : H := ⟨0x67452301, 0xEFCDAB89, 0x98BADCFE, 0x10325476, 0xC3D2E1F0⟩

/-- The function and the constant of round `t` (for hashlib.sha1, websocket.py:27). -/
def mix (t : Nat) (b c d : UInt32) : UInt32 :=
  if t < 20 then (d ^^^ (b &&& (c ^^^ d))) + 0x5A827999
  else if t < 40 then (b ^^^ c ^^^ d) + 0x6ED9EBA1
  else if t < 60 then ((b &&& c) ||| (d &&& (b ||| c))) + 0x8F1BBCDC
  else (b ^^^ c ^^^ d) + 0xCA62C1D6

/-- Round `t` with the word `w` (for hashlib.sha1, websocket.py:27). -/
def round (t : Nat) (w : UInt32) (s : H) : H :=
  ⟨rotl s.a 5 + mix t s.b s.c s.d + s.e + w, s.a, rotl s.b 30, s.c, s.d⟩

/-- The rounds from `t` on, `n` of them. `win`: the words of the next sixteen rounds (for hashlib.sha1, websocket.py:27). -/
def rounds : Nat → Nat → List UInt32 → H → H
  | 0, _, _, s => s
  | n + 1, t, win, s =>
    let new := rotl (win.getD 13 0 ^^^ win.getD 8 0 ^^^ win.getD 2 0 ^^^ win.getD 0 0) 1
    rounds n (t + 1) (win.drop 1 ++ [new]) (round t (win.getD 0 0) s)

/-- The words of a block, four bytes each (for hashlib.sha1, websocket.py:27). -/
def words : Bytes → List UInt32
  | a :: b :: c :: d :: t => ((a.toUInt32 <<< 24) ||| (b.toUInt32 <<< 16) ||| (c.toUInt32 <<< 8) ||| d.toUInt32) :: words t
  | _ => []

/-- One block (for hashlib.sha1, websocket.py:27). -/
def block (s : H) (b : Bytes) : H :=
  let r := rounds 80 0 (words b) s
  ⟨s.a + r.a, s.b + r.b, s.c + r.c, s.d + r.d, s.e + r.e⟩

/-- The blocks of 64 bytes, `n` of them (for hashlib.sha1, websocket.py:27). -/
def blocks : Nat → Bytes → List Bytes
  | 0, _ => []
  | n + 1, m => m.take 64 :: blocks n (m.drop 64)

/-- The message with its padding (for hashlib.sha1, websocket.py:27). Messages of 2^61 bytes and more are not meant. -/
def pad (m : Bytes) : Bytes := m ++ [0x80] ++ List.replicate ((119 - m.length % 64) % 64) 0 ++ toBE 8 (8 * m.length)

/-- The bytes of a word (for hashlib.sha1, websocket.py:27). -/
def wordBytes (w : UInt32) : Bytes := [(w >>> 24).toUInt8, (w >>> 16).toUInt8, (w >>> 8).toUInt8, w.toUInt8]

/-- `hashlib.sha1(m).digest()` (websocket.py:27-29). -/
def sha1 (m : Bytes) : Bytes :=
  let r := (blocks ((pad m).length / 64) (pad m)).foldl block h0
  wordBytes r.a ++ wordBytes r.b ++ wordBytes r.c ++ wordBytes r.d ++ wordBytes r.e

/-- The alphabet of base64 (for base64.b64encode, websocket.py:30). -/
def alphabet : Bytes := b!"ABCDEFGHIJKLMNOPQRSTUVWXYZabcdefghijklmnopqrstuvwxyz0123456789+/"

/-- A symbol (for base64.b64encode, websocket.py:30). -/
def sym (n : Nat) : UInt8 := alphabet.getD n 0

/-- `base64.b64encode` (websocket.py:30). -/
def b64encode : Bytes → Bytes
  | a :: b :: c :: t =>
    sym (a.toNat / 4) :: sym (a.toNat % 4 * 16 + b.toNat / 16) :: sym (b.toNat % 16 * 4 + c.toNat / 64) :: sym (c.toNat % 64) :: b64encode t
  | [a, b] => [sym (a.toNat / 4), sym (a.toNat % 4 * 16 + b.toNat / 16), sym (b.toNat % 16 * 4), 61]
  | [a] => [sym (a.toNat / 4), sym (a.toNat % 4 * 16), 61, 61]
  | [] => []

/-- The magic string (websocket.py:26). -/
def magic : Bytes := b!"258EAFA5-E914-47DA-95CA-C5AB0DC85B11"

/-- `accept_key` (websocket.py:26-30), the `key` of `AsgiWs.accept`; `none`: the value is missing (KeyError) or a list (TypeError). -/
def acceptKey (headers : HDict) : Option Bytes :=
  match hget headers b!"sec-websocket-key" with
  | some (.one v) => some (b64encode (sha1 (v ++ magic)))
  | _ => none

end Verif.Model.AcceptKey
