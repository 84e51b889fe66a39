import Verif.Py.Bytes
import Verif.Py.Dict
/-!
# `urllib.parse`: `unquote_to_bytes`, `unquote`, `unquote_plus`, `parse_qsl`, `parse_qs`

Modelled after CPython 3.11's Lib/urllib/parse.py, whose lines are cited. Text is a list of characters. What is parsed is always
the result of `.decode('latin-1')`, so that the arguments here are the bytes of which it is made.
-/
namespace Verif.Py

/-- `str` (lib/http_request.py:272). -/
abbrev Str := List Char

/-- `b.decode('latin-1')`. Used at lib/http_request.py:272, 289; asgi_server.py:63. -/
def latin1 (b : Bytes) : Str := b.map (fun c => Char.ofNat c.toNat)

/-- Whether `b1` may follow the first byte `b0` of a sequence of three or four bytes (Unicode, table 3-7). (for `parse_qs`, lib/http_request.py:271) -/
def secondOk (b0 b1 : UInt8) : Bool :=
  if b0 = 0xE0 then 0xA0 ≤ b1 && b1 ≤ 0xBF
  else if b0 = 0xED then 0x80 ≤ b1 && b1 ≤ 0x9F
  else if b0 = 0xF0 then 0x90 ≤ b1 && b1 ≤ 0xBF
  else if b0 = 0xF4 then 0x80 ≤ b1 && b1 ≤ 0x8F
  else 0x80 ≤ b1 && b1 ≤ 0xBF

/-- How many bytes one replacement character stands for, at a place where no character is encoded: the longest beginning of
one, or one byte. (for `parse_qs`, lib/http_request.py:271) -/
def badLen : Bytes → Nat
  | b0 :: b1 :: t =>
    if 0xE0 ≤ b0 ∧ b0 ≤ 0xEF then (if secondOk b0 b1 then 2 else 1)
    else if 0xF0 ≤ b0 ∧ b0 ≤ 0xF4 then
      if secondOk b0 b1 then
        match t with
        | b2 :: _ => if 0x80 ≤ b2 ∧ b2 ≤ 0xBF then 3 else 2
        | [] => 2
      else 1
    else 1
  | _ => 1

/-- `n`: at least the number of bytes. (for `parse_qs`, lib/http_request.py:271) -/
def decodeAux : Nat → Bytes → Str
  | 0, _ => []
  | _, [] => []
  | n + 1, b =>
    match ByteArray.utf8DecodeChar? ⟨b.toArray⟩ 0 with
    | some c => c :: decodeAux n (b.drop c.utf8Size)
    | none => Char.ofNat 0xFFFD :: decodeAux n (b.drop (badLen b))
/-- `b.decode('utf-8', 'replace')` (inside `parse_qs`, lib/http_request.py:271) -/
def decodeReplace (b : Bytes) : Str := decodeAux b.length b

/-- One item of the loop of `unquote_to_bytes` (648-654). (called by asgi_server.py:63) -/
def unquoteItem (item : Bytes) : Bytes :=
  match item with
  | a :: b :: t =>
    match hexDigit? a, hexDigit? b with
    | some x, some y => UInt8.ofNat (16 * x + y) :: t
    | _, _ => 37 :: item
  | _ => 37 :: item
/-- `unquote_to_bytes` (627-655) (called by asgi_server.py:63; lib/http_protocol.py:213) -/
def unquoteToBytes (s : Bytes) : Bytes :=
  match splitByte 37 s.length s with
  | [] => []
  | h :: r => h ++ r.flatMap unquoteItem

/-- `_asciire.split(string)` (657, 678): the runs of ASCII characters and of others. (inside `parse_qs`, lib/http_request.py:271) -/
def runs : Bytes → List Bytes
  | [] => []
  | c :: t =>
    match runs t with
    | (d :: r) :: rs => if decide (c < 128) == decide (d < 128) then (c :: d :: r) :: rs else [c] :: (d :: r) :: rs
    | rs => [c] :: rs

/-- `unquote(string)` (659-684) on text that was decoded as latin-1. (inside `parse_qs`, lib/http_request.py:271) -/
def unquoteText (s : Bytes) : Str :=
  if (37 : UInt8) ∈ s then
    (runs s).flatMap (fun r => if r.headD 0 < 128 then decodeReplace (unquoteToBytes r) else latin1 r)
  else latin1 s

/-- `unquote_plus` (802-809) (inside `parse_qs`, lib/http_request.py:271) -/
def unquotePlus (s : Bytes) : Str := unquoteText (replace1 43 [32] s)

/-- One field of `parse_qsl` (791-799); blank values are dropped. (inside `parse_qs`, lib/http_request.py:271) -/
def qslField (nv : Bytes) : Option (Str × Str) :=
  if nv = [] then none
  else
    let (n, _, v) := partition1 61 nv
    if v ≠ [] then some (unquotePlus n, unquotePlus v) else none

/-- `parse_qsl(qs, max_num_fields=max)` (729-800). `none`: ValueError. (called by lib/http_request.py:385) -/
def parseQsl (max : Nat) (qs : Bytes) : Option (List (Str × Str)) :=
  if qs = [] then some []
  else if max < 1 + count1 38 qs then none
  else some ((splitByte 38 qs.length qs).filterMap qslField)

/-- The loop of `parse_qs` (721-725). (inside `parse_qs`, lib/http_request.py:271) -/
def collect (d : Dict Str (List Str)) (p : Str × Str) : Dict Str (List Str) :=
  match Dict.get d p.1 with
  | some vs => Dict.set d p.1 (vs ++ [p.2])
  | none => Dict.set d p.1 [p.2]

/-- `parse_qs(qs, max_num_fields=max)` (687-726) (called by lib/http_request.py:271, 286, 293, 316, 327) -/
def parseQs (max : Nat) (qs : Bytes) : Option (Dict Str (List Str)) := (parseQsl max qs).map (·.foldl collect [])

end Verif.Py
