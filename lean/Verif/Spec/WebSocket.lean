import Verif.Py.Bytes
/-!
# RFC 6455 frames, written independently of the server's reader and writer
-/
namespace Verif.Spec.WebSocket
open Verif.Py

/-- A frame: first byte (FIN, RSV, opcode), which length form the sender chose, masking key if any, payload. -/
inductive Form | short | medium | long
deriving DecidableEq

structure Frame where
  b0 : UInt8
  form : Form
  key : Option (UInt8 × UInt8 × UInt8 × UInt8)
  payload : Bytes

def Frame.opcode (f : Frame) : Nat := f.b0.toNat % 16
def Frame.fin (f : Frame) : Bool := 128 ≤ f.b0

/-- The length form can express the length. -/
def Frame.Fits (f : Frame) : Prop :=
  match f.form with
  | .short => f.payload.length < 126
  | .medium => f.payload.length < 65536
  | .long => f.payload.length < 2 ^ 64

/-- Masking, four bytes at a time. -/
def maskWith (k : UInt8 × UInt8 × UInt8 × UInt8) : Bytes → Bytes
  | a :: b :: c :: d :: t => (a ^^^ k.1) :: (b ^^^ k.2.1) :: (c ^^^ k.2.2.1) :: (d ^^^ k.2.2.2) :: maskWith k t
  | [a, b, c] => [a ^^^ k.1, b ^^^ k.2.1, c ^^^ k.2.2.1]
  | [a, b] => [a ^^^ k.1, b ^^^ k.2.1]
  | [a] => [a ^^^ k.1]
  | [] => []

/-- Big-endian digits, most significant first. -/
def be (k n : Nat) : Bytes := (List.range k).map (fun i => UInt8.ofNat (n / 256 ^ (k - 1 - i)))

/-- The bytes before the masking key: flags, mask bit with length code, extended length. -/
def Frame.prefix (f : Frame) : Bytes :=
  let m : Nat := if f.key.isSome then 128 else 0
  match f.form with
  | .short => [f.b0, UInt8.ofNat (m + f.payload.length)]
  | .medium => [f.b0, UInt8.ofNat (m + 126)] ++ be 2 f.payload.length
  | .long => [f.b0, UInt8.ofNat (m + 127)] ++ be 8 f.payload.length

def Frame.encode (f : Frame) : Bytes :=
  f.prefix ++ match f.key with
    | none => f.payload
    | some k => [k.1, k.2.1, k.2.2.1, k.2.2.2] ++ maskWith k f.payload

end Verif.Spec.WebSocket
