import Verif.Spec.Asgi
import Verif.Spec.WebSocket
import Verif.Model.AsgiWs
/-!
# What a WebSocket session of an ASGI application should be
-/
namespace Verif.Spec.AsgiWs
open Verif.Py Verif.Model.Response Verif.Model.AsgiWs Verif.Spec.WebSocket
open Verif.Model.WebSocket (encodeUtf8)

/-- What a frame of the client means. -/
inductive Meaning
  | text (s : String)
  | binary (b : Bytes)
  | ping (b : Bytes)
  | pong (b : Bytes)

/-- A frame of the client says `m`: complete (no fragment), within the limits; control frames are short. -/
structure Carries (max : Nat) (f : Frame) (m : Meaning) : Prop where
  fits : f.Fits
  size : f.payload.length ≤ max
  fin : f.fin = true
  says : match m with
    | .text s => f.opcode = 1 ∧ f.payload = encodeUtf8 s
    | .binary b => f.opcode = 2 ∧ f.payload = b ∧ b ≠ []
    | .ping b => f.opcode = 9 ∧ f.payload = b ∧ b.length < 126
    | .pong b => f.opcode = 10 ∧ f.payload = b ∧ b.length < 126

/-- The message that the application should get. -/
def Meaning.event : Meaning → Option Ev
  | .text s => some (.text s)
  | .binary b => some (.bytes b)
  | _ => none

/-- The frame that the client should get back. -/
def Meaning.answer : Meaning → Option Frame
  | .ping b => some ⟨0x8A, .short, none, b⟩
  | _ => none

/-- The length form that the server uses. -/
def formOf (b : Bytes) : Form := if b.length < 126 then .short else if b.length < 65536 then .medium else .long

/-- The frame that a message of the application asks for: final, not masked. -/
def frameFor : Msg → Option Frame
  | .send b t => if b ≠ [] then some ⟨0x82, formOf b, none, b⟩ else some ⟨0x81, formOf (encodeUtf8 t), none, encodeUtf8 t⟩
  | .close code => some ⟨0x88, .short, none, be 2 code.toNat⟩
  | _ => none

/-- An entry of the log that is a pong. -/
def isPong : Emit → Bool
  | .body b _ => b.head? = some 0x8A
  | _ => false

/-- A frame as it is queued. -/
def queued (f : Frame) : Emit := .body f.encode { throttle := false }

/-- A message that is one frame of data. -/
def isData : Msg → Bool
  | .send b t => b ≠ [] || t ≠ ""
  | _ => false

def messages : List Op → List Msg
  | [] => []
  | .send m :: r => m :: messages r
  | .receive :: r => messages r

def receives (ops : List Op) : Nat := (ops.filter (· = .receive)).length

/-- The session is open: accepted, not closed by the application, which is not waiting. -/
structure Open (w : W) : Prop where
  upgraded : w.a.resp.upgraded = true
  ws : w.ws = true
  running : w.waiting = false

end Verif.Spec.AsgiWs
