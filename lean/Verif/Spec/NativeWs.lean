import Verif.Spec.AsgiWs
import Verif.Model.NativeWs
/-!
# What a WebSocket session of a native handler should be

Written by frames (`Spec.WebSocket.Frame`) and their meanings, without the server's reader and writer.
-/
namespace Verif.Spec.NativeWs
open Verif.Py Verif.Model.Response Verif.Model.NativeWs Verif.Spec.WebSocket Verif.Spec.AsgiWs
open Verif.Model.WebSocket (encodeUtf8)

/-- The message in a frame of the client, as the handler should get it. -/
def message : Meaning → Option Got
  | .text s => some (.text s)
  | .binary b => some (.bytes b)
  | _ => none

/-- The frames of the client up to the next message: pongs owed for them, the message, and the frames that follow. -/
def upTo : List (Frame × Meaning) → Option (List Frame × Got × List (Frame × Meaning))
  | [] => none
  | (_, m) :: r =>
    match message m with
    | some g => some ([], g, r)
    | none => (upTo r).map (fun x => (m.answer.toList ++ x.1, x.2))

/-- The frame that a call should send. -/
def frameOf : Op → Option Frame
  | .send b => some ⟨0x82, formOf b, none, b⟩
  | .sendText s => some ⟨0x81, formOf (encodeUtf8 s), none, encodeUtf8 s⟩
  | .ping b => some ⟨0x89, formOf b, none, b⟩
  | .pong b => some ⟨0x8A, formOf b, none, b⟩
  | _ => none

/-- The session: what the calls of the handler should give and the frames that should be sent, in order, if the client sends
these frames; with the frames that are still to be read. `none` if the handler asks for a message that the client does not
send, accepts again or closes. -/
def session : List (Frame × Meaning) → List Op → Option (List Got × List Frame × List (Frame × Meaning))
  | items, [] => some ([], [], items)
  | items, .next :: ops | items, .receive :: ops =>
    match upTo items with
    | none => none
    | some (a, g, items) => (session items ops).map (fun x => (g :: x.1, a ++ x.2.1, x.2.2))
  | items, op :: ops =>
    match frameOf op with
    | none => none
    | some f => (session items ops).map (fun x => (.done :: x.1, f :: x.2.1, x.2.2))

/-- A close frame with a code. -/
def closing (code : Nat) : Frame := ⟨0x88, .short, none, be 2 code⟩

/-- A frame that the server itself sends when a handler ends. -/
def queuedEnd (f : Frame) : Emit := .frame f.encode

/-- What goes out when a handler of an open session ends by an exception; `ka`: the response keeps the connection. The mark
ends the response. -/
def ending (ka : Bool) : Exc → List Emit
  | .wsServer code => [queuedEnd (closing code), .mark ka]
  | .ws => [.mark ka]
  | _ => [.mark false]

/-- The remaining bytes of the client (`out`: whether the stream has ended or goes on) end the session; the exception that the
handler's next read should raise. -/
inductive Ends (max : Nat) : Model.BodyStream.Out → Bytes → Exc → Prop
  /-- a close frame -/
  | closed {out} (f : Frame) (rest : Bytes) : f.Fits → f.payload.length ≤ max → f.opcode = 8 → Ends max out (f.encode ++ rest) .ws
  /-- the connection is lost between two frames -/
  | lost : Ends max .done [] .ws
  /-- a frame stays incomplete, or does not come at all -/
  | silent (f : Frame) (p q : Bytes) : f.Fits → (f.form = .long → f.payload.length ≤ max) → q ≠ [] → p ++ q = f.encode → Ends max .blocked p (.wsServer 1000)
  /-- an opcode that is not supported, or a long control frame -/
  | unsupported {out} (f : Frame) (rest : Bytes) : f.Fits → f.payload.length ≤ max → f.opcode ≠ 1 → f.opcode ≠ 2 → f.opcode ≠ 8 →
      (f.opcode = 9 → 126 ≤ f.payload.length) → (f.opcode = 10 → 126 ≤ f.payload.length) → Ends max out (f.encode ++ rest) (.wsServer 1008)
  /-- the announced length is beyond the limit, in the long form -/
  | tooLong {out} (f : Frame) (rest : Bytes) : f.Fits → f.form = .long → max < f.payload.length → Ends max out (f.prefix ++ rest) (.wsServer 1009)
  /-- a text that is not UTF-8 -/
  | badText {out} (f : Frame) (rest : Bytes) : f.Fits → f.payload.length ≤ max → f.opcode = 1 → (¬ ∃ s, f.payload = encodeUtf8 s) → Ends max out (f.encode ++ rest) .other

/-- A handler that sends back every message (`async for message in websocket: await websocket.send(message)`) and catches
nothing. -/
def echo : Coroutine := fun got =>
  match got.getLast? with
  | none | some .done => .inl .next
  | some (.text s) => .inl (.sendText s)
  | some (.bytes b) => .inl (.send b)
  | some (.raised x) => .inr (.raise x)

/-- What the client should see of an echo server: for each message the same back, for each ping a pong. -/
def echoed : List (Frame × Meaning) → List Frame
  | [] => []
  | (_, .text s) :: r => ⟨0x81, formOf (encodeUtf8 s), none, encodeUtf8 s⟩ :: echoed r
  | (_, .binary b) :: r => ⟨0x82, formOf b, none, b⟩ :: echoed r
  | (_, .ping b) :: r => ⟨0x8A, .short, none, b⟩ :: echoed r
  | (_, .pong _) :: r => echoed r

end Verif.Spec.NativeWs
