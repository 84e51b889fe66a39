import Verif.Model.BodyStream
/-!
# Model of `tremolo/lib/websocket.py`
-/
namespace Verif.Model.WebSocket
open Verif.Py Verif.Model.BodyStream

/-- `bytes.decode('utf-8')`; `none` models UnicodeDecodeError. -/
def decodeUtf8 (b : Bytes) : Option String := String.fromUTF8? ⟨b.toArray⟩
/-- `str.encode('utf-8')` (strings without lone surrogates). -/
def encodeUtf8 (s : String) : Bytes := s.toUTF8.data.toList

/-- `bytes(b ^ masking_key[i % 4] for i, b in enumerate(data))` (websocket.py:69-72, 161-164).  When the key was cut off by
the end of input there is no data left, so the index is never out of range. -/
def xorMask (key data : Bytes) : Bytes := data.mapIdx (fun i b => b ^^^ key.getD (i % 4) 0)

/-- What one call of `recv()` ends with (lib/websocket.py:37-106). -/
inductive Res
  | text (s : String)
  | binary (b : Bytes)
  | ping (b : Bytes)      -- answered with a pong, returns b''
  | pong                  -- returns b''
  | clientClosed (code : Nat)
  | serverClosed (code : Nat)
  | badText               -- UnicodeDecodeError
  | failed (o : Out)      -- an exception of the body stream, or still waiting
deriving DecidableEq

/-- `create_frame` (websocket.py:130-167) with `fin`, an explicit opcode and `mask` as an optional key (`os.urandom(4)` in
the code).  For text the payload is the encoded string. -/
def createFrame (payload : Bytes) (opcode : UInt8) (fin : Bool := true) (mask : Option Bytes := none) : Bytes :=
  let first : UInt8 := (if fin then 128 else 0) ||| opcode
  let n := payload.length
  let (second, ext) : UInt8 × Bytes :=
    if n < 126 then (UInt8.ofNat n, []) else if n < 65536 then (126, toBE 2 n) else (127, toBE 8 n)
  match mask with
  | none => [first, second] ++ ext ++ payload
  | some key => [first, second ||| 128] ++ ext ++ (key ++ xorMask key payload)

/-- websocket.py:76-106, after the payload was read: result and frames sent. -/
def dispatch (opcode : UInt8) (n : Nat) (d : Bytes) : Res × List Bytes :=
  if opcode = 1 then
    match decodeUtf8 d with
    | some s => (.text s, [])
    | none => (.badText, [])
  else if opcode = 2 then (.binary d, [])
  else if opcode = 9 ∧ n < 126 then (.ping d, [createFrame d 10])
  else if opcode = 10 ∧ n < 126 then (.pong, [])
  else if opcode = 8 then (.clientClosed (if d ≠ [] then fromBE (d.take 2) else 1005), [])
  else (.serverClosed 1008, [])

/-- websocket.py:66-74: masking key and payload. -/
def readPayload (masked : Bool) (n : Nat) (r : Reader) : Except Out (Bytes × Reader) :=
  if masked then
    match recvSized 4 r with
    | .error o => .error o
    | .ok (key, r) =>
      match recvSized n r with
      | .error o => .error o
      | .ok (d, r) => .ok (xorMask key d, r)
  else recvSized n r

/-- websocket.py:51-64: the payload length, `.inl` when refused. -/
def readLength (max : Nat) (b2 : UInt8) (r : Reader) : Except Out (Except Nat Nat × Reader) :=
  let l := (b2 &&& 0x7f).toNat
  if l = 126 then
    match recvSized 2 r with
    | .error o => .error o
    | .ok (b, r) => .ok (.ok (fromBE b), r)
  else if l = 127 then
    match recvSized 8 r with
    | .error o => .error o
    | .ok (b, r) => if fromBE b > max then .ok (.error 1009, r) else .ok (.ok (fromBE b), r)
  else .ok (.ok l, r)

/-- `recv()` (websocket.py:37-106): result, frames sent, reader afterwards (unchanged on an exception of the stream).
`max` is `ws_max_payload_size`. -/
def recv (max : Nat) (r : Reader) : Res × List Bytes × Reader :=
  match recvSized 2 r with
  | .error o => (.failed o, [], r)
  | .ok ([b1, b2], r) =>
    match readLength max b2 r with
    | .error o => (.failed o, [], r)
    | .ok (.error code, r) => (.serverClosed code, [], r)
    | .ok (.ok n, r) =>
      match readPayload ((b2 &&& 0x80) >>> 7 != 0) n r with
      | .error o => (.failed o, [], r)
      | .ok (d, r) =>
        let (res, sent) := dispatch (b1 &&& 0x0f) n d
        (res, sent, r)
  | .ok (_, r) => (.clientClosed 1005, [], r)

/-- `recv()` returned `b''` (lib/websocket.py:108-128). -/
def Res.isEmpty : Res → Bool
  | .binary [] | .ping _ | .pong => true
  | _ => false

/-- `receive()` (websocket.py:108-128): repeat `recv()` while it returns `b''`.  The timer that sends a ping when nothing
arrives for half the keep-alive timeout is not modelled, nor the conversion of TimeoutError to close code 1000. `fuel`
bounds the number of `recv()` calls; every call that returns `b''` consumes at least two bytes. -/
def receiveLoop (max : Nat) : Nat → Reader → Res × List Bytes × Reader
  | 0, r => (.failed .fuel, [], r)
  | fuel + 1, r =>
    match recv max r with
    | (res, sent, r') =>
      if res.isEmpty then
        ((receiveLoop max fuel r').1, sent ++ (receiveLoop max fuel r').2.1, (receiveLoop max fuel r').2.2)
      else (res, sent, r')
/-- `receive()`: the end of the last `recv()`, the pongs sent, and the reader (lib/websocket.py:108-128). -/
def receive (max : Nat) (r : Reader) : Res × List Bytes × Reader :=
  receiveLoop max (r.buf.length + r.gen.pieces.flatten.length + 1) r

end Verif.Model.WebSocket
