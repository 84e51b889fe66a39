import Verif.Spec.Response
import Verif.Model.Asgi
/-!
# What the messages of an ASGI application ask for
-/
namespace Verif.Spec.Asgi
open Verif.Py Verif.Model.Response Verif.Model.Asgi Verif.Spec.Response

/-- Names that the server manages. -/
def managed (n : Bytes) : Bool := lower n = b!"date" || lower n = b!"server" || lower n = b!"transfer-encoding" || lower n = b!"connection"

/-- The name or the value contains LF. -/
def bad (h : Bytes × Bytes) : Bool := (10 : UInt8) ∈ h.1 || (10 : UInt8) ∈ h.2

/-- A header with an ordinary name: no colon, and not the internal key `_line`. -/
def plain (h : Bytes × Bytes) : Bool := (58 : UInt8) ∉ h.1 && lower h.1 ≠ b!"_line"

/-- What a header asks for. -/
def headerCalls (h : Bytes × Bytes) : List Call :=
  if managed h.1 then [] else if lower h.1 = b!"content-type" then [.setContentType h.2] else [.appendHeader h.1 h.2]

/-- What a message asks for: nothing if the status has no phrase. -/
def msgCalls (phrase : Int → Option Bytes) : Msg → List Call
  | .start none hs => hs.flatMap headerCalls
  | .start (some st) hs =>
    match phrase st with
    | some p => .setStatus st p :: hs.flatMap headerCalls
    | none => []
  | .body .. => []

/-- The headers of a message that are looked at. -/
def headersOf (phrase : Int → Option Bytes) : Msg → List (Bytes × Bytes)
  | .start none hs => hs
  | .start (some st) hs => if (phrase st).isSome then hs else []
  | .body .. => []

/-- A message that comes before the head goes out: `http.response.start` or an empty body that is not the last. -/
def early : Msg → Bool
  | .start .. => true
  | .body d more => d = [] && more

/-- The application asks for the end of the connection. -/
def closes (h : Bytes × Bytes) : Bool := lower h.1 = b!"connection" && lower h.2 = b!"close"
/-- The application gives the length itself. -/
def sized (h : Bytes × Bytes) : Bool := lower h.1 = b!"content-length"

/-- The data of a message. -/
def dataOf : Msg → Bytes
  | .body d _ => d
  | .start .. => []

/-- Phrases have no LF. -/
def PhraseOk (phrase : Int → Option Bytes) : Prop := ∀ st p, phrase st = some p → (10 : UInt8) ∉ p

/-- The head of an error response. -/
def errText (c : Cfg) (code : Int) (message type : Bytes) (len : Nat) : Bytes :=
  b!"HTTP/" ++ c.version ++ b!" " ++ fmtInt code ++ b!" " ++ message ++ b!"\r\nContent-Type: " ++ type ++ b!"\r\nContent-Length: " ++ fmtNat len ++
  b!"\r\nConnection: close\r\nDate: " ++ c.date ++ b!"\r\nServer: " ++ c.server ++ b!"\r\n\r\n"

end Verif.Spec.Asgi
