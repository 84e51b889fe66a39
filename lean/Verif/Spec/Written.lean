import Verif.Spec.Response
/-!
# Handlers that write their response themselves: vocabulary
-/
namespace Verif.Spec.Written
open Verif.Py Verif.Model.Response Verif.Spec.Response

/-- A call `response.write(data, chunked=…, …)`. -/
structure Put where
  data : Bytes
  chunked : Option Bool := none
  o : SendOpts := {}
deriving DecidableEq, Repr

/-- The first call also sets the water marks of the connection: its lower limit, if it gives one, has to be within the upper one of four buffers. -/
def Put.Fits (p : Put) : Prop := ∀ m, p.o.bufferMin = some m → m ≤ 4 * p.o.bufferSize

/-- What a handler does behind its last `write`, before it returns None: nothing, `response.end(data, keepalive)` or `response.close(keepalive)`. -/
inductive Fin
  | nothing
  | ends (data : Bytes) (keepalive : Bool)
  | closes (keepalive : Bool)
deriving DecidableEq, Repr

def Put.calls (p : Put) : Call × Bool := (.write (some p.data) p.chunked p.o, false)
def Fin.calls : Fin → Script
  | .nothing => []
  | .ends d k => [(.end_ d k { throttle := false }, false)]
  | .closes k => [(.close k, false)]

/-- The calls of a handler that sets up the head, writes (at least once), and ends. -/
def scriptOf (pre : Script) (p : Put) (ps : List Put) (f : Fin) : Script := pre ++ (p :: ps).map Put.calls ++ f.calls

/-- The pieces it gives, in order. -/
def piecesOf (p : Put) (ps : List Put) : Fin → List Bytes
  | .ends d _ => (p :: ps).map (·.data) ++ [d]
  | _ => (p :: ps).map (·.data)

/-- The pieces before the first empty one, and those behind it. -/
def upToEmpty : List Bytes → Option (List Bytes × List Bytes)
  | [] => none
  | d :: r => if d = [] then some ([], r) else (upToEmpty r).map (fun x => (d :: x.1, x.2))

end Verif.Spec.Written
