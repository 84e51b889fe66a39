import Verif.Model.Files
import Verif.Model.Params
/-!
# The dictionary that `files` yields with a part, and what the call leaves unread (tremolo/lib/http_request.py:358-402)
-/
namespace Verif.Model.FilesInfo
open Verif.Py Verif.Model.BodyStream Verif.Model.Files

/-- Values of `info`: texts, and the number under `length` (lib/http_request.py:358-402). -/
inductive Val
  | text (s : Str)
  | num (n : Nat)
deriving DecidableEq, Repr

/-- `info` (http_request.py:377-400): the parameters of Content-Disposition in their order, then `length`, then `type`. `none`: ValueError. -/
def infoDict (i : Info) : Option (Dict Str Val) :=
  match (match i.disposition with | some v => Params.disposition v | none => some []) with
  | none => none
  | some d =>
    let d := d.map (fun kv => (kv.1, Val.text kv.2))
    let d := match i.length with | some n => Dict.set d "length".toList (.num n) | none => d
    some (match i.type with | some t => Dict.set d "type".toList (.text (latin1 t)) | none => d)

/-- What the stream has not taken of `queue[0]`: the pieces that it has not yielded, and, unless it has ended, the end of the body, which
`put_to_queue` queues behind a body with Content-Length (http_protocol.py:171-172). -/
def unread (r : Reader) : List (Option Bytes) := r.gen.pieces.map some ++ (if r.eof then [] else [none])

end Verif.Model.FilesInfo
