import Verif.Model.BodyStream
import Verif.Model.HttpParser
/-!
# Model of `HTTPRequest.files` (tremolo/lib/http_request.py:323-419)

The generator is run against a `Reader` (the stream of the body, `_read_buf`, `_eof`). Not modelled: what `parse_qsl` makes of
a part's Content-Disposition (its raw value is kept), percent-decoding of the boundary parameter, and what a later call does
after the stream itself has raised.
-/
namespace Verif.Model.Files
open Verif.Py Verif.Model.BodyStream Verif.Model.HttpParser

/-- The value of the parameter `boundary` as `parse_qs` finds it (http_request.py:327-336): `"; "` and `";"` become `&`; the
first pair with that name and a value; `+` becomes a space. `none`: BadRequest. Simplification: no percent-decoding. -/
def boundaryOf (contentType : Bytes) : Option Bytes :=
  let qs := replace1 59 [38] (replace b!"; " b!"&" contentType)
  ((splitByte 38 qs.length qs).findSome? (fun nv =>
    match splitByte 61 1 nv with
    | [k, v] => if replace1 43 [32] k = b!"boundary" ∧ v ≠ [] then some (replace1 43 [32] v) else none
    | _ => none))

/-- The dictionary `info` (369, 384-400), with the raw Content-Disposition. -/
structure Info where
  disposition : Option Bytes := none
  length : Option Nat := none
  type : Option Bytes := none
deriving DecidableEq, Repr

/-- How a call ends. `raised`: the stream raised. `error`: another exception (a repeated field is a list, on which `replace`
and `decode` do not work; a bad Content-Length; more than 100 parameters). `abandoned`: the caller left its loop. -/
inductive End | finished | badRequest | raised (o : Out) | error | abandoned | fuel
deriving DecidableEq, Repr

/-- http_request.py:384-388: Content-Disposition. `none`: an exception. -/
def dispOf : Option HVal → Option (Option Bytes)
  | none => some none
  | some (.one v) => if count1 38 (replace1 59 [38] (replace b!"; " b!"&" v)) < 100 then some (some v) else none
  | some _ => none

/-- http_request.py:390-394: Content-Length. -/
def lengthOf : Option HVal → Option (Option Nat)
  | none => some none
  | some (.one v) => (intDec (43 :: v)).map (fun n => some n.toNat)
  | some _ => none

/-- http_request.py:396-397: Content-Type. -/
def typeOf : Option HVal → Option (Option Bytes)
  | none => some none
  | some (.one v) => some (some v)
  | some _ => none

/-- http_request.py:379-397: a part's header fields. `none`: an exception. -/
def infoOf (h : HDict) : Option Info :=
  match dispOf (hget h b!"content-disposition"), lengthOf (hget h b!"content-length"), typeOf (hget h b!"content-type") with
  | some d, some n, some t => some ⟨d, n, t⟩
  | _, _, _ => none

/-- The local variables (338-346). `header`: `header is not None`. `hs1`: `header_size == 1`. `neg`: `body_size == -1`. -/
structure Loc where
  header : Bool := false
  info : Info := {}
  body : Bytes := []
  hs1 : Bool := false
  neg : Bool := false
  cl : Nat := 0
  paused : Bool := false
deriving DecidableEq, Repr

/-- What one pass of the loop does. `yield`: the state when the generator is suspended, and when it is resumed (lib/http_request.py:339-419). -/
inductive Pass
  | cont (r : Reader) (l : Loc)
  | yield (i : Info) (data : Bytes) (r : Reader) (r' : Reader) (l' : Loc)
  | stop (e : End) (r : Reader)
deriving DecidableEq, Repr

/-- 354-364: the data of this pass. -/
def fetch (r : Reader) (l : Loc) : Except (End × Reader) (Bytes × Reader) :=
  if l.paused then .ok ([], r)
  else match r.gen with
    | ⟨d :: p, o⟩ => .ok (d, { r with gen := ⟨p, o⟩ })
    | ⟨[], .done⟩ => if l.hs1 || l.neg then .error (.badRequest, { r with eof := true }) else .ok ([], { r with eof := true })
    | ⟨[], o⟩ => .error (.raised o, r)

/-- 366-402: looking for the header of a part. -/
def headPass (b data : Bytes) (r : Reader) (l : Loc) : Pass :=
  let r := { r with buf := r.buf ++ data }
  match find CRLF2 r.buf with
  | none => if r.buf.length > 8192 then .stop .badRequest r else .cont r { l with hs1 := true, paused := false }
  | some n =>
    let body := l.body ++ r.buf.drop (n + 2 + 2)
    if n + 2 ≤ 8192 ∧ startsWith r.buf (b!"--" ++ b ++ CRLF) then
      match infoOf (parse r.buf (n + 2)).headers with
      | none => .stop .error r
      | some i => .cont r { l with header := true, hs1 := false, body, info := i, cl := i.length.getD l.cl }
    else .cont r { l with header := true, hs1 := false, body, info := {} }

/-- 404-419: looking for the end of a part. -/
def bodyPass (b data : Bytes) (r : Reader) (l : Loc) : Pass :=
  let body := l.body ++ data
  match findFrom (CRLF ++ b!"--" ++ b) body l.cl with
  | none => .cont r { l with body, neg := true, paused := false }
  | some n => .yield l.info (body.take n) r { r with buf := body.drop (n + 2) }
      { l with header := false, body := [], neg := false, cl := 0, paused := true }

/-- One pass of the loop (lib/http_request.py:339-419). -/
def pass (b : Bytes) (r : Reader) (l : Loc) : Pass :=
  match fetch r l with
  | .error (e, r) => .stop e r
  | .ok (data, r) => if l.header then bodyPass b data r l else headPass b data r l

/-- The loop (351-419). `want`: the caller leaves its own loop at that part. -/
def loop (b : Bytes) : Nat → Nat → Option Nat → Reader → Loc → List (Info × Bytes) × End × Reader
  | 0, _, _, r, _ => ([], .fuel, r)
  | fuel + 1, limit, want, r, l =>
    if limit = 0 ∨ r.buf = b!"--" ++ b ++ b!"--" ++ CRLF then ([], .finished, r)
    else match pass b r l with
      | .stop e r => ([], e, r)
      | .cont r l => loop b fuel limit want r l
      | .yield i d r r' l' =>
        if want = some 1 then ([(i, d)], .abandoned, r)
        else
          let x := loop b fuel (limit - 1) (want.map (· - 1)) r' l'
          ((i, d) :: x.1, x.2)

/-- Enough passes (`Props/Files.lean`, `loop_terminates`) (lib/http_request.py:339-419). -/
def filesFuel (limit : Nat) (r : Reader) : Nat := 6 * limit + 6 * r.gen.pieces.length + 6

/-- `files(limit)` (323-419) with the boundary found in the content type. -/
def files (b : Bytes) (limit : Nat) (r : Reader) (want : Option Nat := none) : List (Info × Bytes) × End × Reader :=
  if r.isEof then ([], .finished, r) else loop b (filesFuel limit r) limit want r {}

/-- Calls of `files` one after another, each with its limit (lib/http_request.py:323-419). -/
def calls (b : Bytes) : List Nat → Reader → List (List (Info × Bytes) × End) × Reader
  | [], r => ([], r)
  | n :: ns, r =>
    let x := files b n r
    let y := calls b ns x.2.2
    ((x.1, x.2.1) :: y.1, y.2)

end Verif.Model.Files
