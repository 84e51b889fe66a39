import Verif.Spec.Client
/-!
# A client that downloads files, whole or in ranges (RFC 9110, sections 14.4 and 15.3.7; RFC 2046, section 5.1.1),
independent of the server's model
-/
namespace Verif.Spec.Download
open Verif.Py Verif.Spec.Client

/-- What comes before the first `d`, and what comes behind it. -/
def cut (d : Bytes) : Bytes → Option (Bytes × Bytes)
  | [] => if d = [] then some ([], []) else none
  | x :: t => if d.isPrefixOf (x :: t) then some ([], (x :: t).drop d.length) else (cut d t).map (fun p => (x :: p.1, p.2))

/-- `bytes first-last/size`. -/
def rangeOf (v : Bytes) : Option (Nat × Nat × Nat) :=
  match cut b!" " v with
  | some (u, r) =>
    match cut b!"-" r with
    | some (a, r) =>
      match cut b!"/" r with
      | some (b, n) =>
        match lengthOf a, lengthOf b, lengthOf n with
        | some a, some b, some n => if lower u = b!"bytes" ∧ a ≤ b ∧ b < n then some (a, b, n) else none
        | _, _, _ => none
      | none => none
    | none => none
  | none => none

structure Part where
  fields : List Bytes
  body : Bytes
deriving DecidableEq, Repr

/-- The parts behind a delimiter: none behind `--`; else, behind the rest of the line, header lines, an empty line, and data up
to the next delimiter `d`. -/
def readParts (d : Bytes) : Nat → Bytes → Option (List Part)
  | 0, _ => none
  | n + 1, s =>
    if b!"--".isPrefixOf s then some []
    else match readLine s with
      | none => none
      | some (_, r) =>
        match readLines (r.length + 1) r with
        | none => none
        | some (ls, r) =>
          match cut d r with
          | none => none
          | some (data, r) => (readParts d n r).map (fun ps => ⟨ls, data⟩ :: ps)

/-- A multipart body; the first delimiter may stand at its very beginning. -/
def readMultipart (boundary body : Bytes) : Option (List Part) :=
  match cut (b!"\r\n--" ++ boundary) (CRLF ++ body) with
  | none => none
  | some (_, r) => readParts (b!"\r\n--" ++ boundary) (r.length + 1) r

/-- A piece of a file: first and last position, the size of the file, and the bytes. -/
structure Piece where
  first : Nat
  last : Nat
  size : Nat
  data : Bytes
deriving DecidableEq, Repr

/-- The piece that these fields and these bytes give, if they agree. -/
def piece (fields : List Bytes) (data : Bytes) : Option Piece :=
  match values b!"content-range" fields with
  | [v] =>
    match rangeOf v with
    | some (a, b, n) => if data.length = b + 1 - a then some ⟨a, b, n, data⟩ else none
    | none => none
  | _ => none

def pieces : List Part → Option (List Piece)
  | [] => some []
  | p :: ps =>
    match piece p.fields p.body, pieces ps with
    | some x, some xs => some (x :: xs)
    | _, _ => none

/-- The media type: the value of the only Content-Type, without white space in front. -/
def typeOf (fields : List Bytes) : Option Bytes :=
  match fields.filter (fun x => lower (x.takeWhile (· ≠ 58)) = b!"content-type") with
  | [x] => some (lstrip ((x.dropWhile (· ≠ 58)).drop 1))
  | _ => none

/-- The boundary, if the media type is multipart/byteranges. -/
def boundaryOf (fields : List Bytes) : Option Bytes :=
  match typeOf fields with
  | some v => if b!"multipart/byteranges".isPrefixOf (lower v) then (cut b!"boundary=" v).map (·.2) else none
  | none => none

/-- What the client has got of the file when it has read the response `r`. -/
def got (r : Resp) : Option (List Piece) :=
  if r.status = 200 then some [⟨0, r.body.length - 1, r.body.length, r.body⟩]
  else if r.status = 206 then
    match boundaryOf r.fields with
    | some b =>
      match readMultipart b r.body with
      | some ps => pieces ps
      | none => none
    | none => (piece r.fields r.body).map (fun p => [p])
  else none

/-- A response with two parts. -/
example : got ⟨206, [b!"Content-type: multipart/byteranges; boundary=B"],
    b!"--B\r\nContent-Range: bytes 0-1/9\r\n\r\nab\r\n--B\r\nContent-Type: t\r\nContent-Range: bytes 7-8/9\r\n\r\n\r\n\r\n--B--\r\n"⟩ =
    some [⟨0, 1, 9, b!"ab"⟩, ⟨7, 8, 9, CRLF⟩] := by decide +kernel

end Verif.Spec.Download
