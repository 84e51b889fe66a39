import Verif.Model.Response
import Verif.Model.HttpParser
/-!
# Model of `HTTPResponse.sendfile` (tremolo/lib/http_response.py:293-486)

What `sendfile` does depends on the request and the file only, so it is modelled as the list of calls of the response API it
makes, followed by an exception or a normal return (`Verif.Model.Response.runScript` runs the calls).

Simplifications: the file does not change while it is sent; times are the formatted `mdate`; the executor is an
implementation detail; the multipart boundary is given; a buffer size of 0 (where the range loops never end) sends nothing.
-/
namespace Verif.Model.Sendfile
open Verif.Py Verif.Model.Response Verif.Model.HttpParser

/-- `BadRequest('bad range')` and `RangeNotSatisfiable` (http_exceptions.py:45-47, 85-87); the text of the first is its
argument, but the response uses `message`. -/
abbrev badRange : Exc := .http 400 b!"Bad Request" htmlType
/-- RangeNotSatisfiable (lib/http_response.py:371-404). -/
abbrev notSatisfiable : Exc := .http 416 b!"Range Not Satisfiable" htmlType

/-- One element of the Range header, stripped (371-402): start, end (inclusive) and size. -/
def parseRange (fs : Int) (v : Bytes) : Except Exc (Int × Int × Int) :=
  if startsWith v b!"-" then
    match intDec v with
    | none => .error badRange
    | some n =>
      let start := fs + n
      if start < 0 then .error notSatisfiable else .ok (start, fs - 1, fs - start)
  else if endsWith v b!"-" then
    match intDec v.dropLast with
    | none => .error badRange
    | some start => if start ≥ fs then .error notSatisfiable else .ok (start, fs - 1, fs - start)
  else
    match splitByte 45 1 v with
    | [a, b] =>
      match intDec a, intDec b with
      | some start, some e =>
        let e := if e = 0 then start else e
        if start > e ∨ e ≥ fs then .error notSatisfiable else .ok (start, e, e - start + 1)
      | _, _ => .error badRange
    | _ => .error badRange

/-- The loop at 369-404: the first element that fails decides. -/
def parseList (fs : Int) : List Bytes → Except Exc (List (Int × Int × Int))
  | [] => .ok []
  | v :: r =>
    match parseRange fs (strip v) with
    | .error e => .error e
    | .ok x =>
      match parseList fs r with
      | .error e => .error e
      | .ok xs => .ok (x :: xs)

/-- Lines 355-365: the header value as one text. -/
def rangeText : HVal → Except Exc Bytes
  | .one b => if startsWith b b!"bytes=" then .ok b else .error badRange
  | .many bs => if bs.all (startsWith · b!"bytes=") then .ok (join b!"," bs) else .error badRange
  | .num _ => .error .other

/-- Lines 355-404. -/
def parseRanges (fs : Int) (h : HVal) : Except Exc (List (Int × Int × Int)) :=
  match rangeText h with
  | .error e => .error e
  | .ok t => parseList fs (splitByte 44 100 (replace b!"bytes=" [] t))

/-- `while data: data = handle.read(buffer_size); write(data)` (345-350, 479-484): the data of the reads. -/
def readAll (bs : Nat) (rest : Bytes) : List Bytes :=
  if _h : rest.take bs = [] then [[]] else rest.take bs :: readAll bs (rest.drop bs)
termination_by rest.length
decreasing_by
  cases rest with
  | nil => simp at _h
  | cons x t =>
    cases bs with
    | zero => simp at _h
    | succ n => simp only [List.drop_succ_cons, List.length_cons, List.length_drop]; omega

/-- `while size > 0: write(handle.read(min(size, buffer_size))); size -= buffer_size` (419-424, 453-459). -/
def readN (bs : Nat) (size : Int) (rest : Bytes) : List Bytes :=
  if _h : size ≤ 0 ∨ bs = 0 then []
  else
    let n := (min size bs).toNat
    rest.take n :: readN bs (size - bs) (rest.drop n)
termination_by size.toNat
decreasing_by omega

/-- The request headers and arguments that `sendfile` looks at (lib/http_response.py:293-370). -/
structure Args where
  range : Option HVal := none
  ifRange : Option HVal := none
  ifModified : Option HVal := none
  /-- `file_size`; 0 or absent: the size found by `stat` -/
  fileSize : Nat := 0
  ctype : Bytes := b!"application/octet-stream"
  /-- the keyword arguments passed on to `write`, with `buffer_size` -/
  o : SendOpts := {}
  boundary : Bytes := []
deriving DecidableEq, Repr

/-- The headers that `sendfile` reads from `request.headers` (337-339, 355, 466-467). -/
def Args.ofHeaders (a : Args) (d : HDict) : Args :=
  { a with range := hget d b!"range", ifRange := hget d b!"if-range", ifModified := hget d b!"if-modified-since" }

/-- A file: its content and its modification time as formatted at 334-335. -/
structure File where
  content : Bytes
  mdate : Bytes
deriving DecidableEq, Repr

/-- A call whose exceptions are not caught (lib/http_response.py:293-486). -/
def call (c : Call) : Call × Bool := (c, false)
/-- Writes of `data` with the argument `chunked=False`, or without it (lib/http_response.py:406-486). -/
def plain (o : SendOpts) (ds : List Bytes) : Script := ds.map (fun d => call (.write (some d) (some false) o))
/-- Writes without the argument `chunked` (lib/http_response.py:340-353). -/
def auto (o : SendOpts) (ds : List Bytes) : Script := ds.map (fun d => call (.write (some d) none o))

/-- The whole file (340-353, 472-486). `data` is the content behind the file handle. -/
def whole (c : Cfg) (a : Args) (fs : Nat) (mdate data : Bytes) : Script :=
  [call (.setContentType a.ctype), call (.setHeader b!"Last-Modified" mdate), call (.setHeader b!"Content-Length" (fmtNat fs))] ++
  (if c.version = b!"1.1" then [call (.setHeader b!"Accept-Ranges" b!"bytes")] else []) ++
  plain a.o (readAll a.o.bufferSize data) ++ [call (.close true)]

/-- `bytes %d-%d/%d` (lib/http_response.py:406-470). -/
def contentRange (s e : Int) (fs : Nat) : Bytes := b!"bytes " ++ fmtInt s ++ b!"-" ++ fmtInt e ++ b!"/" ++ fmtNat fs

/-- A response with one range (406-424, 486). A negative start would make `seek` fail (`parseRange` never gives one). -/
def single (a : Args) (fs : Nat) (data : Bytes) (r : Int × Int × Int) : Script :=
  [call (.setStatus 206 b!"Partial Content"), call (.setContentType a.ctype), call (.setHeader b!"Content-Length" (fmtInt r.2.2)),
   call (.setHeader b!"Content-Range" (contentRange r.1 r.2.1 fs))] ++
  plain a.o (readN a.o.bufferSize r.2.2 (data.drop r.1.toNat)) ++ [call (.close true)]

/-- The data written for one part of a multipart response (445-461). -/
def part (a : Args) (fs : Nat) (data : Bytes) (r : Int × Int × Int) : List Bytes :=
  [b!"--" ++ a.boundary ++ b!"\r\nContent-Type: " ++ a.ctype ++ b!"\r\nContent-Range: " ++ contentRange r.1 r.2.1 fs ++ CRLF2] ++
  readN a.o.bufferSize r.2.2 (data.drop r.1.toNat) ++ [CRLF]

/-- A response with several ranges (406, 425-464, 486). -/
def multi (a : Args) (fs : Nat) (data : Bytes) (rs : List (Int × Int × Int)) : Script :=
  [call (.setStatus 206 b!"Partial Content"), call (.setContentType (b!"multipart/byteranges; boundary=" ++ a.boundary))] ++
  auto a.o (rs.flatMap (part a fs data) ++ [b!"--" ++ a.boundary ++ b!"--\r\n", []]) ++ [call (.close true)]

/-- `sendfile` (293-486): the calls and the exception raised after them, if any. `file` is `none` when it cannot be opened;
`handle` is the content behind the handle kept in `request.context` by an earlier `sendfile` (318-320), if there was one. -/
def sendfile (c : Cfg) (a : Args) (file : Option File) (handle : Option Bytes) : Script × Option Exc :=
  match file with
  | none => ([], some .other)
  | some f =>
    let data := handle.getD f.content
    let fs := if a.fileSize = 0 then f.content.length else a.fileSize
    match a.range with
    | some h =>
      if c.version = b!"1.1" then
        if a.ifRange ≠ none ∧ a.ifRange ≠ some (.one f.mdate) then (whole c a fs f.mdate data, none)
        else match parseRanges fs h with
          | .error e => ([], some e)
          | .ok [r] => (single a fs data r, none)
          | .ok rs => (multi a fs data rs, none)
      else noRange c a fs f.mdate data
    | none => noRange c a fs f.mdate data
where
  /-- 465-486 -/
  noRange (c : Cfg) (a : Args) (fs : Nat) (mdate data : Bytes) : Script × Option Exc :=
    if a.ifModified = some (.one mdate) then ([call (.setStatus 304 b!"Not Modified"), call (.write none none {})], none)
    else (whole c a fs mdate data, none)

/-- The handle kept in the context after the call (318-327). -/
def handleAfter (file : Option File) (handle : Option Bytes) : Option Bytes :=
  handle.or (file.map (·.content))

/-- A handler that prepares the response and awaits `sendfile`; `r` is what it returns (lib/http_response.py:293-305). -/
def handler (pre : Script) (x : Script × Option Exc) (r : Ret) : Handler :=
  .coro (pre ++ x.1) (match x.2 with | some e => .raise e | none => r)

end Verif.Model.Sendfile
