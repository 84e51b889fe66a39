import Verif.Py.Bytes
/-!
# Model of `tremolo/lib/http_parser.py` (Headers, ParseHeader)
-/
namespace Verif.Model.HttpParser
open Verif.Py

/-- A value stored in the `headers` dictionary: bytes, a list of bytes (repeated field, http_parser.py:124-127) or the
integer `_status` (line 93). -/
inductive HVal
  | one (b : Bytes)
  | many (bs : List Bytes)
  | num (n : Int)
deriving DecidableEq, Repr

/-- `Headers(dict)` (http_parser.py:4): association list in insertion order. -/
abbrev HDict := List (Bytes × HVal)

/-- `d.get(k)` / `d[k]`; `none` models a missing key (lib/http_parser.py:4-20). -/
def hget (d : HDict) (k : Bytes) : Option HVal := (d.find? (fun p => p.1 = k)).map (·.2)

/-- `d[k] = v` (lib/http_parser.py:4-20). -/
def hset (d : HDict) (k : Bytes) (v : HVal) : HDict :=
  match d with
  | [] => [(k, v)]
  | (k', v') :: t => if k' = k then (k', v) :: t else (k', v') :: hset t k v

/-- `k in d` (lib/http_parser.py:4-20). -/
def hmem (d : HDict) (k : Bytes) : Bool := (hget d k).isSome

/-- `Headers.getlist(name)` (http_parser.py:8-19); `.replace(b', ', b',').split(b',', 100)` on each value.
`none` models the AttributeError on the integer `_status`. -/
def splitList (v : Bytes) : List Bytes := splitByte 44 100 (replace b!", " b!"," v)
/-- `Headers.getlist(name)`; `none` is the AttributeError of a value without `replace` (lib/http_parser.py:8-20). -/
def getlist (d : HDict) (name : Bytes) : Option (List Bytes) :=
  match hget d name with
  | none => some []
  | some (.many vs) => some (vs.flatMap splitList)
  | some (.one v) => some (splitList v)
  | some (.num _) => none

/-- The attributes of `ParseHeader` (http_parser.py:23-39). -/
structure Parsed where
  isRequest : Bool := false
  isResponse : Bool := false
  validReq : Bool := false
  validResp : Bool := false
  headers : HDict := []
  list : List (Bytes × Bytes) := []
  body : Bytes := []
deriving DecidableEq, Repr

/-- The CRLF-terminated lines of `s`, i.e. the slices `data[start:end]` that the loop
`end = data.find(b'\r\n', start, header_size)` (http_parser.py:64-71, 138) visits; see `crlfLines_unfold` in
`Verif/Proofs/HttpParser.lean` for the equation with `find`. `acc` is the current line, reversed. -/
def crlfLinesAux (acc : Bytes) : Bytes → List Bytes
  | [] => []
  | [_] => []
  | c :: d :: t => if c = 13 ∧ d = 10 then acc.reverse :: crlfLinesAux [] t else crlfLinesAux (c :: acc) (d :: t)
/-- The lines of a head (lib/http_parser.py:43-67). -/
def crlfLines (s : Bytes) : List Bytes := crlfLinesAux [] s

/-- Key of the method (lib/http_parser.py:175-176). -/
abbrev kMethod : Bytes := b!"_method"
/-- Key of the request target (lib/http_parser.py:178-179). -/
abbrev kUrl : Bytes := b!"_url"
/-- Key of the version (lib/http_parser.py:181-182). -/
abbrev kVersion : Bytes := b!"_version"
/-- Key of the status code (lib/http_parser.py:184-185). -/
abbrev kStatus : Bytes := b!"_status"
/-- Key of the reason phrase (lib/http_parser.py:187-188). -/
abbrev kMessage : Bytes := b!"_message"
/-- Key of the start line (lib/http_parser.py:83-112). -/
abbrev kLine : Bytes := b!"_line"
/-- Key of the Host field (lib/http_parser.py:172-173). -/
abbrev kHost : Bytes := b!"host"

/-- http_parser.py:83-98: response start line. The tuple unpacking raises ValueError unless there are four parts; then
`int(_status)` may raise it. -/
def respLine (line : Bytes) (p : Parsed) : Parsed :=
  let p := { p with isResponse := true }
  let fail (h : HDict) : HDict := hset (hset (hset h kVersion (.one [])) kStatus (.num 0)) kMessage (.one [])
  match splitByte 32 3 (replace1 47 [32] line) with
  | [_, version, status, message] =>
    let h := hset (hset p.headers kVersion (.one version)) kMessage (.one message)
    match intDec status with
    | some n => { p with headers := hset h kStatus (.num n), validResp := true }
    | none => { p with headers := fail h }
  | _ => { p with headers := fail p.headers }

/-- http_parser.py:99-112: request start line; `httpPos` is the index of the last `HTTP/`. -/
def reqLine (line : Bytes) (httpPos : Nat) (p : Parsed) : Parsed :=
  let p := { p with isRequest := true }
  match splitByte 32 1 (line.take (httpPos - 1)) with
  | [method, url] =>
    { p with
      headers := hset (hset (hset p.headers kMethod (.one method)) kUrl (.one url)) kVersion (.one (line.drop (httpPos + 5)))
      validReq := true }
  | _ => { p with headers := hset (hset (hset p.headers kMethod (.one [])) kUrl (.one [])) kVersion (.one []) }

/-- http_parser.py:80-114: the first line. -/
def startLine (line : Bytes) (p : Parsed) : Parsed :=
  let p := match rfind b!"HTTP/" line with
    | some 0 => respLine line p
    | some n => if n > 1 ∧ line[n - 1]? = some 32 then reqLine line n p else p
    | none => p
  { p with headers := hset p.headers kLine (.one line) }

/-- http_parser.py:122-129: add a field value to the dictionary. -/
def addField (h : HDict) (name value : Bytes) : HDict :=
  match hget h name with
  | some (.many vs) => hset h name (.many (vs ++ [value]))
  | some (.one v) => hset h name (.many [v, value])
  | some (.num _) => hset h name (.many [[], value])  -- `[status, value]`; simplified: the integer in the list is dropped to `b''` (responses only)
  | none => hset h name (.one value)

/-- http_parser.py:78, 115-120: split a field line; `none` models the `else` branch (lines 133-136). -/
def splitField (line : Bytes) : Option (Bytes × Bytes) :=
  match findFrom [58] line 1 with
  | some c =>
    if line[c - 1]? ≠ some 32 then
      let value := line.drop (c + 1)
      let value := if startsWith value [32] then value.drop 1 else value
      some (lower (line.take c), value)
    else none
  | none => none

/-- http_parser.py:140-144: after the loop. -/
def finish (p : Parsed) : Parsed :=
  if p.isRequest && !hmem p.headers kHost then
    let v := p.validReq && !(hget p.headers kVersion == some (.one b!"1.1"))
    { p with headers := hset p.headers kHost (.one []), validReq := v }
  else p

/-- http_parser.py:64-138: the loop over lines. `left` is the remaining `max_lines`. A line over a limit or containing
a bare LF returns immediately (lines 73-76, without `finish`); a malformed field breaks (lines 133-136). -/
def parseLoop (excludes : List Bytes) (maxLineSize : Nat) : Bool → Nat → Parsed → List Bytes → Parsed
  | _, _, p, [] => finish p
  | first, left, p, line :: rest =>
    if left = 0 ∨ line.length > maxLineSize ∨ contains [10] line then
      { p with validReq := false, validResp := false }
    else if first then
      parseLoop excludes maxLineSize false (left - 1) (startLine line p) rest
    else
      match splitField line with
      | some (name, value) =>
        parseLoop excludes maxLineSize false (left - 1)
          { p with
            headers := addField p.headers name value
            list := if name ∈ excludes then p.list else p.list ++ [(name, value)] } rest
      | none => finish { p with validReq := false, validResp := false }

/-- `ParseHeader.parse` (http_parser.py:43-146) with an explicit `header_size ≥ 2`, on a fresh or reused object (all
attributes are reset, lines 54-61). Simplification: `max_lines` is a natural number. -/
def parse (data : Bytes) (headerSize : Nat) (excludes : List Bytes := []) (maxLines : Nat := 100)
    (maxLineSize : Nat := 8190) : Parsed :=
  parseLoop excludes maxLineSize true maxLines { body := data.drop (headerSize + 2) } (crlfLines (data.take headerSize))

/-- `parse(data)` with the default `header_size=-1` (http_parser.py:48-52): search the blank line in the first
`header_max_size` bytes; without one the object is returned unchanged (`old`). -/
def parseAuto (old : Parsed) (data : Bytes) (headerMaxSize : Nat := 65536) (excludes : List Bytes := []) : Parsed :=
  match find CRLF2 (data.take headerMaxSize) with
  | some n => parse data (n + 2) excludes
  | none => old   -- find = -1, header_size = 1 < 2

/-- `gethost` (http_parser.py:172-173). -/
def gethost (p : Parsed) : Option HVal :=
  match hget p.headers b!"x-forwarded-host" with
  | some v => some v
  | none => hget p.headers kHost
/-- `getmethod` (175-176), `geturl` (178-179), `getversion` (181-182), `getstatus` (184-185), `getmessage` (187-188). -/
def getmethod (p : Parsed) : Option HVal := hget p.headers kMethod
/-- `geturl` (lib/http_parser.py:178-179). -/
def geturl (p : Parsed) : Option HVal := hget p.headers kUrl
/-- `getversion` (lib/http_parser.py:181-182). -/
def getversion (p : Parsed) : Option HVal := hget p.headers kVersion
/-- `getstatus` (lib/http_parser.py:184-185). -/
def getstatus (p : Parsed) : Option HVal := hget p.headers kStatus
/-- `getmessage` (lib/http_parser.py:187-188). -/
def getmessage (p : Parsed) : Option HVal := hget p.headers kMessage

/-- `remove(*args)` (http_parser.py:148-160): deletes, from the end, every field whose name is in `args`. -/
def remove (p : Parsed) (args : List Bytes) : Parsed := { p with list := p.list.filter (fun f => ¬ f.1 ∈ args) }

/-- `append(*args)` (http_parser.py:162-167) on tuples. -/
def append (p : Parsed) (args : List (Bytes × Bytes)) : Parsed := { p with list := p.list ++ args }

/-- `save()` (http_parser.py:190-194). `none` models the TypeError when `_line` is not bytes (a client sent a field
named `_line`). -/
def save (p : Parsed) : Option Bytes :=
  match hget p.headers kLine with
  | some (.one l) => some (join CRLF (l :: p.list.map (fun f => join b!": " [f.1, f.2])) ++ CRLF2 ++ p.body)
  | none => some (join CRLF ([] :: p.list.map (fun f => join b!": " [f.1, f.2])) ++ CRLF2 ++ p.body)
  | _ => none

end Verif.Model.HttpParser
