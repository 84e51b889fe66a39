import Verif.Model.Response
import Verif.Spec.Params
/-!
# Model: what an exception becomes on the wire

`TremoloException.__str__` and `HTTPException` (lib/http_exceptions.py), `print_exception` and `handle_exception`
(lib/http_protocol.py:198-265) at the level of Python text, `set_status` and `set_content_type` with their encoding
(lib/http_response.py:125-158), `error_500` (handlers.py:34-41), `html.escape`, and the choice of the codec.
`Model.Response.handleException` is the same function with the text already encoded.

Simplified: texts are sequences of Unicode scalar values (no lone surrogates). `WebSocketException`s are not here (see
`Model.Response`). The error handler returns a str, bytes or None; other objects are not modelled. The codecs other than
UTF-8, Latin-1 and ASCII, and the lines of a traceback, are parameters.
-/
namespace Verif.Model.ErrorPage
open Verif.Py Verif.Model.Response
open Verif.Spec.Params (utf8)

/-- An `HTTPException` object (http_exceptions.py:17-41): code, message, content type, and `args`; an argument that is not
a str is `none`. -/
structure HExc where
  code : Int := 500
  message : Str := "Internal Server Error".toList
  ctype : Str := "text/html; charset=utf-8".toList
  args : List (Option Str) := []
deriving DecidableEq, Repr

/-- `sep.join(parts)` (lib/http_exceptions.py:4-14). -/
def joinS (sep : Str) : List Str → Str
  | [] => []
  | [p] => p
  | p :: q :: r => p ++ sep ++ joinS sep (q :: r)

/-- All of a list, or nothing (`join` raises TypeError when an item is not a str) (lib/http_exceptions.py:4-14). -/
def allStr : List (Option Str) → Option (List Str)
  | [] => some []
  | none :: _ => none
  | some s :: r => (allStr r).map (s :: ·)

/-- `__str__` (http_exceptions.py:10-14); `none`: TypeError. -/
def strOf (h : HExc) : Option Str :=
  if h.args = [] then some h.message else (allStr h.args).map (joinS [' '])

/-- What reaches `handle_exception`: an HTTPException, a TimeoutError, or another exception; with `str(exc)` (`none`: it
raises) (lib/http_protocol.py:204-231). -/
inductive Raised
  | http (h : HExc)
  | timeout (text : Option Str)
  | other (text : Option Str)
deriving DecidableEq, Repr

/-- `str(exc)` (http_protocol.py:200). -/
def Raised.text : Raised → Option Str
  | .http h => strOf h
  | .timeout t => t
  | .other t => t

/-- http_protocol.py:228-231; the new exception gets no arguments. -/
def asHttp : Raised → HExc
  | .http h => h
  | .timeout _ => { code := 408, message := "Request Timeout".toList }
  | .other _ => {}

/-- `s.encode('latin-1')` and `s.encode('ascii')`: every character below the bound; `none`: UnicodeEncodeError. -/
def narrow (bound : Nat) : Str → Option Bytes
  | [] => some []
  | c :: t => if c.toNat < bound then (narrow bound t).map (UInt8.ofNat c.toNat :: ·) else none

/-- White space of `str.strip()` (`str.isspace`) (lib/http_protocol.py:249-263). -/
def pySpace (c : Char) : Bool :=
  let n := c.toNat
  (9 ≤ n && n ≤ 13) || (28 ≤ n && n ≤ 32) || n == 0x85 || n == 0xa0 || n == 0x1680 || (0x2000 ≤ n && n ≤ 0x200a) ||
    n == 0x2028 || n == 0x2029 || n == 0x202f || n == 0x205f || n == 0x3000

/-- `s.lstrip()` (lib/http_protocol.py:249-263). -/
def lstripS (s : Str) : Str := s.dropWhile pySpace
/-- `s.strip()` (lib/http_protocol.py:249-263). -/
def stripS (s : Str) : Str := ((s.dropWhile pySpace).reverse.dropWhile pySpace).reverse

/-- `s.split(c, n)` (lib/http_protocol.py:249-263). -/
def splitC (c : Char) : Nat → Str → List Str
  | 0, s => [s]
  | n + 1, s =>
    match s.dropWhile (· != c) with
    | [] => [s]
    | _ :: r => s.takeWhile (· != c) :: splitC c n r

/-- The loop over the parts of the content type (http_protocol.py:250-261). -/
def pick : List Str → Str
  | [] => "utf-8".toList
  | v :: r =>
    if "charset=".toList <+: lstripS v then
      let n := stripS ((lstripS v).drop 8)
      if n = [] then "utf-8".toList else n
    else pick r

/-- The name of the codec in the content type (lib/http_protocol.py:249-263). -/
def charsetOf (ctype : Str) : Str := pick (splitC ';' 100 ctype)

/-- `codecs.lookup` lowers the name and `encodings.normalize_encoding` joins the runs of letters, digits and dots by `_`;
here for ASCII names (for lib/http_protocol.py:263). -/
def lowerC (c : Char) : Char := if 65 ≤ c.toNat ∧ c.toNat ≤ 90 then Char.ofNat (c.toNat + 32) else c
/-- The characters that `normalize_encoding` keeps (for lib/http_protocol.py:263). -/
def wordC (c : Char) : Bool := (97 ≤ c.toNat && c.toNat ≤ 122) || (48 ≤ c.toNat && c.toNat ≤ 57) || c == '.'
/-- The loop of `normalize_encoding` (for lib/http_protocol.py:263). -/
def normAux : Bool → Bool → Str → Str
  | _, _, [] => []
  | started, punct, c :: t =>
    if wordC (lowerC c) then (if punct && started then ['_'] else []) ++ lowerC c :: normAux true false t
    else normAux started true t
/-- The normalized name of a codec (for lib/http_protocol.py:263). -/
def normName (n : Str) : Str := normAux false false n

/-- The debug option, the lines of `TracebackException.format()`, and the other codecs (`none`: LookupError or
UnicodeEncodeError) (lib/http_protocol.py:198-202, 263). -/
structure Env where
  debug : Bool := false
  trace : HExc → List Str := fun _ => []
  codec : Str → Str → Option Bytes := fun _ _ => none

/-- `data.encode(encoding)` (http_protocol.py:263). -/
def encodeAs (env : Env) (name : Str) (s : Str) : Option Bytes :=
  if ∃ c ∈ name, c.toNat = 0 ∨ 128 ≤ c.toNat then env.codec name s
  else if normName name ∈ ["utf_8".toList, "utf8".toList] then some (utf8 s)
  else if normName name ∈ ["latin_1".toList, "latin1".toList, "iso_8859_1".toList, "iso8859_1".toList] then narrow 256 s
  else if normName name ∈ ["ascii".toList, "us_ascii".toList] then narrow 128 s
  else env.codec name s

/-- What an error handler returns (lib/http_protocol.py:241-265). -/
inductive Data
  | str (s : Str)
  | bytes (b : Bytes)
  | none
deriving DecidableEq, Repr

/-- A run of the error handler: its calls of response methods, and what it returns or raises (http_server.py:341-345). -/
structure EHandler where
  script : Script := []
  ret : Except Exc Data
deriving DecidableEq, Repr

/-- `html.escape(s)` (Lib/html/__init__.py): five replacements, one after the other (`&` first) (for handlers.py:34-41). -/
def replC (c : Char) (r : Str) (s : Str) : Str := s.flatMap (fun x => if x = c then r else [x])
/-- `html.escape(s)` (handlers.py:34-41). -/
def escapeS (s : Str) : Str :=
  replC '\'' "&#x27;".toList (replC '"' "&quot;".toList (replC '>' "&gt;".toList (replC '<' "&lt;".toList (replC '&' "&amp;".toList s))))

/-- handlers.py:36-39. -/
def debugPage (lines : List Str) : Str :=
  "<ul><li>".toList ++ joinS "</li><li>".toList (lines.map escapeS) ++ "</li></ul>".toList

/-- `error_500` (handlers.py:34-41). -/
def error500 (env : Env) (h : HExc) : EHandler :=
  if env.debug then { ret := .ok (.str (debugPage (env.trace h))) }
  else match strOf h with
    | some t => { ret := .ok (.str t) }
    | none => { ret := .error .other }

/-- `set_status` and `set_content_type` with a str (http_response.py:125-158). -/
def setStatusS (code : Int) (m : Str) : M Unit :=
  match narrow 256 m with
  | some b => setStatus code b
  | none => raise .other
/-- `set_content_type` with a str (lib/http_response.py:148-158). -/
def setTypeS (ct : Str) : M Unit :=
  match narrow 256 ct with
  | some b => setContentType b
  | none => raise .other

/-- http_protocol.py:243-247. -/
def dataOf (c : Cfg) (eh : EHandler) : M Data := do
  runScript c eh.script
  match eh.ret with
  | .ok d => pure d
  | .error e => raise e

/-- http_protocol.py:248-265: the `finally` clause. -/
def sendData (c : Cfg) (env : Env) (h : HExc) (d : Option Data) : M Unit :=
  match d with
  | some (.str s) =>
    match encodeAs env (charsetOf h.ctype) s with
    | some b => end_ c b false
    | none => raise .other
  | some (.bytes b) => end_ c b false
  | some .none => end_ c [] false
  | none => end_ c [] false

/-- `handle_exception` (http_protocol.py:204-265) with the error handler `eh`. -/
def respond (c : Cfg) (env : Env) (eh : HExc → EHandler) (x : Raised) : M Unit := do
  let s ← get
  if headersSent s && !s.upgraded then abort
  else match x.text with
    | none => raise .other
    | some _ =>
      if headersSent s then close false
      else do
        putHeaders []
        setStatusS (asHttp x).code (asHttp x).message
        setTypeS (asHttp x).ctype
        finally_ (dataOf c (eh (asHttp x))) (sendData c env (asHttp x))

end Verif.Model.ErrorPage
