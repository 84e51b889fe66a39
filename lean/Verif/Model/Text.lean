import Verif.Py.Bytes
/-!
# Models of the small text-producing functions

`html_escape` and the 404 page, `SSE.send`, `set_cookie`, `request.ip`.
-/
namespace Verif.Model.Text
open Verif.Py

/-- `html_escape` on bytes (utils.py:22-29). -/
def htmlEscape (d : Bytes) : Bytes :=
  replace1 34 b!"&quot;" (replace1 62 b!"&gt;" (replace1 60 b!"&lt;" (replace1 38 b!"&amp;" d)))

/-- The three pieces yielded by `error_404` (handlers.py:17-31), concatenated, for a request path and a server name.
(The `%%`-free constant text is copied.) -/
def page404 (path server : Bytes) : Bytes :=
  b!"<!DOCTYPE html><html lang=\"en\"><head><meta name=\"viewport\" content=\"width=device-width, initial-scale=1.0\" /><title>404 Not Found</title><style>body { max-width: 600px; margin: 0 auto; padding: 1%; font-family: sans-serif; line-height: 1.5em; }</style></head><body><h1>Not Found</h1>" ++
  (b!"<p>Unable to find handler for " ++ htmlEscape path ++ b!".</p><hr />") ++
  (b!"<address title=\"Powered by Tremolo\">" ++ server ++ b!"</address></body></html>")

/-- `bytes.strip(b'\n')` (lib/sse.py:17-20). -/
def stripLF (s : Bytes) : Bytes := stripBy (· == 10) s

/-- One optional field of `SSE.send` (sse.py:25-33); `none` is the InternalServerError. -/
def sseField (name : Bytes) (value : Option Bytes) (data : Bytes) : Option Bytes :=
  match value with
  | none => some data
  | some [] => some data
  | some v => if contains [10] v then none else some (data ++ (10 :: name ++ b!": " ++ v))

/-- `SSE.send` (sse.py:16-38): the bytes passed to `response.write`, or `none` for InternalServerError.  Strings are given
by their UTF-8 bytes (stripping LF and encoding commute). -/
def sseSend (data : Bytes) (event id : Option Bytes) (retry : Int) : Option Bytes :=
  let data := stripLF data
  let data := if contains [10] data then replace1 10 b!"\ndata: " data else data
  match sseField b!"event" event data with
  | none => none
  | some data =>
    match sseField b!"id" id data with
    | none => none
    | some data =>
      let data := if retry ≠ 0 then data ++ (b!"\nretry: " ++ fmtInt retry) else data
      some (b!"data: " ++ data ++ [10, 10])

/-- Characters `urllib.parse.quote` leaves alone: letters, digits, `_.-~` and the default safe character `/` (lib/http_response.py:82-112). -/
def quoteSafe (c : UInt8) : Bool :=
  (65 ≤ c && c ≤ 90) || (97 ≤ c && c ≤ 122) || (48 ≤ c && c ≤ 57) || c == 95 || c == 46 || c == 45 || c == 126 || c == 47
/-- `%%%02X`. -/
def pct (c : UInt8) : Bytes := [37, digitB (c.toNat / 16), digitB (c.toNat % 16)]
/-- `quote(s).encode('latin-1')` on the UTF-8 bytes of a string. -/
def quote (s : Bytes) : Bytes := s.flatMap (fun c => if quoteSafe c then [c] else pct c)

/-- The arguments of `set_cookie` (lib/http_response.py:82-85). -/
structure CookieArgs where
  name : Bytes
  value : Bytes := []
  expires : Int := 0
  path : Bytes := b!"/"
  domain : Option Bytes := none
  secure : Bool := false
  httponly : Bool := false
  samesite : Option Bytes := none

/-- An optional quoted attribute of `set_cookie` (http_response.py:100-102). -/
def cookieOpt (k : Bytes) : Option Bytes → Bytes
  | none => []
  | some [] => []
  | some v => b!"; " ++ k ++ b!"=" ++ quote v

/-- The value of the Set-Cookie field built by `set_cookie` (http_response.py:82-111); `date` is the formatted expiry
date. `none` is the InternalServerError. -/
def cookie (a : CookieArgs) (date : Bytes) : Option Bytes :=
  let c := a.name ++ b!"=" ++ quote a.value ++ b!"; expires=" ++ date ++ b!"; max-age=" ++ fmtInt a.expires ++
    b!"; path=" ++ quote a.path ++ cookieOpt b!"domain" a.domain ++ cookieOpt b!"samesite" a.samesite ++
    (if a.secure then b!"; secure" else []) ++ (if a.httponly then b!"; httponly" else [])
  if contains [10] c then none else some c

/-- `request.ip` (http_request.py:89-105) on the values of the X-Forwarded-For fields, in order, and the peer address (if the
socket has one).  (The result is cached when not empty; recomputing gives the same.) -/
def ip (fields : List Bytes) (peer : Option Bytes) : Bytes :=
  let ip := strip (fields.headD [])
  match peer with
  | some p => if ip = [] then p else ip.take ((find [44] (ip ++ [44])).getD 0)
  | none => ip.take ((find [44] (ip ++ [44])).getD 0)

end Verif.Model.Text
