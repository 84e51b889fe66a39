import Verif.Model.Response
/-!
# Specification vocabulary for responses
-/
namespace Verif.Spec.Response
open Verif.Py Verif.Model.Upload Verif.Model.Response

/-! ## Streams -/

/-- What a queue delivers: its bytes and end markers (`none`) in order. -/
def delivered : List Item → List (Option UInt8)
  | [] => []
  | some b :: r => b.map some ++ delivered r
  | none :: r => none :: delivered r

/-- What a list of calls asks to be delivered. -/
def asked : List SendOp → List (Option UInt8)
  | [] => []
  | .send d _ :: r => d.map some ++ asked r
  | .close :: r => none :: asked r

/-- A call that throttles uses a positive buffer size. -/
def SendOp.Ok : SendOp → Prop
  | .send _ o => o.throttle = true → 0 < o.bufferSize
  | .close => True

/-! ## Logs -/

def isHead : Emit → Bool
  | .head .. => true
  | _ => false
def isBody : Emit → Bool
  | .body .. => true
  | _ => false

/-- At most one head, and a head before every body. -/
structure OneHead (log : List Emit) : Prop where
  one : (log.filter isHead).length ≤ 1
  before : ∀ pre e post, log = pre ++ e :: post → isBody e = true → ∃ x ∈ pre, isHead x = true

/-- A response object to which nothing has happened. -/
structure Fresh (s : St) : Prop where
  headers : s.headers = some []
  log : s.log = []
  status : s.status = []
  ctype : s.ctype = []
  chunked : s.chunked = false
  upgraded : s.upgraded = false

/-- The calls that change the head. -/
def mutates : Call → Bool
  | .appendHeader .. | .setCookie .. | .setHeader .. | .setStatus .. | .setContentType .. => true
  | _ => false

/-! ## Heads -/

/-- A header line: a name without colon, a colon and a space, a value; no LF. -/
def Field (n v x : Bytes) : Prop := x = n ++ b!": " ++ v ∧ (58 : UInt8) ∉ n ∧ (10 : UInt8) ∉ n ∧ (10 : UInt8) ∉ v

/-- `t` is a head made of a first line and the header lines `rest`. -/
def HeadIs (t first : Bytes) (rest : List Bytes) : Prop :=
  t = join CRLF (first :: rest) ++ CRLF2 ∧ (10 : UInt8) ∉ first ∧ ∀ x ∈ rest, ∃ n v, Field n v x

/-- The lower-cased name of a header line. -/
def nameOf (x : Bytes) : Bytes := lower (x.takeWhile (· ≠ 58))

/-- What the configuration must satisfy: no LF in the version, the date and the server name. -/
structure CfgOk (c : Cfg) : Prop where
  version : (10 : UInt8) ∉ c.version
  date : (10 : UInt8) ∉ c.date
  server : (10 : UInt8) ∉ c.server

/-- Header names are free of colons and are not the internal key `_line`; `append_header` gets no LF (it does not check). -/
def Call.Clean : Call → Prop
  | .appendHeader n v => (58 : UInt8) ∉ n ∧ lower n ≠ b!"_line" ∧ (10 : UInt8) ∉ n ∧ (10 : UInt8) ∉ v
  | .setHeader n _ => (58 : UInt8) ∉ n ∧ lower n ≠ b!"_line"
  | _ => True

/-- Calls that do not set a header directly. -/
def Call.NoHeader : Call → Prop
  | .appendHeader .. | .setHeader .. | .setCookie .. => False
  | _ => True

def Script.Clean (sc : Script) : Prop := ∀ p ∈ sc, Call.Clean p.1

def Handler.Clean : Handler → Prop
  | .coro sc _ => Script.Clean sc
  | .gen ys fin _ => (∀ y ∈ ys, Script.Clean y.1) ∧ Script.Clean fin

/-- All application code makes clean calls; the error handler sets no header. -/
structure App.Clean (a : App) : Prop where
  qms : ∀ m ∈ a.qms, Script.Clean m.script
  rms : ∀ m ∈ a.rms, Script.Clean m.script
  handler : Handler.Clean a.handler
  err : ∀ p ∈ a.err.script, Call.NoHeader p.1

/-! ## What a list of calls asks for -/

/-- Calls that only change the head, with names as in `Clean`; `append_header` is not used for Content-Type. -/
def Call.Fine : Call → Prop
  | .appendHeader n v => (58 : UInt8) ∉ n ∧ (10 : UInt8) ∉ n ∧ (10 : UInt8) ∉ v ∧ lower n ≠ b!"_line" ∧ lower n ≠ b!"content-type"
  | .setHeader n _ => (58 : UInt8) ∉ n ∧ lower n ≠ b!"_line"
  | .setBaseHeader | .setCookie _ | .setStatus .. | .setContentType _ => True
  | _ => False

def Script.Fine (sc : Script) : Prop := ∀ p ∈ sc, Call.Fine p.1

/-- The status asked for last (a message with LF is refused); 200 OK if none. -/
def lastStatus (calls : List Call) : Int × Bytes :=
  calls.foldl (fun acc c => match c with
    | .setStatus st m => if (10 : UInt8) ∈ m then acc else (st, m)
    | _ => acc) (200, b!"OK")

/-- The content type asked for last, by `set_content_type` or as a header; `text/html; charset=utf-8` if none. -/
def lastType (calls : List Call) : Bytes :=
  calls.foldl (fun acc c => match c with
    | .setContentType ct => if (10 : UInt8) ∈ ct then acc else ct
    | .setHeader n v => if (10 : UInt8) ∉ n ∧ (10 : UInt8) ∉ v ∧ lower n = b!"content-type" then v else acc
    | _ => acc) b!"text/html; charset=utf-8"

/-- The lines asked for under the name `k` (lower case): the last `set_header` and what was appended after it. -/
def linesFor (k : Bytes) (calls : List Call) : List Bytes :=
  calls.foldl (fun acc c => match c with
    | .setHeader n v => if (10 : UInt8) ∉ n ∧ (10 : UInt8) ∉ v ∧ lower n = k then [n ++ b!": " ++ v] else acc
    | .appendHeader n v => if lower n = k then acc ++ [n ++ b!": " ++ v] else acc
    | .setCookie v => if (10 : UInt8) ∉ v ∧ b!"set-cookie" = k then acc ++ [b!"Set-Cookie: " ++ v] else acc
    | _ => acc) []

/-- The value of a header line, without leading white space. -/
def valueOf (x : Bytes) : Bytes := lstrip ((x.dropWhile (· ≠ 58)).drop 1)

/-- The calls of a script, of the options of a route or middleware, and of a list of middlewares. -/
def callsOf (sc : Script) : List Call := sc.map (·.1)
def optCalls (st : Option (Int × Bytes)) (ct : Option Bytes) : List Call :=
  (match st with | some (s, m) => [.setStatus s m] | none => []) ++ (match ct with | some x => [.setContentType x] | none => [])
def mwCalls (ms : List Mw) : List Call := ms.flatMap (fun m => callsOf m.script)

/-- The first line of a head. -/
def statusLine (c : Cfg) (st : Int × Bytes) : Bytes := b!"HTTP/" ++ c.version ++ b!" " ++ fmtInt st.1 ++ b!" " ++ st.2

/-- A piece of a body as it is framed. -/
def framed (chunked : Bool) (d : Bytes) : Bytes := if chunked then fmtHex d.length ++ CRLF ++ d ++ CRLF else d

/-- Calls made by a generator that can still change the head: those before its first non-empty value. -/
def lateCalls : List (Script × Bytes) → Script → List Call
  | [], fin => callsOf fin
  | (sc, d) :: r, fin => callsOf sc ++ if d = [] then lateCalls r fin else []

/-- The statuses whose responses have no body: 204, 205, 304 and 1xx. -/
def noBody (status : Int) : Bool := status == 204 || status == 205 || status == 304 || (100 ≤ status && status < 200)

/-- Whether the body is chunked: the route says so, or HTTP/1.1 and a status that has a body. -/
def wantsChunked (c : Cfg) (o : Opt) (status : Int) : Bool := o.chunked.getD (c.version == b!"1.1" && !noBody status)

/-- No body is allowed: a HEAD request or a no-content status. -/
def bodyless (c : Cfg) (status : Int) : Bool := decide (c.method = b!"HEAD") || noBody status

/-- Names that the server sets itself. -/
def ownNames : List Bytes := [b!"_line", b!"content-type", b!"date", b!"server", b!"connection", b!"content-length", b!"transfer-encoding"]

/-- The header lines with name `k`. -/
def named (k : Bytes) (rest : List Bytes) : List Bytes := rest.filter (fun x => nameOf x = k)

/-- A head that says what `calls` asked for: the last status, the last content type (exactly one such line, if `typed`),
and for every other name exactly the lines asked for. -/
structure Says (c : Cfg) (calls : List Call) (typed : Bool) (t : Bytes) (rest : List Bytes) : Prop where
  is : HeadIs t (statusLine c (lastStatus calls)) rest
  ctype : typed = true → ∃ x, named b!"content-type" rest = [x] ∧ valueOf x = lstrip (lastType calls)
  lines : ∀ n, n ∉ ownNames → named n rest = linesFor n calls

/-- The call sets a header with the (lower case) name `k`. -/
def touches (k : Bytes) : Call → Bool
  | .setHeader n _ | .appendHeader n _ => decide (lower n = k)
  | .setCookie _ => decide (b!"set-cookie" = k)
  | _ => false
def setsStatus : Call → Bool
  | .setStatus .. => true
  | _ => false

/-- All middlewares let the request through. -/
def Pass (ms : List Mw) : Prop := ∀ m ∈ ms, m.ret = .none

/-! ## What the client sees -/

/-- The bytes and end markers that reach the queue of the send task. -/
def wire (log : List Emit) : List (Option UInt8) := delivered (sendAll (log.map Emit.op)).queue

/-- The send task closes the connection at the first end marker without keep-alive: what is queued behind it is not sent. -/
def seen : List Emit → List Emit
  | [] => []
  | .mark false :: _ => [.mark false]
  | e :: r => e :: seen r

/-- The body bytes in a log. -/
def bodyBytes : List Emit → Bytes
  | [] => []
  | .head _ b _ :: r => b ++ bodyBytes r
  | .body b _ :: r => b ++ bodyBytes r
  | _ :: r => bodyBytes r

/-- The end markers in a log. -/
def marks : List Emit → List Bool
  | [] => []
  | .mark k :: r => k :: marks r
  | _ :: r => marks r

/-- The status and content type of the error response to an exception. -/
def errStatus : Exc → Int × Bytes
  | .http code m _ => (code, m)
  | .timeout => (408, b!"Request Timeout")
  | _ => (500, b!"Internal Server Error")
def errType : Exc → Bytes
  | .http _ _ ct => ct
  | _ => b!"text/html; charset=utf-8"

end Verif.Spec.Response
