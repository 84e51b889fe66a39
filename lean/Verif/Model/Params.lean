import Verif.Py.Urllib
import Verif.Model.HttpParser
/-!
# Model of `HTTPRequest.query` and `cookies`, and of the fields of forms and of multipart parts
(tremolo/lib/http_request.py:263-299, 315-319, 384-388)
-/
namespace Verif.Model.Params
open Verif.Py Verif.Model.HttpParser

/-- The dictionary of fields: names with lists of values (lib/http_request.py:264-299). -/
abbrev Fields := Dict Str (List Str)

/-- `self.params`: the results that are kept (lib/http_request.py:264-299). -/
structure Params where
  query : Option Fields := none
  cookies : Option Fields := none
deriving DecidableEq

/-- How an access to one of the properties ends (lib/http_request.py:264-299). -/
inductive Got
  | fields (d : Fields)
  | valueError
deriving DecidableEq

/-- `query` (263-275): the entry is made before the text is parsed. -/
def query (qs : Bytes) (p : Params) : Got × Params :=
  match p.query with
  | some d => (.fields d, p)
  | none =>
    let p := { p with query := some [] }
    if qs ≠ [] then
      match parseQs 100 qs with
      | some d => (.fields d, { p with query := some d })
      | none => (.valueError, p)
    else (.fields [], p)

/-- `.replace(b'; ', b'&').replace(b';', b'&')` (288, 294-295, 328, 387) -/
def semicolons (b : Bytes) : Bytes := replace1 59 [38] (replace b!"; " b!"&" b)

/-- The text that `cookies` parses and its limit (284-297). `num` does not occur in requests. -/
def cookieText : HVal → Bytes × Nat
  | .many vs => (semicolons (join b!"&" vs), 100 * vs.length)
  | .one v => (semicolons v, 100)
  | .num _ => ([], 100)

/-- `cookies` (277-299) -/
def cookies (h : HDict) (p : Params) : Got × Params :=
  match p.cookies with
  | some d => (.fields d, p)
  | none =>
    let p := { p with cookies := some [] }
    match hget h b!"cookie" with
    | none => (.fields [], p)
    | some v =>
      match parseQs (cookieText v).2 (cookieText v).1 with
      | some d => (.fields d, { p with cookies := some d })
      | none => (.valueError, p)

/-- What `form` makes of the body (315-319); `max`: `max_fields`. -/
def formFields (max : Nat) (body : Bytes) : Got :=
  match parseQs max body with
  | some d => .fields d
  | none => .valueError

/-- `v.strip('"')` (lib/http_request.py:384-388). -/
def stripQuotes (s : Str) : Str := ((s.dropWhile (· == '"')).reverse.dropWhile (· == '"')).reverse

/-- The loop over the parameters of Content-Disposition (384-388). `none`: ValueError. -/
def disposition (v : Bytes) : Option (Dict Str Str) :=
  (parseQsl 100 (semicolons v)).map (·.foldl (fun d kv => Dict.set d kv.1 (stripQuotes kv.2)) [])

end Verif.Model.Params
