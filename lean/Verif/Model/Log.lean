import Verif.Py.Urllib
import Verif.Model.Text
/-!
# What the log says of an exception (tremolo/lib/http_protocol.py:101-105, 198-214; tremolo/tremolo.py:486-492)

Simplification: with the option `debug` the traceback follows in further lines (`exc_info`); this is the log without it.
-/
namespace Verif.Model.Log
open Verif.Py Verif.Model.Text

/-- `exc.__class__.__name__` and `str(exc)` (http_protocol.py:200). -/
structure Exc where
  cls : Str
  text : Str
deriving DecidableEq, Repr

/-- `': '.join(...)` (http_protocol.py:200). -/
def joinColon : List Str → Str
  | [] => []
  | [a] => a
  | a :: b :: t => a ++ ": ".toList ++ joinColon (b :: t)

/-- The message of `print_exception(exc, *args)` (198-202). The logger is given no arguments, so it does not format. -/
def message (args : List Str) (e : Exc) : Str := joinColon (args ++ [e.cls, e.text])

/-- `quote_from_bytes(unquote_to_bytes(bytes(self.request.path)))` (213): `quote_from_bytes` leaves the same bytes alone as `quote`. -/
def logPath (path : Bytes) : Str := latin1 (quote (unquoteToBytes path))

/-- The message of `handle_exception` (204-214). `sent`: the response has begun (206-207), or request or response are gone; then the connection is
aborted, and the message is that of `abort` (101-105), if the transport is still open. -/
def handle (sent closing : Bool) (path : Bytes) (e : Exc) : Option Str :=
  if sent then (if closing then none else some (message ["abort".toList] e)) else some (message [logPath path] e)

/-- What the handler of the logger writes (tremolo.py:486-492): the format, and `\n` behind it. -/
def line (asctime msg : Str) : Str := "[".toList ++ asctime ++ "] http_protocol: ERROR: ".toList ++ msg ++ ['\n']

end Verif.Model.Log
