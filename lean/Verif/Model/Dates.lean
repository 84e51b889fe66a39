import Verif.Py.Bytes
/-!
# The dates in responses

`server_date` (utils.py:48-50), `mdate` of `sendfile` (http_response.py:334-335) and `date_expired` of `set_cookie`
(http_response.py:87-91) format an instant with `'%a, %d %b %Y %H:%M:%S GMT'`.

Simplifications: `time.gmtime`, `datetime` and `strftime` are library functions; they are modelled as what the C library (glibc, C locale)
does: the calendar is walked year by year within a cycle of 400 years, and month by month within a year; `%Y` does not pad. Instants are
integers (seconds, or nanoseconds for `st_mtime`, which Python keeps in a float: a time less than about a microsecond daysBefore a full second
may be rounded up; here it is rounded down).
-/
namespace Verif.Model.Dates
open Verif.Py

/-- Leap years of the Gregorian calendar, as `gmtime` has them (for utils.py:48-50). -/
def isLeap (y : Int) : Bool := y % 4 = 0 && (y % 100 ≠ 0 || y % 400 = 0)
/-- The days of a year, as `gmtime` counts them (for utils.py:48-50). -/
def yearLen (y : Int) : Nat := if isLeap y then 366 else 365

/-- The year that holds day `n` from the first day of `y`, and the day in it (for utils.py:48-50). -/
def yearOf : Nat → Nat → Int → Int × Nat
  | 0, n, y => (y, n)
  | fuel + 1, n, y => if n < yearLen y then (y, n) else yearOf fuel (n - yearLen y) (y + 1)

/-- The month that holds day `n` of the rest of a year whose next months have these lengths, and the day of the month (for utils.py:48-50). -/
def monthOf : List Nat → Nat → Nat → Nat × Nat
  | [], m, n => (m, n + 1)
  | k :: ks, m, n => if n < k then (m, n + 1) else monthOf ks (m + 1) (n - k)

/-- The lengths of the months (for utils.py:48-50). -/
def lens (l : Bool) : List Nat := [31, if l then 29 else 28, 31, 30, 31, 30, 31, 31, 30, 31, 30, 31]

/-- `struct_time`, without `tm_yday` and `tm_isdst`; `wday` counts from Monday (for utils.py:48-50). -/
structure Tm where
  year : Int
  mon : Nat
  mday : Nat
  hour : Nat
  min : Nat
  sec : Nat
  wday : Nat
  deriving DecidableEq

/-- `time.gmtime(t)`, `datetime.fromtimestamp(t, timezone.utc)` (utils.py:48-50, lib/http_response.py:87-91, 334-335). -/
def gmtime (t : Int) : Tm :=
  let n := t / 86400
  let r := (t % 86400).toNat
  let y := yearOf 400 (n % 146097).toNat 1970
  let year := y.1 + 400 * (n / 146097)
  let m := monthOf (lens (isLeap year)) 1 y.2
  { year := year, mon := m.1, mday := m.2, hour := r / 3600, min := r % 3600 / 60, sec := r % 60, wday := ((n + 3) % 7).toNat }

/-- `%d`, `%H`, `%M`, `%S` (utils.py:48-50). -/
def pad2 (n : Nat) : Bytes := if n < 10 then 48 :: fmtNat n else fmtNat n

/-- `%a` and `%b` (utils.py:48-50). -/
def abbrDay : List Bytes := [b!"Mon", b!"Tue", b!"Wed", b!"Thu", b!"Fri", b!"Sat", b!"Sun"]
/-- `%b` (utils.py:48-50). -/
def abbrMonth : List Bytes := [b!"Jan", b!"Feb", b!"Mar", b!"Apr", b!"May", b!"Jun", b!"Jul", b!"Aug", b!"Sep", b!"Oct", b!"Nov", b!"Dec"]

/-- `strftime('%a, %d %b %Y %H:%M:%S GMT', gmtime(t)).encode('latin-1')` (utils.py:48-50, http_response.py:87-91, 334-335). -/
def httpDate (t : Int) : Bytes :=
  let x := gmtime t
  abbrDay.getD x.wday [] ++ b!", " ++ pad2 x.mday ++ b!" " ++ abbrMonth.getD (x.mon - 1) [] ++ b!" " ++ fmtInt x.year ++ b!" " ++
    pad2 x.hour ++ b!":" ++ pad2 x.min ++ b!":" ++ pad2 x.sec ++ b!" GMT"

/-- `mdate` (http_response.py:334-335) of a file modified `ns` nanoseconds after the epoch. -/
def lastModified (ns : Int) : Bytes := httpDate (ns / 1000000000)

/-- `date_expired` (http_response.py:87-91) at `now` (in microseconds): `none` is the OverflowError of dates outside the years 1 to 9999. -/
def expiry (now : Int) (expires : Int) : Option Bytes :=
  let t := (now + expires * 1000000) / 1000000
  if 1 ≤ (gmtime t).year ∧ (gmtime t).year ≤ 9999 then some (httpDate t) else none

end Verif.Model.Dates
