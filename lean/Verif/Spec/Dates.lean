import Verif.Py.Bytes
/-!
# Dates of HTTP (RFC 9110, 5.6.7: IMF-fixdate) and the Gregorian calendar

Independent of the model: the calendar is given by the rule for leap years and the count of days before a year in closed form.
-/
namespace Verif.Spec.Dates
open Verif.Py

structure Civil where
  year : Int
  month : Nat
  day : Nat
  hour : Nat
  minute : Nat
  second : Nat
  deriving DecidableEq

def leap (y : Int) : Bool := y % 4 = 0 && (y % 100 ≠ 0 || y % 400 = 0)

def monthLen (l : Bool) : Nat → Nat
  | 2 => if l then 29 else 28
  | 4 | 6 | 9 | 11 => 30
  | _ => 31

/-- A date that exists, and a time of day (without leap seconds). -/
def Civil.Valid (x : Civil) : Prop :=
  1 ≤ x.month ∧ x.month ≤ 12 ∧ 1 ≤ x.day ∧ x.day ≤ monthLen (leap x.year) x.month ∧ x.hour < 24 ∧ x.minute < 60 ∧ x.second < 60

/-- The days from 1970-01-01 to the first day of a year. -/
def daysBefore (y : Int) : Int := 365 * (y - 1970) + ((y - 1) / 4 - (y - 1) / 100 + (y - 1) / 400) - 477

/-- The days of a year before a month. -/
def cum (l : Bool) (m : Nat) : Nat := ([0, 0, 31, 59, 90, 120, 151, 181, 212, 243, 273, 304, 334].getD m 0) + (if l && decide (2 < m) then 1 else 0)

/-- The days since 1970-01-01. -/
def Civil.days (x : Civil) : Int := daysBefore x.year + cum (leap x.year) x.month + x.day - 1

/-- The seconds since 1970-01-01T00:00:00Z. -/
def Civil.seconds (x : Civil) : Int := x.days * 86400 + x.hour * 3600 + x.minute * 60 + x.second

/-- 1970-01-01 was a Thursday. -/
def dayName (days : Int) : Bytes := [b!"Mon", b!"Tue", b!"Wed", b!"Thu", b!"Fri", b!"Sat", b!"Sun"].getD ((days + 3) % 7).toNat []
def monthName (m : Nat) : Bytes := [[], b!"Jan", b!"Feb", b!"Mar", b!"Apr", b!"May", b!"Jun", b!"Jul", b!"Aug", b!"Sep", b!"Oct", b!"Nov", b!"Dec"].getD m []

def digit (n : Nat) : UInt8 := 48 + UInt8.ofNat (n % 10)
def two (n : Nat) : Bytes := [digit (n / 10), digit n]
def four (n : Nat) : Bytes := [digit (n / 1000), digit (n / 100), digit (n / 10), digit n]

/-- `Sun, 06 Nov 1994 08:49:37 GMT` -/
def Civil.text (x : Civil) : Bytes :=
  dayName x.days ++ b!", " ++ two x.day ++ b!" " ++ monthName x.month ++ b!" " ++ four x.year.toNat ++ b!" " ++
    two x.hour ++ b!":" ++ two x.minute ++ b!":" ++ two x.second ++ b!" GMT"

/-- `v` is the IMF-fixdate of the instant `t` (years 0 to 9999 have four digits). -/
def Denotes (v : Bytes) (t : Int) : Prop := ∃ x : Civil, x.Valid ∧ 0 ≤ x.year ∧ x.year ≤ 9999 ∧ v = x.text ∧ x.seconds = t

/-- The example of RFC 9110: 784111777. -/
example : Denotes b!"Sun, 06 Nov 1994 08:49:37 GMT" 784111777 :=
  ⟨⟨1994, 11, 6, 8, 49, 37⟩, by unfold Civil.Valid; decide, by decide, by decide, by decide +kernel, by decide +kernel⟩

end Verif.Spec.Dates
