import Verif.Model.Ty
/-
Dates of the Gregorian calendar as UNIX timestamps. Refers to nothing in the model.
-/
namespace Oct.Spec

/-- Leap years. -/
def isLeap (y : Nat) : Bool := y % 4 == 0 && (y % 100 != 0 || y % 400 == 0)

/-- The days of the years before `y`, from year zero on. -/
def daysBeforeYear : Nat → Nat
  | 0 => 0
  | y + 1 => daysBeforeYear y + (if isLeap y then 366 else 365)

/-- The days of the months of a year. -/
def monthLengths (y : Nat) : List Nat := [31, if isLeap y then 29 else 28, 31, 30, 31, 30, 31, 31, 30, 31, 30, 31]

/-- A point in time in a time zone which is so many hours ahead. -/
structure Civil where
  year : Nat
  month : Nat
  day : Nat
  hour : Nat
  minute : Nat
  second : Nat
  zone : Int

/-- Days since year zero began. -/
def Civil.days (c : Civil) : Int :=
  daysBeforeYear c.year + ((monthLengths c.year).take (c.month - 1)).sum + (c.day - 1)

/-- Seconds since 1970-01-01T00:00:00Z, leap seconds not counted. -/
def Civil.unix (c : Civil) : Int :=
  (c.days - daysBeforeYear 1970) * 86400 + (c.hour - c.zone) * 3600 + c.minute * 60 + c.second

end Oct.Spec
