import Verif.Py.DateTime
/-! # The order of days and the count of time -/

namespace Spec.Calendar
open Py

/-- `a` is before `b` -/
def Before (a b : Date) : Prop := a.year < b.year ∨ a.year = b.year ∧ (a.month < b.month ∨ a.month = b.month ∧ a.day < b.day)

/-- leap years up to and including this one -/
def leaps (y : Int) : Int := y / 4 - y / 100 + y / 400

/-- days before the first of a month in a common year -/
def monthStart : List Int := [0, 31, 59, 90, 120, 151, 181, 212, 243, 273, 304, 334]

/-- days since January 1, 1970; negative before -/
def days (d : Date) : Int :=
  365 * (d.year - 1970) + (leaps (d.year - 1) - leaps 1969) + monthStart.getD (d.month - 1) 0 +
    (if 2 < d.month ∧ (d.year % 4 = 0 ∧ (d.year % 100 ≠ 0 ∨ d.year % 400 = 0)) then 1 else 0) + (d.day - 1)

/-- microseconds from the beginning of 1970 to a moment; the offset does not matter -/
def micros (t : DateTime) : Int :=
  (((days t.date * 24 + t.hour) * 60 + t.minute) * 60 + t.second) * 1000000 + t.microsecond

end Spec.Calendar
