import Verif.Py.Basic
/-!
# `datetime` of the Python standard library

Proleptic Gregorian calendar; the constructor's range checks and `isoformat`.
UTC offsets are whole minutes (`none`: naive).
-/

namespace Py

/-- `datetime.date` -/
structure Date where
  year : Nat
  month : Nat
  day : Nat
  deriving DecidableEq, Repr

/-- `datetime.datetime` -/
structure DateTime where
  date : Date
  hour : Nat
  minute : Nat
  second : Nat
  microsecond : Nat
  /-- `utcoffset()` in minutes -/
  offset : Option Int
  deriving DecidableEq, Repr

/-- `calendar.isleap` -/
def isLeap (y : Nat) : Bool := y % 4 = 0 && (y % 100 ≠ 0 || y % 400 = 0)

/-- number of days of a month -/
def daysInMonth (y m : Nat) : Nat :=
  if m = 2 then (if isLeap y then 29 else 28)
  else if m = 4 ∨ m = 6 ∨ m = 9 ∨ m = 11 then 30 else 31

/-- the range check of the `datetime.date` constructor -/
def Date.Valid (d : Date) : Prop :=
  1 ≤ d.year ∧ d.year ≤ 9999 ∧ 1 ≤ d.month ∧ d.month ≤ 12 ∧ 1 ≤ d.day ∧ d.day ≤ daysInMonth d.year d.month

instance (d : Date) : Decidable d.Valid := by unfold Date.Valid; infer_instance

/-- the range check of the `datetime.datetime` constructor (the offset is not checked there) -/
def DateTime.Valid (t : DateTime) : Prop :=
  t.date.Valid ∧ t.hour < 24 ∧ t.minute < 60 ∧ t.second < 60 ∧ t.microsecond < 1000000

instance (d : DateTime) : Decidable d.Valid := by unfold DateTime.Valid; infer_instance

/-- `datetime.datetime(…)` -/
def mkDateTime (t : DateTime) : Except Exc DateTime :=
  if t.Valid then .ok t else .error .ValueError

/-- decimal text of `n` with exactly `k` digits (the last `k` ones), as `'%0kd'` for small `n` -/
def pad : Nat → Nat → Str
  | 0, _ => []
  | k + 1, n => pad k (n / 10) ++ [Nat.digitChar (n % 10)]

/-- `d.isoformat()` -/
def Date.isoformat (d : Date) : Str :=
  pad 4 d.year ++ '-' :: pad 2 d.month ++ '-' :: pad 2 d.day

/-- the offset part of `isoformat` -/
def isoOffset : Option Int → Str
  | none => []
  | some o => (if o < 0 then '-' else '+') :: pad 2 (o.natAbs / 60) ++ ':' :: pad 2 (o.natAbs % 60)

/-- `t.isoformat()` -/
def DateTime.isoformat (t : DateTime) : Str :=
  t.date.isoformat ++ 'T' :: pad 2 t.hour ++ ':' :: pad 2 t.minute ++ ':' :: pad 2 t.second ++
    (if t.microsecond = 0 then [] else '.' :: pad 6 t.microsecond) ++ isoOffset t.offset

/-- `int(s)` on a non-empty string of ASCII digits -/
def natOf (s : Str) : Nat := s.foldl (fun n c => 10 * n + (c.toNat - 48)) 0

end Py
