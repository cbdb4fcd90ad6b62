import Verif.Py.DateTime
import Verif.Py.Value
/-! # `pyswagger/utils.py`: `from_iso8601`; `pyswagger/primitives/_time.py` -/

namespace Utils
open Py

/-- `\d{n}`: exactly `n` digits. Only ASCII digits are modelled (Python's `\d` also matches the
digits of other scripts). -/
def reDigits : Nat → Str → Option (Str × Str)
  | 0, s => some ([], s)
  | n + 1, c :: s =>
    if c.isDigit then
      match reDigits n s with
      | some (a, b) => some (c :: a, b)
      | none => none
    else none
  | _ + 1, [] => none

/-- `\d{0,n}`, greedy -/
def reDigitsUpTo : Nat → Str → Str × Str
  | 0, s => ([], s)
  | n + 1, c :: s =>
    if c.isDigit then
      let r := reDigitsUpTo n s
      (c :: r.1, r.2)
    else ([], c :: s)
  | _ + 1, [] => ([], [])

/-- the literal character `c` -/
def reChar (c : Char) : Str → Option Str
  | x :: s => if x = c then some s else none
  | [] => none

/-- the groups of the two regular expressions -/
structure IsoGroups where
  year : Str
  month : Str
  day : Str
  hour : Option Str := none
  minute : Option Str := none
  second : Option Str := none
  microsecond : Option Str := none
  tz : Option Str := none
  deriving DecidableEq, Repr

/-- `pyswagger/utils.py`:135 `_iso8601_fmt_date.match(s)`: the groups and the unread rest. `match`
does not require the end of the string. -/
def isoDateMatch (s : Str) : Option (IsoGroups × Str) := do
  let (y, s) ← reDigits 4 s
  let s ← reChar '-' s
  let (m, s) ← reDigits 2 s
  let s ← reChar '-' s
  let (d, s) ← reDigits 2 s
  some ({ year := y, month := m, day := d }, s)

/-- `pyswagger/utils.py`:132 `(\.(?P<microsecond>\d{1,6}))?` -/
def isoFraction (s : Str) : Option Str × Str :=
  match s with
  | '.' :: s' =>
    match reDigitsUpTo 6 s' with
    | ([], _) => (none, s)
    | (f, rest) => (some f, rest)
  | _ => (none, s)

/-- `pyswagger/utils.py`:132 `(:(?P<second>\d{1,2})(\.(?P<microsecond>\d{1,6}))?)?` -/
def isoSeconds (s : Str) : Option Str × Option Str × Str :=
  match s with
  | ':' :: s' =>
    match reDigitsUpTo 2 s' with
    | ([], _) => (none, none, s)
    | (sec, rest) =>
      let (f, rest) := isoFraction rest
      (some sec, f, rest)
  | _ => (none, none, s)

/-- `pyswagger/utils.py`:133 `(?P<tz>Z|[+-]\d{2}:\d{2})?` -/
def isoTz (s : Str) : Option Str × Str :=
  match s with
  | 'Z' :: s' => (some ['Z'], s')
  | c :: s' =>
    if c = '+' ∨ c = '-' then
      match reDigits 2 s' with
      | some (hh, ':' :: s2) =>
        match reDigits 2 s2 with
        | some (mm, rest) => (some (c :: hh ++ ':' :: mm), rest)
        | none => (none, s)
      | _ => (none, s)
    else (none, s)
  | [] => (none, [])

/-- `pyswagger/utils.py`:129-134 `_iso8601_fmt.match(s)`. Everything after the minutes is optional
and the parts start with different characters, so the greedy choice never has to be undone. -/
def isoMatch (s : Str) : Option (IsoGroups × Str) := do
  let (g, s) ← isoDateMatch s
  let s ← reChar 'T' s
  let (h, s) ← reDigits 2 s
  let s ← reChar ':' s
  let (mi, s) ← reDigits 2 s
  let (sec, us, s) := isoSeconds s
  let (tz, s) := isoTz s
  some ({ g with hour := some h, minute := some mi, second := sec, microsecond := us, tz := tz }, s)

/-- `pyswagger/utils.py`:154-156 `_default_zero` on a group that took part in the match (the
year, month and day always do). -/
def defaultZero (g : Str) : Nat := if g ≠ [] then natOf g else 0

/-- `pyswagger/utils.py`:158-160 `_default_none` -/
def defaultNone (g : Option Str) : Option Nat :=
  match g with
  | some (c :: v) => some (natOf (c :: v))
  | _ => none

/-- `pyswagger/utils.py`:186-196: the offset in minutes of the group `tz` of the form `Z` or
`±hh:mm` (`FixedTZ(h, m)`, lines 112-127: hours and minutes, no daylight saving). -/
def isoOffsetOf (tz_s : Str) : Int :=
  if tz_s ≠ c!"Z" then
    let negtive : Int := if tz_s.head? = some '-' then -1 else 1
    let hh : Int := natOf ((tz_s.drop 1).take 2)
    let mm : Int := if tz_s.length > 5 then natOf ((tz_s.drop 4).take 2) else 0
    hh * negtive * 60 + mm * negtive
  else 0

/-- `pyswagger/utils.py`:137-205 `from_iso8601(s)`. -/
def from_iso8601 (s : Str) : Except Exc DateTime :=
  let m := match isoMatch s with
    | some m => some m
    | none => isoDateMatch s
  match m with
  | none => .error .ValueError
  | some (g, _) =>
    let year := defaultZero g.year
    let month := defaultZero g.month
    let day := defaultZero g.day
    let hour := defaultNone g.hour
    let minute := defaultNone g.minute
    let second := defaultNone g.second
    let microsecond : Option Nat := match g.microsecond with
      | some u => some (natOf (u ++ List.replicate (6 - u.length) '0'))
      | none => none
    if ¬ (year ≠ 0 ∧ month ≠ 0 ∧ day ≠ 0) then .error .ValueError
    else if hour = none ∧ minute = none ∧ second = none then
      mkDateTime ⟨⟨year, month, day⟩, 0, 0, 0, 0, none⟩
    else
      match g.tz with
      | some (c :: cs) =>
        if hour = none ∧ minute = none then .error .ValueError
        else mkDateTime ⟨⟨year, month, day⟩, hour.getD 0, minute.getD 0, second.getD 0,
          microsecond.getD 0, some (isoOffsetOf (c :: cs))⟩
      | _ => mkDateTime ⟨⟨year, month, day⟩, hour.getD 0, minute.getD 0, second.getD 0,
          microsecond.getD 0, none⟩

/-- What the constructors of `Date` and `Datetime` are given. -/
inductive TimeArg where
  | float (timestamp : PyFloat)
  | date (d : Date)
  | datetime (t : DateTime)
  | str (s : Str)
  | other
  deriving DecidableEq, Repr

/-- The value held by a `Date` or `Datetime`: a `datetime.date` or a `datetime.datetime`. -/
inductive TimeVal where
  | date (d : Date)
  | datetime (t : DateTime)
  deriving DecidableEq, Repr

/-- `pyswagger/primitives/_time.py`:23-38 `Date.apply_with`. `datetime.date.fromtimestamp` depends
on the local time zone, can raise, and is a parameter; a `datetime` is an instance of `datetime.date`. -/
def dateApply (fromtimestamp : PyFloat → Except Exc Date) : TimeArg → Except Exc TimeVal
  | .float f =>
    match fromtimestamp f with
    | .ok d => .ok (.date d)
    | .error e => .error e
  | .date d => .ok (.date d)
  | .datetime t => .ok (.datetime t)
  | .str s =>
    match from_iso8601 s with
    | .ok t => .ok (.date t.date)
    | .error e => .error e
  | .other => .error .ValueError

/-- `pyswagger/primitives/_time.py`:45-60 `Datetime.apply_with`. -/
def datetimeApply (utcfromtimestamp : PyFloat → Except Exc DateTime) : TimeArg → Except Exc TimeVal
  | .float f =>
    match utcfromtimestamp f with
    | .ok t => .ok (.datetime t)
    | .error e => .error e
  | .datetime t => .ok (.datetime t)
  | .str s =>
    match from_iso8601 s with
    | .ok t => .ok (.datetime t)
    | .error e => .error e
  | .date _ => .error .ValueError
  | .other => .error .ValueError

/-- `pyswagger/primitives/_time.py`:14-17 `Time.to_json`. An offset of a day or more (`FixedTZ`,
`pyswagger/utils.py`:112-127, does not check it) is refused by `isoformat`, not before. -/
def timeToJson : TimeVal → Except Exc Str
  | .date d => .ok d.isoformat
  | .datetime t =>
    match t.offset with
    | some o => if -1440 < o ∧ o < 1440 then .ok t.isoformat else .error .ValueError
    | none => .ok t.isoformat

end Utils
