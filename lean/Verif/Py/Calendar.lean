import Verif.Py.DateTime
import Verif.Py.Random
/-!
# Days and seconds since 1970, for `time.mktime`, `fromtimestamp`

The local time zone has a fixed offset: daylight saving and other changes of the offset are not modelled. Numbers are exact, as
everywhere (`DESIGN.md`).
-/

namespace Py

/-- the day after -/
def Date.next (d : Date) : Date :=
  if d.day < daysInMonth d.year d.month then { d with day := d.day + 1 }
  else if d.month < 12 then ⟨d.year, d.month + 1, 1⟩
  else ⟨d.year + 1, 1, 1⟩

/-- the day `n` days after January 1, 1970 -/
def dateOfDay : Nat → Date
  | 0 => ⟨1970, 1, 1⟩
  | n + 1 => (dateOfDay n).next

/-- the days of the first `m` months of a year -/
def daysOfMonths (y : Nat) : Nat → Nat
  | 0 => 0
  | m + 1 => daysOfMonths y m + daysInMonth y (m + 1)

/-- the days of the first `k` years from 1970 on -/
def daysOfYears : Nat → Nat
  | 0 => 0
  | k + 1 => daysOfYears k + daysOfMonths (1970 + k) 12

/-- the number of days since January 1, 1970 -/
def dayOf (d : Date) : Nat := daysOfYears (d.year - 1970) + daysOfMonths d.year (d.month - 1) + (d.day - 1)

/-- `time.mktime` of midnight; local time is `tz` seconds ahead of UTC -/
def mktime (tz : Int) (d : Date) : Rat := (86400 * dayOf d : Nat) - tz

/-- `datetime.date.fromtimestamp` of a time after midnight of January 1, 1970 -/
def dateAt (tz : Int) (q : Rat) : Date := dateOfDay ((q + tz).floor / 86400).toNat

/-- Python's `round`: to the nearest integer, to the even one of two -/
def roundEven (q : Rat) : Int :=
  let n := q.floor
  if q - n < 1 / 2 then n else if 1 / 2 < q - n then n + 1 else if n % 2 = 0 then n else n + 1

/-- the moment so many microseconds after midnight of January 1, 1970, without offset -/
def momentOf (us : Nat) : DateTime :=
  { date := dateOfDay (us / 86400000000)
    hour := us / 3600000000 % 24
    minute := us / 60000000 % 60
    second := us / 1000000 % 60
    microsecond := us % 1000000
    offset := none }

/-- `datetime.datetime.utcfromtimestamp` of a time after 1970 -/
def utcAt (q : Rat) : DateTime := momentOf (roundEven (q * 1000000)).toNat

/-- `random.uniform(a, b)` -/
def uniform (a b : Rat) : Gen Rat := random.bind fun r => .ret (a + (b - a) * r)

/-- `uuid.uuid4().int`: 128 random bits, of which six are set to the version 4 and the variant of RFC 4122 -/
def uuid4 : Gen Nat := .pick (2 ^ 128 - 1) fun n =>
  .ret (n / 2 ^ 80 * 2 ^ 80 + 4 * 2 ^ 76 + n / 2 ^ 64 % 2 ^ 12 * 2 ^ 64 + 2 * 2 ^ 62 + n % 2 ^ 62)

end Py
