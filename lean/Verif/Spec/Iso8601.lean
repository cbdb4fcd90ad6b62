import Verif.Py.DateTime
/-!
# The documented date and date-time format

`YYYY-MM-DD` or `YYYY-MM-DDThh:mm[:s[s][.f…]][Z|±hh:mm]`, and its meaning.
-/

namespace Spec.Iso
open Py

/-- `n` ASCII digits -/
def Digits (n : Nat) (s : Str) : Prop := s.length = n ∧ ∀ c ∈ s, c.isDigit = true

/-- UTC offset designator -/
inductive Tz where
  | utc
  | plus (hh mm : Str)
  | minus (hh mm : Str)
  deriving DecidableEq, Repr

/-- a time of day with optional seconds, fraction and offset -/
structure TimeText where
  hour : Str
  minute : Str
  /-- seconds and fraction -/
  sec : Option (Str × Option Str)
  tz : Option Tz
  deriving DecidableEq, Repr

/-- a date, or a date with a time -/
structure Text where
  year : Str
  month : Str
  day : Str
  time : Option TimeText
  deriving DecidableEq, Repr

def Tz.WF : Tz → Prop
  | .utc => True
  | .plus hh mm => Digits 2 hh ∧ Digits 2 mm
  | .minus hh mm => Digits 2 hh ∧ Digits 2 mm

def TimeText.WF (t : TimeText) : Prop :=
  Digits 2 t.hour ∧ Digits 2 t.minute ∧
  (∀ s f, t.sec = some (s, f) → (Digits 1 s ∨ Digits 2 s) ∧
    ∀ f', f = some f' → ∃ k, 1 ≤ k ∧ k ≤ 6 ∧ Digits k f') ∧
  (∀ z, t.tz = some z → z.WF)

/-- the digit groups have the documented lengths -/
def Text.WF (t : Text) : Prop :=
  Digits 4 t.year ∧ Digits 2 t.month ∧ Digits 2 t.day ∧ ∀ x, t.time = some x → x.WF

def Tz.render : Tz → Str
  | .utc => c!"Z"
  | .plus hh mm => '+' :: (hh ++ ':' :: mm)
  | .minus hh mm => '-' :: (hh ++ ':' :: mm)

def renderTz : Option Tz → Str
  | none => []
  | some z => z.render

def renderFrac : Option Str → Str
  | none => []
  | some f => '.' :: f

def renderSec : Option (Str × Option Str) → Str
  | none => []
  | some (s, f) => ':' :: (s ++ renderFrac f)

def TimeText.render (t : TimeText) : Str :=
  t.hour ++ ':' :: (t.minute ++ (renderSec t.sec ++ renderTz t.tz))

def renderTime : Option TimeText → Str
  | none => []
  | some t => 'T' :: t.render

/-- the text -/
def Text.render (t : Text) : Str :=
  t.year ++ '-' :: (t.month ++ '-' :: (t.day ++ renderTime t.time))

/-- offset in minutes -/
def Tz.minutes : Tz → Int
  | .utc => 0
  | .plus hh mm => 60 * (natOf hh : Int) + natOf mm
  | .minus hh mm => - (60 * (natOf hh : Int) + natOf mm)

/-- a fraction of a second in microseconds: `.5` is 500000 -/
def micros (f : Str) : Nat := natOf f * 10 ^ (6 - f.length)

/-- the calendar fields a text stands for -/
def Text.value (t : Text) : DateTime where
  date := ⟨natOf t.year, natOf t.month, natOf t.day⟩
  hour := match t.time with
    | some x => natOf x.hour
    | none => 0
  minute := match t.time with
    | some x => natOf x.minute
    | none => 0
  second := match t.time with
    | some x => (match x.sec with
      | some (s, _) => natOf s
      | none => 0)
    | none => 0
  microsecond := match t.time with
    | some x => (match x.sec with
      | some (_, some f) => micros f
      | _ => 0)
    | none => 0
  offset := match t.time with
    | some x => x.tz.map Tz.minutes
    | none => none

/-- `t` is the longest text in the documented format that `s` starts with -/
def Longest (s : Str) (t : Text) : Prop :=
  t.WF ∧ t.render <+: s ∧ ∀ t' : Text, t'.WF → t'.render <+: s → t'.render.length ≤ t.render.length

end Spec.Iso
