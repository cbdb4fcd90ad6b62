import Verif.Py.Int
import Verif.Py.Uuid
import Verif.Py.Value
/-!
# `int(s)` and `float(s)` of a text, `int(x)` of a float

White space is that of ASCII and digits of other scripts are not modelled (they count as malformed), as in
`Py/Uuid.lean`. The value of a float text is the exact number (floats are idealised, `Py/Value.lean`); texts too
large for a float are not told apart.
-/

namespace Py

def isDigit (c : Char) : Bool := '0' ≤ c && c ≤ '9'

/-- take out underscores, each of which has to stand between digits; `d`: the last character was a digit -/
def dropUnderscores : Bool → Str → Option Str
  | _, [] => some []
  | d, c :: s =>
    if c = '_' then
      match s with
      | [] => none
      | c' :: s => if d && isDigit c' then (dropUnderscores true s).map (c' :: ·) else none
    else (dropUnderscores (isDigit c) s).map (c :: ·)

/-- `int(s)`; `none` is `ValueError` -/
def intOfText (s : Str) : Option Int := (dropUnderscores false (Uuid.stripBy Uuid.isSpace s)).bind intOf?

/-- `int(x)` of a finite float: towards zero -/
def truncate (q : Rat) : Int := q.num.tdiv q.den

/-- `m * 10 ^ e` -/
def scale (m : Nat) : Int → Rat
  | .ofNat e => (m : Rat) * (10 : Rat) ^ e
  | .negSucc e => (m : Rat) / (10 : Rat) ^ (e + 1)

/-- the exponent of a decimal number: nothing, or `e`, a sign, digits -/
def expOf? : Str → Option Int
  | [] => some 0
  | c :: s => if c = 'e' ∨ c = 'E' then intOf? s else none

/-- an unsigned decimal number: digits, a point, digits (not both empty), exponent -/
def decimalOf? (s : Str) : Option Rat :=
  let whole := s.takeWhile isDigit
  let rest := s.dropWhile isDigit
  let frac := match rest with
    | '.' :: r => r.takeWhile isDigit
    | _ => []
  let rest := match rest with
    | '.' :: r => r.dropWhile isDigit
    | r => r
  match natOf? (whole ++ frac), expOf? rest with
  | some m, some e => some (scale m (e - frac.length))
  | _, _ => none

/-- an unsigned float, after lower-casing the words -/
def unsignedOf? (s : Str) : Option PyFloat :=
  let low := s.map fun c => if 'A' ≤ c ∧ c ≤ 'Z' then Char.ofNat (c.toNat + 32) else c
  if low = c!"inf" ∨ low = c!"infinity" then some .pinf
  else if low = c!"nan" then some .nan
  else (decimalOf? s).map .fin

/-- `-x` -/
def PyFloat.neg : PyFloat → PyFloat
  | .fin q => .fin (-q)
  | .pinf => .ninf
  | .ninf => .pinf
  | .nan => .nan

/-- a float after stripping -/
def signedOf? : Str → Option PyFloat
  | '-' :: s => (unsignedOf? s).map PyFloat.neg
  | '+' :: s => unsignedOf? s
  | s => unsignedOf? s

/-- `float(s)`; `none` is `ValueError` -/
def floatOfText (s : Str) : Option PyFloat := (dropUnderscores false (Uuid.stripBy Uuid.isSpace s)).bind signedOf?

example : intOfText c!" -1_000\n" = some (-1000) ∧ intOfText c!"1__0" = none ∧ intOfText c!"_1" = none ∧
    intOfText c!"+7" = some 7 ∧ intOfText c!"" = none := by decide +kernel
example : floatOfText c!" -1_0.50e-1 " = some (.fin ⟨-21, 20, by decide, by decide⟩) ∧ floatOfText c!".5" = some (.fin ⟨1, 2, by decide, by decide⟩) ∧
    floatOfText c!"1." = some (.fin 1) ∧ floatOfText c!"." = none ∧ floatOfText c!"-Inf" = some .ninf ∧
    floatOfText c!"1_e5" = none ∧ floatOfText c!"1e5" = some (.fin 100000) := by decide +kernel

end Py
