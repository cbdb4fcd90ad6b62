import Verif.Py.Bytes
/-!
# `uuid.UUID` of the Python standard library (CPython 3.7–3.9)

A UUID is its 128-bit number. `int(hex, 16)` also accepts digits of other scripts; those are not
modelled (they count as malformed).
-/

namespace Py.Uuid
open Py

/-- the value of a hexadecimal digit -/
def hexVal? (c : Char) : Option Nat :=
  if '0' ≤ c ∧ c ≤ '9' then some (c.toNat - 48)
  else if 'a' ≤ c ∧ c ≤ 'f' then some (c.toNat - 87)
  else if 'A' ≤ c ∧ c ≤ 'F' then some (c.toNat - 55)
  else none

/-- white space, as far as ASCII goes: `c.isspace()` -/
def isSpace (c : Char) : Bool := (9 ≤ c.toNat && c.toNat ≤ 13) || (28 ≤ c.toNat && c.toNat ≤ 32)

/-- `s.strip(chars)` -/
def stripBy (p : Char → Bool) (s : Str) : Str := ((s.dropWhile p).reverse.dropWhile p).reverse

/-- the digits, single underscores allowed in between; `us`: the last character was one -/
def hexGo (acc : Nat) (us : Bool) : Str → Option Nat
  | [] => if us then none else some acc
  | c :: s =>
    if c = '_' then (if us then none else hexGo acc true s)
    else match hexVal? c with
      | some d => hexGo (acc * 16 + d) false s
      | none => none

/-- the digits after sign and prefix: at least one character, not starting with an underscore -/
def hexBody : Str → Option Nat
  | [] => none
  | c :: s => if c = '_' then none else hexGo 0 false (c :: s)

/-- the prefix `0x`, after which one underscore may stand -/
def dropPrefix : Str → Str
  | '0' :: x :: s =>
    if x = 'x' ∨ x = 'X' then
      match s with
      | '_' :: s => s
      | s => s
    else '0' :: x :: s
  | s => s

/-- `int(s, 16)` of a text without `-`; `none` is `ValueError` -/
def int16 (s : Str) : Option Nat :=
  match stripBy isSpace s with
  | '+' :: s => hexBody (dropPrefix s)
  | s => hexBody (dropPrefix s)

/-- `UUID.__init__(hex=…)`: the text after `replace` and `strip` -/
def clean (s : Str) : Str :=
  replace (stripBy (fun c => c = '{' || c = '}') (replace (replace s c!"urn:" []) c!"uuid:" [])) c!"-" []

/-- `uuid.UUID(s)` of a text. Thirty-two digits are less than `1 << 128`. -/
def ofText (s : Str) : Except Exc Nat :=
  let hex := clean s
  if hex.length ≠ 32 then .error .ValueError
  else match int16 hex with
    | some n => .ok n
    | none => .error .ValueError

/-- `uuid.UUID(bytes=b)` of bytes: big-endian -/
def ofBytes (b : Bytes) : Except Exc Nat :=
  if b.length ≠ 16 then .error .ValueError else .ok (b.foldl (fun n x => n * 256 + x.toNat) 0)

/-- `uuid.UUID(bytes=s)` of a text: the length is checked before the assertion on the type -/
def ofTextAsBytes (s : Str) : Except Exc Nat :=
  if s.length ≠ 16 then .error .ValueError else .error .AssertionError

/-- `'%0kx' % n`, the last `k` digits -/
def hexPad : Nat → Nat → Str
  | 0, _ => []
  | k + 1, n => hexPad k (n / 16) ++ [Nat.digitChar (n % 16)]

/-- `str(u)` -/
def text (n : Nat) : Str :=
  let h := hexPad 32 n
  h.take 8 ++ '-' :: ((h.drop 8).take 4 ++ '-' :: ((h.drop 12).take 4 ++ '-' :: ((h.drop 16).take 4 ++ '-' :: h.drop 20)))

end Py.Uuid
