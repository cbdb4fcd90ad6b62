import Verif.Py.Bytes
/-!
# Reading percent-encoded text and `application/x-www-form-urlencoded` bodies

Written from RFC 3986 section 2.1 and the HTML form-urlencoded parser, independent of
`urllib`.
-/

namespace Spec
open Py

/-- value of a hexadecimal digit of either case -/
def hexVal (c : Char) : Option Nat :=
  if '0' ≤ c ∧ c ≤ '9' then some (c.toNat - '0'.toNat)
  else if 'A' ≤ c ∧ c ≤ 'F' then some (c.toNat - 'A'.toNat + 10)
  else if 'a' ≤ c ∧ c ≤ 'f' then some (c.toNat - 'a'.toNat + 10)
  else none

/-- RFC 3986 percent-decoding of an ASCII text; with `plus`, a `+` stands for a blank. -/
def percentDecode (plus : Bool) : Str → Option Bytes
  | [] => some []
  | '%' :: a :: b :: s => do
    let x ← hexVal a
    let y ← hexVal b
    let r ← percentDecode plus s
    return UInt8.ofNat (16 * x + y) :: r
  | c :: s =>
    if c = '%' then none
    else if c.toNat < 128 then do
      let r ← percentDecode plus s
      return UInt8.ofNat (if plus && c = '+' then 32 else c.toNat) :: r
    else none

/-- the pieces of a text between occurrences of a character -/
def pieces (sep : Char) : Str → List Str
  | [] => [[]]
  | c :: s =>
    if c = sep then [] :: pieces sep s
    else match pieces sep s with
      | [] => [[c]]
      | p :: ps => (c :: p) :: ps

/-- one `name=value` component -/
def formPair (s : Str) : Option (Str × Str) :=
  let k := s.takeWhile (· ≠ '=')
  let v := (s.dropWhile (· ≠ '=')).drop 1
  do
    let k ← percentDecode true k
    let v ← percentDecode true v
    let k ← utf8Decode k
    let v ← utf8Decode v
    return (k, v)

/-- the (name, value) pairs of a form body; the empty body has none -/
def formDecode (s : Str) : Option (List (Str × Str)) :=
  if s = [] then some [] else (pieces '&' s).mapM formPair

end Spec
