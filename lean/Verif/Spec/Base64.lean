import Verif.Py.Bytes
/-!
# Reading base64 (RFC 4648 section 4 and 5)

Every character stands for six bits; the bits are concatenated and cut into bytes. `=` pads the
last group of four.
-/

namespace Spec
open Py

/-- the value of a character of the alphabet (`-_` instead of `+/` in the URL-safe one) -/
def b64Val (urlsafe : Bool) (c : Char) : Option Nat :=
  if 'A' ≤ c ∧ c ≤ 'Z' then some (c.toNat - 'A'.toNat)
  else if 'a' ≤ c ∧ c ≤ 'z' then some (c.toNat - 'a'.toNat + 26)
  else if '0' ≤ c ∧ c ≤ '9' then some (c.toNat - '0'.toNat + 52)
  else if c = (if urlsafe then '-' else '+') then some 62
  else if c = (if urlsafe then '_' else '/') then some 63
  else none

/-- groups of four characters; a group may end in `=` or `==` only if it is the last one -/
def b64decode (urlsafe : Bool) : Str → Option Bytes
  | [] => some []
  | [a, b, '=', '='] => do
    let x ← b64Val urlsafe a
    let y ← b64Val urlsafe b
    return [UInt8.ofNat ((x * 64 + y) / 16)]
  | [a, b, c, '='] => do
    let x ← b64Val urlsafe a
    let y ← b64Val urlsafe b
    let z ← b64Val urlsafe c
    let n := (x * 64 + y) * 64 + z
    return [UInt8.ofNat (n / 1024), UInt8.ofNat (n / 4 % 256)]
  | a :: b :: c :: d :: rest => do
    let x ← b64Val urlsafe a
    let y ← b64Val urlsafe b
    let z ← b64Val urlsafe c
    let w ← b64Val urlsafe d
    let n := ((x * 64 + y) * 64 + z) * 64 + w
    let r ← b64decode urlsafe rest
    return UInt8.ofNat (n / 65536) :: UInt8.ofNat (n / 256 % 256) :: UInt8.ofNat (n % 256) :: r
  | _ => none

end Spec
