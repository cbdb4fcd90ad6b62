import Verif.Py.Bytes
/-!
# RFC 4122, section 3: the spellings of a UUID

Thirty-two hexadecimal digits of either case, most significant first; canonical is lower case in
groups of 8, 4, 4, 4 and 12. Braces and the `urn:uuid:` form are usual, too.
-/

namespace Spec.Uuid
open Py

/-- the digits in order; a digit may be written in lower or upper case -/
def lower : Str := c!"0123456789abcdef"
def upper : Str := c!"0123456789ABCDEF"

/-- `c` is a digit of value `d` -/
def Digit (c : Char) (d : Nat) : Prop := lower[d]? = some c ∨ upper[d]? = some c

/-- the text consists of digits of these values and of hyphens, anywhere -/
inductive Hyphened : Str → List Nat → Prop
  | nil : Hyphened [] []
  | hyphen (s ds) : Hyphened s ds → Hyphened ('-' :: s) ds
  | digit (c d s ds) : Digit c d → Hyphened s ds → Hyphened (c :: s) (d :: ds)

/-- the number with these hexadecimal digits -/
def value : List Nat → Nat
  | [] => 0
  | d :: ds => d * 16 ^ ds.length + value ds

/-- a spelling of the UUID with these digits: plain, in braces, or as a URN -/
inductive Spelling : Str → List Nat → Prop
  | plain (s ds) : Hyphened s ds → ds.length = 32 → Spelling s ds
  | braces (s ds) : Hyphened s ds → ds.length = 32 → Spelling ('{' :: (s ++ ['}'])) ds
  | urn (s ds) : Hyphened s ds → ds.length = 32 → Spelling (c!"urn:uuid:" ++ s) ds

/-- the canonical form: lower case, groups of 8, 4, 4, 4, 12 -/
def Canonical (s : Str) (ds : List Nat) : Prop :=
  ds.length = 32 ∧ ∃ a b c d e : Str, s = a ++ '-' :: (b ++ '-' :: (c ++ '-' :: (d ++ '-' :: e))) ∧
    a.length = 8 ∧ b.length = 4 ∧ c.length = 4 ∧ d.length = 4 ∧ e.length = 12 ∧
    (a ++ b ++ c ++ d ++ e).map some = ds.map fun d => lower[d]?

end Spec.Uuid
