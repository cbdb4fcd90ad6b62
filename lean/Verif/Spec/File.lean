import Verif.Py.Quote
/-!
# Names of files

A file of a POSIX system is given by the names on the way from the root to it.
-/

namespace Spec.File
open Py

/-- the way from the folder `d` along the steps of a path leads to `r` -/
inductive Leads : (d steps r : List Str) → Prop
  | done (d) : Leads d [] d
  /-- an empty step or a dot: nothing -/
  | stay {d s ss r} : s = [] ∨ s = c!"." → Leads d ss r → Leads d (s :: ss) r
  /-- two dots: the folder above, the root being above itself -/
  | up {d ss r} : Leads d.dropLast ss r → Leads d (c!".." :: ss) r
  /-- a name -/
  | down {d s ss r} : s ≠ [] → s ≠ c!"." → s ≠ c!".." → Leads (d ++ [s]) ss r → Leads d (s :: ss) r

/-- the absolute path of a file -/
def path (r : List Str) : Str := '/' :: join ['/'] r

/-- the names of a folder -/
def Names (d : List Str) : Prop := ∀ s ∈ d, s ≠ [] ∧ s ≠ c!"." ∧ s ≠ c!".." ∧ '/' ∉ s

/-- The path `p`, used in the folder `cwd`, is the one of the file `r`. -/
def Means (cwd : List Str) (p : Str) (r : List Str) : Prop :=
  ∃ steps, (∀ s ∈ steps, '/' ∉ s) ∧
    (p = '/' :: join ['/'] steps ∧ steps ≠ [] ∧ Leads [] steps r ∨
     p = join ['/'] steps ∧ p ≠ [] ∧ p.head? ≠ some '/' ∧ Leads cwd steps r)

/-- ASCII letters, digits and `_.-~`: the characters that stand for themselves in every URL -/
def Unreserved (c : Char) : Prop :=
  ('A' ≤ c ∧ c ≤ 'Z') ∨ ('a' ≤ c ∧ c ≤ 'z') ∨ ('0' ≤ c ∧ c ≤ '9') ∨ c ∈ ['_', '.', '-', '~']

/-- The name is one of a JSON or YAML document: something, a dot, and the extension. -/
def Document (name : Str) : Prop :=
  ∃ stem e, name = stem ++ '.' :: e ∧ e ∈ [c!"json", c!"yaml", c!"yml"] ∧ ∃ c ∈ stem, c ≠ '.'

instance (c : Char) : Decidable (Unreserved c) := by unfold Unreserved; infer_instance

/-- A name as it is written in a URL (RFC 3986, section 2): unreserved characters as they are, the bytes of others in hexadecimal. -/
def encoded (name : Str) : Str :=
  name.flatMap fun c => if Unreserved c then [c] else (String.utf8EncodeChar c).flatMap fun b => ['%', hexUpper (b.toNat / 16), hexUpper (b.toNat % 16)]

/-- A text that is a path and not a URL: it has no colon, does not begin with two slashes, and not with a character that ends the path
of a URL. -/
structure Typed (p : Str) : Prop where
  colon : ':' ∉ p
  slashes : ¬ c!"//" <+: p
  head : ∀ c, p.head? = some c → c ∉ ['?', '#', ';']

/-- Folders are not named like documents. -/
def Tidy (isfile : Str → Bool) : Prop := ∀ d name n, Document name → isfile (path (d ++ [name, n])) = false

end Spec.File
