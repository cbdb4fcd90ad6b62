import Verif.Spec.Pointed
/-!
# References that lead nowhere

The words of C98: a document whose references stay within it, and one of them names a place where no object of the kind asked for is
written.
-/

namespace Spec.Pointed
open Py Utils Tree _root_.Doc

/-- A document that speaks about itself only: no nulls for objects, and every reference is a text that names some place of the
document, whatever is written there. -/
structure Inside (D : Tree) (url : Str) : Prop where
  plain : Plain D
  whole : ∀ ts c, ¬ Place (.one cSwagger) D ts (.one c) (.atom .none)
  refs : ∀ ts c q v, Written D ts c q → Dict.get? (v20 c).fields c!"$ref" ≠ none → Dict.get? q c!"$ref" = some v →
    ∃ r us, v = .atom (.str r) ∧ Names url r us

/-- a number is written in digits, without sign, spaces, underscores or leading zeros -/
def Ordinary (ts : List Str) : Prop := ∀ t ∈ ts, ∀ i, intOf? t = some i → ∃ n : Nat, t = natStr n

/-- some object of the class `c` refers to a place where no such object is written -/
def Dangling (D : Tree) (url : Str) (c : Nat) : Prop :=
  ∃ ts q r us, Written D ts c q ∧ Dict.get? q c!"$ref" = some (.atom (.str r)) ∧ Names url r us ∧ Ordinary us ∧
    ¬ ∃ q', Written D us c q'

end Spec.Pointed
