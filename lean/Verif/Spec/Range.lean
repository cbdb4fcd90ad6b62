import Verif.Model.Prim
/-! # Numeric limits of a schema, as JSON Schema (draft 4) defines them -/

namespace Spec
open Prim

/-- `x` respects the lower limit -/
def AboveMin (o : Node) (x : Rat) : Prop :=
  ∀ m, o.minimum = some m → m ≤ x ∧ (o.exclusiveMinimum = true → m ≠ x)

/-- `x` respects the upper limit -/
def BelowMax (o : Node) (x : Rat) : Prop :=
  ∀ m, o.maximum = some m → x ≤ m ∧ (o.exclusiveMaximum = true → x ≠ m)

/-- `x` lies within the limits of `o` -/
def InRange (o : Node) (x : Rat) : Prop := AboveMin o x ∧ BelowMax o x

/-- `x` is a multiple of `m` -/
def MultipleOf (m x : Rat) : Prop := ∃ k : Int, x = m * k

end Spec
