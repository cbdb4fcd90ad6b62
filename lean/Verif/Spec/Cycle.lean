import Mathlib.Order.Defs.LinearOrder
/-! # Simple cycles of a directed graph (specification side of C07) -/

namespace Spec
variable {α : Type}

/-- `b` is reachable from `a` along edges of `E`. -/
inductive Reach (E : α → List α) : α → α → Prop
  | refl (a : α) : Reach E a a
  | step {a b c : α} : Reach E a b → c ∈ E b → Reach E a c

/-- `l` is a walk: consecutive elements are joined by edges. -/
def IsWalk (E : α → List α) : List α → Prop
  | [] => True
  | [_] => True
  | a :: b :: l => b ∈ E a ∧ IsWalk E (b :: l)

/-- `v :: l ++ [v]` is a simple cycle written from its smallest vertex: a closed walk along
edges whose vertices `v :: l` are pairwise distinct, `v` being the smallest. -/
def IsCycle [LinearOrder α] (E : α → List α) (v : α) (l : List α) : Prop :=
  IsWalk E (v :: l ++ [v]) ∧ (v :: l).Nodup ∧ ∀ x ∈ l, v ≤ x

end Spec
