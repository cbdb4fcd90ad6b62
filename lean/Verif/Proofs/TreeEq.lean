import Verif.Model.Tree
/-! # Equality of trees is decidable -/

namespace Tree
mutual
/-- structural equality -/
def beq : Tree → Tree → Bool
  | .atom a, .atom b => a = b
  | .list a, .list b => beqL a b
  | .dict a, .dict b => beqD a b
  | .obj c a, .obj d b => c = d && beqD a b
  | _, _ => false
def beqL : List Tree → List Tree → Bool
  | [], [] => true
  | x :: xs, y :: ys => beq x y && beqL xs ys
  | _, _ => false
def beqD : List (Py.Str × Tree) → List (Py.Str × Tree) → Bool
  | [], [] => true
  | (k, x) :: xs, (l, y) :: ys => decide (k = l) && beq x y && beqD xs ys
  | _, _ => false
end

mutual
theorem beq_iff : ∀ a b : Tree, beq a b = true ↔ a = b
  | a, b => by
    cases a <;> cases b <;> simp [beq]
    next x y => exact beqL_iff x y
    next x y => exact beqD_iff x y
    next c x d y => simp [beqD_iff x y]
theorem beqL_iff : ∀ a b : List Tree, beqL a b = true ↔ a = b
  | [], [] => by simp [beqL]
  | [], _ :: _ => by simp [beqL]
  | _ :: _, [] => by simp [beqL]
  | x :: xs, y :: ys => by simp [beqL, beq_iff x y, beqL_iff xs ys]
theorem beqD_iff : ∀ a b : List (Py.Str × Tree), beqD a b = true ↔ a = b
  | [], [] => by simp [beqD]
  | [], _ :: _ => by simp [beqD]
  | _ :: _, [] => by simp [beqD]
  | (k, x) :: xs, (l, y) :: ys => by simp [beqD, beq_iff x y, beqD_iff xs ys]
end

instance : DecidableEq Tree := fun a b => decidable_of_iff (beq a b = true) (beq_iff a b)
end Tree
