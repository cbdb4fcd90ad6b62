import Verif.Py.Basic
/-!
# Python values as found in JSON documents and call arguments

`float` is idealised: a rational, an infinity or NaN (no rounding). `other` stands for any other
object (bytes, dates, files, ...), told apart by a number; it is neither text nor iterable.
-/

namespace Py

/-- An idealised Python `float`. -/
inductive PyFloat where
  | fin (q : Rat)
  | pinf
  | ninf
  | nan
  deriving DecidableEq, Repr

namespace PyFloat

/-- `x > n` for a finite bound -/
def gt : PyFloat → Rat → Bool
  | fin q, n => n < q
  | pinf, _ => true
  | ninf, _ => false
  | nan, _ => false

/-- `x >= n` -/
def ge : PyFloat → Rat → Bool
  | fin q, n => n ≤ q
  | pinf, _ => true
  | ninf, _ => false
  | nan, _ => false

/-- `x < n` -/
def lt : PyFloat → Rat → Bool
  | fin q, n => q < n
  | pinf, _ => false
  | ninf, _ => true
  | nan, _ => false

/-- `x <= n` -/
def le : PyFloat → Rat → Bool
  | fin q, n => q ≤ n
  | pinf, _ => false
  | ninf, _ => true
  | nan, _ => false

/-- `x % m != 0` for `m != 0`: the remainder of an infinity or NaN is NaN -/
def notMultiple : PyFloat → Rat → Bool
  | fin q, m => q - m * (q / m).floor ≠ 0
  | _, _ => true

end PyFloat

/-- A Python value. -/
inductive Val where
  | none
  | bool (b : Bool)
  | int (n : Int)
  | float (x : PyFloat)
  | str (s : Str)
  | list (l : List Val)
  | dict (d : List (Str × Val))
  | other (id : Nat)
  deriving Repr

/-! Equality of values is decidable (structural equality; Python's `==` is coarser). -/
namespace Val

mutual
/-- structural equality -/
def beq : Val → Val → Bool
  | none, none => true
  | bool a, bool b => a = b
  | int a, int b => a = b
  | float a, float b => a = b
  | str a, str b => a = b
  | list a, list b => beqL a b
  | dict a, dict b => beqD a b
  | other a, other b => a = b
  | _, _ => false
/-- structural equality of lists -/
def beqL : List Val → List Val → Bool
  | [], [] => true
  | x :: xs, y :: ys => beq x y && beqL xs ys
  | _, _ => false
/-- structural equality of dicts -/
def beqD : List (Str × Val) → List (Str × Val) → Bool
  | [], [] => true
  | (k, x) :: xs, (l, y) :: ys => decide (k = l) && beq x y && beqD xs ys
  | _, _ => false
end

mutual
theorem beq_iff : ∀ a b : Val, beq a b = true ↔ a = b
  | a, b => by
    cases a <;> cases b <;> simp [beq]
    next x y => exact beqL_iff x y
    next x y => exact beqD_iff x y
theorem beqL_iff : ∀ a b : List Val, beqL a b = true ↔ a = b
  | [], [] => by simp [beqL]
  | [], _ :: _ => by simp [beqL]
  | _ :: _, [] => by simp [beqL]
  | x :: xs, y :: ys => by simp [beqL, beq_iff x y, beqL_iff xs ys]
theorem beqD_iff : ∀ a b : List (Str × Val), beqD a b = true ↔ a = b
  | [], [] => by simp [beqD]
  | [], _ :: _ => by simp [beqD]
  | _ :: _, [] => by simp [beqD]
  | (k, x) :: xs, (l, y) :: ys => by simp [beqD, beq_iff x y, beqD_iff xs ys]
end

instance : DecidableEq Val := fun a b => decidable_of_iff (beq a b = true) (beq_iff a b)

end Val

end Py
