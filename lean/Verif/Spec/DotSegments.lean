import Verif.Py.Basic
/-!
# Removing dot segments from a path, as a rewriting system

A segment `.` disappears; a segment of two or more dots disappears together with the ordinary
segment before it, or alone at the root.
-/

namespace Spec.Dots
open Py

/-- "parent folder" segments: two or more dots -/
def IsUp (s : Str) : Prop := 2 ≤ s.length ∧ ∀ c ∈ s, c = '.'

/-- `.`, `..`, `...`, … -/
def IsDots (s : Str) : Prop := s ≠ [] ∧ ∀ c ∈ s, c = '.'

/-- one simplification -/
inductive Step : List Str → List Str → Prop
  | here (a b : List Str) : Step (a ++ c!"." :: b) (a ++ b)
  | up (a : List Str) (x d : Str) (b : List Str) (hx : ¬ IsDots x) (hd : IsUp d) :
      Step (a ++ x :: d :: b) (a ++ b)
  | root (d : Str) (b : List Str) (hd : IsUp d) : Step (d :: b) b

/-- any number of simplifications -/
inductive Steps : List Str → List Str → Prop
  | refl (l) : Steps l l
  | tail {l m n} : Steps l m → Step m n → Steps l n

/-- `r` is the simplified form of `l`: reachable, and without dot segments. -/
def Simplified (l r : List Str) : Prop := Steps l r ∧ ∀ s ∈ r, ¬ IsDots s

end Spec.Dots
