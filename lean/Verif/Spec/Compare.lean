import Verif.Model.Tree
import Mathlib.Data.List.Forall2
/-! # Equality of documents (specification side of C44) -/

namespace Spec.Same
open Py Tree

/-- scalars of one kind and equal (NaN is not equal to itself) -/
def sameAtom (a b : Atom) : Prop := a = b ∧ a ≠ .float .nan

/-- Two values are equal: scalars are, lists elementwise, dicts have the same keys and equal values,
objects the same class and equal fields. -/
inductive Agree : Tree → Tree → Prop where
  | atom (a b) : sameAtom a b → Agree (.atom a) (.atom b)
  | list (l m) : l.length = m.length →
      (∀ (i : Nat) v w, l[i]? = some v → m[i]? = some w → Agree v w) → Agree (.list l) (.list m)
  | dict (d e) : (∀ k, k ∈ Dict.keys d ↔ k ∈ Dict.keys e) →
      (∀ k v w, Dict.get? d k = some v → Dict.get? e k = some w → Agree v w) → Agree (.dict d) (.dict e)
  | obj (c fs gs) : (∀ k v w, Dict.get? fs k = some v → Dict.get? gs k = some w → Agree v w) →
      Agree (.obj c fs) (.obj c gs)

/-- As `Agree`, but a list on the right may be longer: `s` is found again in `o`. -/
inductive Covers : Tree → Tree → Prop where
  | atom (a b) : sameAtom a b → Covers (.atom a) (.atom b)
  | list (l m) : l.length ≤ m.length →
      (∀ (i : Nat) v w, l[i]? = some v → m[i]? = some w → Covers v w) → Covers (.list l) (.list m)
  | dict (d e) : (∀ k, k ∈ Dict.keys d ↔ k ∈ Dict.keys e) →
      (∀ k v w, Dict.get? d k = some v → Dict.get? e k = some w → Covers v w) → Covers (.dict d) (.dict e)
  | obj (c fs gs) : (∀ k v w, Dict.get? fs k = some v → Dict.get? gs k = some w → Covers v w) →
      Covers (.obj c fs) (.obj c gs)

/-- values of different kinds: scalar against container, objects of different classes, unequal
scalars -/
def Unlike : Tree → Tree → Prop
  | .atom a, .atom b => ¬ sameAtom a b
  | .list _, .list _ => False
  | .dict _, .dict _ => False
  | .obj c _, .obj c' _ => c ≠ c'
  | _, _ => True

/-- The two documents differ at the place `ts`: there is an unlike pair of values, or a key that one
of the two dicts lacks. -/
inductive Differ : Tree → Tree → List Str → Prop where
  | here (s o) : Unlike s o → Differ s o []
  | left (d e k) : k ∈ Dict.keys d → k ∉ Dict.keys e → Differ (.dict d) (.dict e) [k]
  | right (d e k) : k ∉ Dict.keys d → k ∈ Dict.keys e → Differ (.dict d) (.dict e) [k]
  | item (l m) (i : Nat) (v w ts) : l[i]? = some v → m[i]? = some w → Differ v w ts →
      Differ (.list l) (.list m) (natStr i :: ts)
  | key (d e k v w ts) : Dict.get? d k = some v → Dict.get? e k = some w → Differ v w ts →
      Differ (.dict d) (.dict e) (k :: ts)
  | field (c fs gs k v w ts) : Dict.get? fs k = some v → Dict.get? gs k = some w → Differ v w ts →
      Differ (.obj c fs) (.obj c gs) (k :: ts)

/-- A list in `s` is longer than its counterpart in `o`. -/
inductive Shorter : Tree → Tree → Prop where
  | here (l m) : m.length < l.length → Shorter (.list l) (.list m)
  | item (l m) (i : Nat) (v w) : l[i]? = some v → m[i]? = some w → Shorter v w → Shorter (.list l) (.list m)
  | key (d e k v w) : Dict.get? d k = some v → Dict.get? e k = some w → Shorter v w →
      Shorter (.dict d) (.dict e)
  | field (c fs gs k v w) : Dict.get? fs k = some v → Dict.get? gs k = some w → Shorter v w →
      Shorter (.obj c fs) (.obj c gs)

mutual
/-- objects of one class have the same fields, all the way down -/
def Typed (fields : Nat → List Str) : Tree → Prop
  | .atom _ => True
  | .list l => TypedL fields l
  | .dict d => TypedD fields d
  | .obj c fs => Dict.keys fs = fields c ∧ TypedD fields fs
def TypedL (fields : Nat → List Str) : List Tree → Prop
  | [] => True
  | t :: l => Typed fields t ∧ TypedL fields l
def TypedD (fields : Nat → List Str) : List (Str × Tree) → Prop
  | [] => True
  | (_, t) :: d => Typed fields t ∧ TypedD fields d
end

end Spec.Same
