import Verif.Py.Int
import Verif.Py.Dict
import Verif.Py.Value
/-! # Differences between two documents (specification side of C45) -/

namespace Spec.Diff
open Py

/-- the name of the Python type of a value -/
def typeName : Val → Str
  | .none => c!"NoneType"
  | .bool _ => c!"bool"
  | .int _ => c!"int"
  | .float _ => c!"float"
  | .str _ => c!"str"
  | .list _ => c!"list"
  | .dict _ => c!"dict"
  | .other _ => c!"object"

/-- how a type is printed -/
def typeText (v : Val) : Str := c!"<class '" ++ typeName v ++ c!"'>"

/-- the value of a number; booleans are numbers -/
inductive Worth : Val → PyFloat → Prop where
  | false : Worth (.bool false) (.fin 0)
  | true : Worth (.bool true) (.fin 1)
  | int (n : Int) : Worth (.int n) (.fin n)
  | float (x) : Worth (.float x) x

/-- scalars that Python holds for equal: numbers of the same value, the same text, `None` -/
inductive Eqv : Val → Val → Prop where
  | num (v w x) : Worth v x → Worth w x → x ≠ .nan → Eqv v w
  | none : Eqv .none .none
  | str (s) : Eqv (.str s) (.str s)
  | other (i) : Eqv (.other i) (.other i)

/-- neither a dict nor a list -/
def Scalar (v : Val) : Prop := typeName v ≠ c!"dict" ∧ typeName v ≠ c!"list"

/-- a boolean or an integer -/
def Integral (v : Val) : Prop := typeName v = c!"bool" ∨ typeName v = c!"int"

/-- elements that may stand in corresponding lists -/
def Alike (v w : Val) : Prop := typeName v = typeName w ∨ Integral v ∧ Integral w

/-- the keys that are looked at -/
def Kept (incl excl : List Str) (k : Str) : Prop := (incl = [] ∨ k ∈ incl) ∧ k ∉ excl

/-- The documents are equal, as far as the kept keys go. -/
inductive Same (incl excl : List Str) : Val → Val → Prop where
  | scalar (v w) : Scalar v → Eqv v w → Same incl excl v w
  | list (l m) : l.length = m.length → (∀ v ∈ l, ∀ w ∈ m, Alike v w) →
      (∀ (i : Nat) v w, l[i]? = some v → m[i]? = some w → Same incl excl v w) →
      Same incl excl (.list l) (.list m)
  | dict (d e) : (∀ k, Kept incl excl k → (k ∈ Dict.keys d ↔ k ∈ Dict.keys e)) →
      (∀ k v w, Kept incl excl k → Dict.get? d k = some v → Dict.get? e k = some w →
        Same incl excl v w) → Same incl excl (.dict d) (.dict e)

/-- The differences between two documents: at the place with the tokens `ts`, described by a pair
of values. -/
inductive Reports (incl excl : List Str) : Val → Val → List Str → Val × Val → Prop where
  | scalar (v w) : Scalar v → ¬ Eqv v w → Reports incl excl v w [] (v, w)
  | notDict (d w) : typeName w ≠ c!"dict" →
      Reports incl excl (.dict d) w [] (.str c!"dict", .str (typeName w))
  | notList (l w) : typeName w ≠ c!"list" →
      Reports incl excl (.list l) w [] (.str c!"list", .str (typeName w))
  | added (d e k) : Kept incl excl k → k ∉ Dict.keys d → k ∈ Dict.keys e →
      Reports incl excl (.dict d) (.dict e) [k] (.none, .none)
  | removed (d e k) : Kept incl excl k → k ∈ Dict.keys d → k ∉ Dict.keys e →
      Reports incl excl (.dict d) (.dict e) [k] (.none, .none)
  | key (d e k v w ts x) : Kept incl excl k → Dict.get? d k = some v → Dict.get? e k = some w →
      Reports incl excl v w ts x → Reports incl excl (.dict d) (.dict e) (k :: ts) x
  | length (l m) : l.length ≠ m.length →
      Reports incl excl (.list l) (.list m) [] (.int l.length, .int m.length)
  | types (v w l m) : l.length = m.length → ¬ Alike v w →
      Reports incl excl (.list (v :: l)) (.list (w :: m)) [] (.str (typeText v), .str (typeText w))
  | item (l m) (i : Nat) (v w ts x) : l.length = m.length → (∀ a ∈ l, ∀ b ∈ m, Alike a b) →
      l[i]? = some v → m[i]? = some w → Reports incl excl v w ts x →
      Reports incl excl (.list l) (.list m) (natStr i :: ts) x

/-- a list whose elements are of more than one type -/
def Mixed (l : List Val) : Prop := ∃ x ∈ l, ∃ y ∈ l, typeName x ≠ typeName y

/-- Two lists are met that cannot be compared: one mixes types, or one cannot be sorted. -/
inductive Trouble (sortable : List Val → Bool) (incl excl : List Str) : Exc → Val → Val → Prop where
  | mixed (l m) : l.length = m.length → Mixed l ∨ Mixed m →
      Trouble sortable incl excl .ValueError (.list l) (.list m)
  | unsorted (l m) : l.length = m.length → l ≠ [] → ¬ Mixed l → ¬ Mixed m →
      (∀ a ∈ l, ∀ b ∈ m, Alike a b) → (∀ a ∈ l, typeName a ≠ c!"dict") →
      sortable l = false ∨ sortable m = false →
      Trouble sortable incl excl .TypeError (.list l) (.list m)
  | item (l m) (i : Nat) (v w e) : l.length = m.length → (∀ a ∈ l, ∀ b ∈ m, Alike a b) →
      l[i]? = some v → m[i]? = some w → Trouble sortable incl excl e v w →
      Trouble sortable incl excl e (.list l) (.list m)
  | key (d e k v w x) : Kept incl excl k → Dict.get? d k = some v → Dict.get? e k = some w →
      Trouble sortable incl excl x v w → Trouble sortable incl excl x (.dict d) (.dict e)

mutual
/-- the keys of every dict are distinct and not empty -/
def Proper : Val → Prop
  | .list l => ProperL l
  | .dict d => (Dict.keys d).Nodup ∧ [] ∉ Dict.keys d ∧ ProperD d
  | _ => True
def ProperL : List Val → Prop
  | [] => True
  | v :: l => Proper v ∧ ProperL l
def ProperD : List (Str × Val) → Prop
  | [] => True
  | (_, v) :: d => Proper v ∧ ProperD d
end

end Spec.Diff
