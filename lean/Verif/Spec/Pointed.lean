import Verif.Model.Doc20
import Verif.Spec.Tree
/-!
# What is written where in a JSON document (C82)

Said about the document as `json.loads` gives it. Shared with the models: the tables of classes.
-/

namespace Spec.Pointed
open Py Tree _root_.Doc Spec.Places

mutual
/-- values of `json.loads`: no objects of the library, the keys of a dict are distinct -/
def Plain : Tree → Prop
  | .atom _ => True
  | .list l => PlainList l
  | .dict d => (d.map Prod.fst).Nodup ∧ PlainDict d
  | .obj _ _ => False
def PlainList : List Tree → Prop
  | [] => True
  | t :: l => Plain t ∧ PlainList l
def PlainDict : List (Str × Tree) → Prop
  | [] => True
  | (_, t) :: d => Plain t ∧ PlainDict d
end

/-- one object of the class `c` is expected, or a truth value in its place -/
def Takes (k : Kind) (c : Nat) : Prop := k = .one c ∨ k = .boolOr c

/-- `Place k j ts k' u`: from the value `j`, read as `k`, the tokens `ts` of a JSON pointer lead to the value `u`, read
as `k'`. -/
inductive Place : Kind → Tree → List Str → Kind → Tree → Prop
  | here {k u} : Place k u [] k u
  | field {k c d n v k' ts k'' u} : Takes k c → Dict.get? d n = some v → Dict.get? (v20 c).child n = some k' →
      Place k' v ts k'' u → Place k (.dict d) (n :: ts) k'' u
  | item {c l i v ts k' u} : l[i]? = some v → Place (.one c) v ts k' u → Place (.list c) (.list l) (natStr i :: ts) k' u
  | key {c d n v ts k' u} : Dict.get? d n = some v → Place (.one c) v ts k' u → Place (.dict c) (.dict d) (n :: ts) k' u

/-- the dict `q` is written at the place `ts` of the document `D`, for an object of the class `c` -/
def Written (D : Tree) (ts : List Str) (c : Nat) (q : Dict Str Tree) : Prop :=
  ∃ k, Takes k c ∧ Place (.one cSwagger) D ts k (.dict q)

/-- a reference to the place `ts` of the document itself: a fragment, or the URL of the document with a fragment -/
def Names (url r : Str) (ts : List Str) : Prop := ts ≠ [] ∧ (r = pointer ts ∨ r = url ++ pointer ts)

/-- `Stands D url c k ts q`: what stands at the place `ts` for an object of the class `c` is the dict `q`, in place or
at the end of `k` references. -/
inductive Stands (D : Tree) (url : Str) (c : Nat) : Nat → List Str → Dict Str Tree → Prop
  | inline {ts q} : Written D ts c q → Dict.get? q c!"$ref" = none → Stands D url c 0 ts q
  | ref {k ts r us q} : Written D ts c [(c!"$ref", .atom (.str r))] → Names url r us → Stands D url c k us q →
      Stands D url c (k + 1) ts q

/-- the places of the elements of a list, written under the name `n` in the dict `q` at the place `ts` -/
def elements (ts : List Str) (n : Str) (q : Dict Str Tree) : List (List Str) :=
  match Dict.get? q n with
  | some (.list l) => (List.range l.length).map fun i => ts ++ [n, natStr i]
  | _ => []

/-- the places of the values of a dict, written under the name `n` in the dict `q` at the place `ts` -/
def named (ts : List Str) (n : Str) (q : Dict Str Tree) : Dict Str (List Str) :=
  match Dict.get? q n with
  | some (.dict d) => d.map fun e => (e.1, ts ++ [n, e.1])
  | _ => []

/-- A document that speaks about itself only: no nulls for objects, and every reference is a text that names a place
where the same kind of object is written. -/
structure SelfContained (D : Tree) (url : Str) : Prop where
  plain : Plain D
  whole : ∀ ts c, ¬ Place (.one cSwagger) D ts (.one c) (.atom .none)
  refs : ∀ ts c q v, Written D ts c q → Dict.get? (v20 c).fields c!"$ref" ≠ none → Dict.get? q c!"$ref" = some v →
    ∃ r us q', v = .atom (.str r) ∧ Names url r us ∧ Written D us c q'

/-- `collectionFormat` is written with scalars only -/
def Styled (D : Tree) : Prop :=
  ∀ ts c q v, Written D ts c q → Dict.get? (v20 c).fields c!"collectionFormat" ≠ none →
    Dict.get? q c!"collectionFormat" = some v → ∃ a, v = .atom a

end Spec.Pointed
