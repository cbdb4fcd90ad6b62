import Verif.Model.Parent
/-!
# What it means that parents are right

Over values with identities (`Parent.LTree`); none of the functions of the model is used.
-/

namespace Spec.Parents
open Py Doc Parent

mutual
/-- the objects a value holds itself, directly or in lists and dicts -/
def held : LTree → List Nat
  | .plain _ => []
  | .list l => heldL l
  | .dict d => heldD d
  | .obj i _ _ => [i]
def heldL : List LTree → List Nat
  | [] => []
  | v :: l => held v ++ heldL l
def heldD : List (Str × LTree) → List Nat
  | [] => []
  | (_, v) :: d => held v ++ heldD d
end

mutual
/-- all objects of a value -/
def objects : LTree → List Item
  | .plain _ => []
  | .list l => objectsL l
  | .dict d => objectsD d
  | .obj i c fs => ⟨i, c, fs⟩ :: objectsD fs
def objectsL : List LTree → List Item
  | [] => []
  | v :: l => objects v ++ objectsL l
def objectsD : List (Str × LTree) → List Item
  | [] => []
  | (_, v) :: d => objects v ++ objectsD d
end

/-- the objects of a value, by identity -/
def ids (t : LTree) : List Nat := (objects t).map Item.id

/-- Every object held by a field of an object has it as its parent. -/
def Right (parent : Nat → Option Nat) (t : LTree) : Prop :=
  ∀ o ∈ objects t, ∀ j ∈ heldD o.fields, parent j = some o.id

/-- what a field with objects of a kind may hold: nothing, or objects of the class -/
inductive Fits : Kind → LTree → Prop
  | none (k) : Fits k (.plain (.atom .none))
  | one (c i fs) : Fits (.one c) (.obj i c fs)
  | bool (c b) : Fits (.boolOr c) (.plain (.atom (.bool b)))
  | boolOr (c i fs) : Fits (.boolOr c) (.obj i c fs)
  | emptyList (c) : Fits (.list c) (.plain (.list []))
  | list (c l) : (∀ v ∈ l, ∃ i fs, v = .obj i c fs) → Fits (.list c) (.list l)
  | emptyDict (c) : Fits (.dict c) (.plain (.dict []))
  | dict (c d) : (∀ e ∈ d, ∃ i fs, e.2 = .obj i c fs) → Fits (.dict c) (.dict d)

/-- An object has the fields of its class; those for objects hold such objects, the others none. -/
def ShapedItem (G : Grammar) (o : Item) : Prop :=
  o.fields.map Prod.fst = (G o.cls).fields.map Prod.fst ∧
  ∀ e ∈ o.fields,
    match Dict.get? (G o.cls).child e.1 with
    | none => ∃ t, e.2 = .plain t
    | some k => Fits k e.2

/-- all objects of a value are as their classes say -/
def Shaped (G : Grammar) (t : LTree) : Prop := ∀ o ∈ objects t, ShapedItem G o

/-- Classes as they are written: no field twice, fields for objects are fields, and hold no object at first. -/
def Sane (G : Grammar) : Prop :=
  ∀ c, ((G c).fields.map Prod.fst).Nodup ∧ ((G c).child.map Prod.fst).Nodup ∧
    (∀ e ∈ (G c).child, e.1 ∈ (G c).fields.map Prod.fst) ∧
    ∀ f ∈ (G c).fields, ∀ k, Dict.get? (G c).child f.1 = some k → Fits k (.plain f.2)

end Spec.Parents
