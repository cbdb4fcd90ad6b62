import Verif.Model.Doc
/-!
# What a written document should contain (C42)

Only the tables of classes (`Doc.Grammar`, `Doc.isDefault`) are shared with the model; neither
reading nor writing is mentioned.
-/

namespace Spec.Doc
open Py Tree _root_.Doc

mutual
/-- a plain value without nulls and without empty lists or dicts -/
def Solid : Tree → Prop
  | .atom a => a ≠ .none
  | .list l => l ≠ [] ∧ SolidList l
  | .dict d => d ≠ [] ∧ SolidDict d
  | .obj _ _ => False
def SolidList : List Tree → Prop
  | [] => True
  | t :: l => Solid t ∧ SolidList l
def SolidDict : List (Str × Tree) → Prop
  | [] => True
  | (_, t) :: d => Solid t ∧ SolidDict d
end

/-- an empty list or dict -/
def isEmptyC : Tree → Bool
  | .list [] => true
  | .dict [] => true
  | _ => false

/-- entries in the order of the fields of a class -/
def inOrder (k : Cls) (e : Dict Str Tree) : List (Str × Tree) :=
  k.fields.filterMap fun f => (Dict.get? e f.1).map fun v => (f.1, v)

mutual
/-- The part of a document that has to be kept: the recognised fields with a value other than the
default. -/
def kept (G : Grammar) (k : Kind) : Tree → Tree
  | .atom a => .atom a
  | .list l =>
    match k with
    | .list c => .list (keptList G c l)
    | _ => .list l
  | .dict d =>
    match k with
    | .one c => .dict (inOrder (G c) (keptEntries G (G c) d))
    | .boolOr c => .dict (inOrder (G c) (keptEntries G (G c) d))
    | .dict c => .dict (keptDict G c d)
    | .list _ => .dict d
  | .obj c fs => .obj c fs
/-- the entries of an object -/
def keptEntries (G : Grammar) (cls : Cls) : List (Str × Tree) → List (Str × Tree)
  | [] => []
  | (n, v) :: d =>
    match Dict.get? cls.fields n with
    | none => keptEntries G cls d
    | some dflt =>
      if isDefault dflt v then keptEntries G cls d
      else
        match Dict.get? cls.child n with
        | none => (n, v) :: keptEntries G cls d
        | some k => if isEmptyC v then keptEntries G cls d else (n, kept G k v) :: keptEntries G cls d
def keptList (G : Grammar) (c : Nat) : List Tree → List Tree
  | [] => []
  | v :: l => kept G (.one c) v :: keptList G c l
def keptDict (G : Grammar) (c : Nat) : List (Str × Tree) → List (Str × Tree)
  | [] => []
  | (n, v) :: d => (n, kept G (.one c) v) :: keptDict G c d
end

mutual
/-- The documents for which nothing is lost: objects where objects are expected, each with
something to keep, plain values without nulls and without empty lists or dicts, and no other
spelling of a default (`0` for `false`). -/
def Full (G : Grammar) (k : Kind) : Tree → Prop
  | .atom a =>
    match k, a with
    | .boolOr _, .bool _ => True
    | _, _ => False
  | .list l =>
    match k with
    | .list c => FullList G c l
    | _ => False
  | .dict d =>
    match k with
    | .one c => (Dict.keys d).Nodup ∧ FullEntries G (G c) d ∧ keptEntries G (G c) d ≠ []
    | .boolOr c => (Dict.keys d).Nodup ∧ FullEntries G (G c) d ∧ keptEntries G (G c) d ≠ []
    | .dict c => (Dict.keys d).Nodup ∧ FullDict G c d
    | .list _ => False
  | .obj _ _ => False
def FullEntries (G : Grammar) (cls : Cls) : List (Str × Tree) → Prop
  | [] => True
  | (n, v) :: d =>
    (match Dict.get? cls.fields n with
      | none => True
      | some dflt =>
        match Dict.get? cls.child n with
        | none => v = dflt ∨ (Solid v ∧ isDefault dflt v = false)
        | some k => Full G k v) ∧ FullEntries G cls d
def FullList (G : Grammar) (c : Nat) : List Tree → Prop
  | [] => True
  | v :: l => Full G (.one c) v ∧ FullList G c l
def FullDict (G : Grammar) (c : Nat) : List (Str × Tree) → Prop
  | [] => True
  | (_, v) :: d => Full G (.one c) v ∧ FullDict G c d
end

/-- the default a field with objects may have -/
def okDefault : Kind → Tree → Bool
  | .one _, .atom .none => true
  | .boolOr _, .atom (.bool _) => true
  | .list _, .atom .none => true
  | .list _, .list [] => true
  | .dict _, .atom .none => true
  | .dict _, .dict [] => true
  | _, _ => false

/-- A sensible table: distinct fields, fields with objects are fields, their defaults fit, and every
default is equal to itself. -/
def ClsOk (k : Cls) : Prop :=
  (Dict.keys k.fields).Nodup ∧ (∀ n, n ∈ Dict.keys k.child → n ∈ Dict.keys k.fields) ∧
  (∀ f ∈ k.fields, isDefault f.2 f.2 = true) ∧
  (∀ f ∈ k.fields, ∀ c ∈ Dict.get? k.child f.1, okDefault c f.2 = true)

end Spec.Doc
