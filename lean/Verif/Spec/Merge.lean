import Verif.Model.Merge
/-!
# What merging should give (C43, C52, C53)

Only the tables of classes and scalars are shared with the model.
-/

namespace Spec.Merge
open Py Tree _root_.Doc

/-- the number a scalar stands for -/
def num : Atom → Option Rat
  | .bool true => some 1
  | .bool false => some 0
  | .int n => some n
  | .float (.fin q) => some q
  | _ => none

/-- equal in Python: the same, or scalars standing for the same number -/
def Equal (t u : Tree) : Prop :=
  t = u ∨ ∃ a b q, t = .atom a ∧ u = .atom b ∧ num a = some q ∧ num b = some q

/-- `t in l` -/
def In (t : Tree) (l : List Tree) : Prop := ∃ u ∈ l, Equal t u

/-- all scalars -/
def Scalars (l : List Tree) : Prop := ∀ t ∈ l, ∃ a, t = .atom a

/-- `w` has the elements of `l` and `m`; each only once if all are scalars, and else in order -/
def Joined (l m w : List Tree) : Prop :=
  (∀ t, In t w ↔ In t l ∨ In t m) ∧
  (Scalars (l ++ m) → w.Pairwise fun t u => ¬ Equal t u) ∧
  (¬ Scalars (l ++ m) → w = l ++ m)

/-- a copy of a plain value: the same, lists possibly without their duplicates and in another
order -/
def PlainCopy (v w : Tree) : Prop :=
  (∀ l, v = .list l → ∃ m, w = .list m ∧ Joined [] l m) ∧ ((∀ l, v ≠ .list l) → w = v)

/-- `w` is a copy of `v`, of the given kind: objects of the same class with copies of the fields -/
inductive Copy (G : Grammar) : Kind → Tree → Tree → Prop
  | null (k) : Copy G k (.atom .none) (.atom .none)
  | bool (c b) : Copy G (.boolOr c) (.atom (.bool b)) (.atom (.bool b))
  | list (c) (l m : List Tree) (hl : l.length = m.length)
      (h : ∀ (i : Nat) v w, l[i]? = some v → m[i]? = some w → Copy G (.one c) v w) :
      Copy G (.list c) (.list l) (.list m)
  | dict (c) (d e : List (Str × Tree)) (hk : Dict.keys d = Dict.keys e)
      (h : ∀ (i : Nat) n v m w, d[i]? = some (n, v) → e[i]? = some (m, w) → Copy G (.one c) v w) :
      Copy G (.dict c) (.dict d) (.dict e)
  | obj (k : Kind) (c c' : Nat) (fs gs : List (Str × Tree)) (hk : k = .one c ∨ k = .boolOr c)
      (hg : Dict.keys gs = Dict.keys (G c).fields)
      (hall : ∀ n ∈ Dict.keys (G c).fields, ∃ v, Dict.get? fs n = some v)
      (hdef : ∀ n dflt v w, Dict.get? (G c).fields n = some dflt → Dict.get? fs n = some v →
        Dict.get? gs n = some w → isDefault dflt v = true → w = dflt)
      (hplain : ∀ n dflt v w, Dict.get? (G c).fields n = some dflt → Dict.get? fs n = some v →
        Dict.get? gs n = some w → isDefault dflt v = false → Dict.get? (G c).child n = none →
        PlainCopy v w)
      (hchild : ∀ n dflt v w k', Dict.get? (G c).fields n = some dflt → Dict.get? fs n = some v →
        Dict.get? gs n = some w → isDefault dflt v = false → Dict.get? (G c).child n = some k' →
        Copy G k' v w) :
      Copy G k (.obj c' fs) (.obj c gs)

/-- what is false as a condition: null, false, zero, the empty text, the empty list, the empty dict -/
inductive Nothing : Tree → Prop
  | null : Nothing (.atom .none)
  | number (a : Atom) (h : num a = some 0) : Nothing (.atom a)
  | text : Nothing (.atom (.str []))
  | list : Nothing (.list [])
  | dict : Nothing (.dict [])

/-- values that can be joined: a list to a list or nothing, a dict to a dict or nothing -/
def Joins (own v : Tree) : Prop :=
  (∀ l, v = .list l → Nothing own ∨ ∃ m, own = .list m) ∧
  (∀ d, v = .dict d → Nothing own ∨ ∃ e, own = .dict e)

mutual
/-- An object of a class as it is read from a document: all fields are there, objects where
objects are expected, and nothing but a scalar where the default is a non-empty text. -/
def Shaped (G : Grammar) (k : Kind) : Tree → Prop
  | .atom a =>
    match k, a with
    | _, .none => True
    | .boolOr _, .bool _ => True
    | _, _ => False
  | .list l =>
    match k with
    | .list c => ShapedList G c l
    | _ => False
  | .dict d =>
    match k with
    | .dict c => ShapedDict G c d
    | _ => False
  | .obj c' fs =>
    match k with
    | .one c => c' = c ∧ Dict.keys fs = Dict.keys (G c).fields ∧ ShapedFields G (G c) fs
    | .boolOr c => c' = c ∧ Dict.keys fs = Dict.keys (G c).fields ∧ ShapedFields G (G c) fs
    | _ => False
def ShapedList (G : Grammar) (c : Nat) : List Tree → Prop
  | [] => True
  | v :: l => v ≠ .atom .none ∧ Shaped G (.one c) v ∧ ShapedList G c l
def ShapedDict (G : Grammar) (c : Nat) : List (Str × Tree) → Prop
  | [] => True
  | (_, v) :: d => v ≠ .atom .none ∧ Shaped G (.one c) v ∧ ShapedDict G c d
def ShapedFields (G : Grammar) (cls : Cls) : List (Str × Tree) → Prop
  | [] => True
  | (n, v) :: fs =>
    (match Dict.get? cls.child n with
      | none => Joins (defaultOf cls n) v
      | some k => Shaped G k v) ∧ ShapedFields G cls fs
end

end Spec.Merge
