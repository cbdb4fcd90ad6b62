import Verif.Model.Aggregate
import Verif.Spec.Merge
/-!
# Parts of a schema (C53)
-/

namespace Spec.Aggregate
open Py Tree _root_.Aggregate Spec.Merge

/-- following references from `x` ends at `z` -/
inductive Ends (h : Heap) : Nat → Nat → Prop
  | here {x} : (look h x).ref = none → Ends h x x
  | step {x r z} : (look h x).ref = some r → Ends h r z → Ends h x z

/-- `z` is one of the parts of `y`, directly or through other parts -/
inductive Part (h : Heap) (y : Nat) : Nat → Prop
  | direct {a z} : a ∈ (look h y).allOf → Ends h a z → Part h y z
  | next {w a z} : Part h y w → a ∈ (look h w).allOf → Ends h a z → Part h y z

/-- The schemas of a document after loading and resolving references: nothing is composed or
copied, everything leads to schemas of the document, keys are unique, no value is lost, and
schemas are nested finitely deep. -/
structure Loaded (h : Heap) : Prop where
  pure : ∀ x < h.length, (look h x).origin = x ∧ (look h x).composed = false ∧ (look h x).final = none
  unique : ∀ x < h.length, Dict.WF (look h x).props ∧ Dict.WF (look h x).values
  ref : ∀ x < h.length, ∀ r, (look h x).ref = some r → r < h.length
  items : ∀ x < h.length, ∀ i, (look h x).items = some i → i < h.length
  props : ∀ x < h.length, ∀ n p, (n, p) ∈ (look h x).props → p < h.length
  allOf : ∀ x < h.length, ∀ a ∈ (look h x).allOf, a < h.length
  values : ∀ x < h.length, ∀ n v, Dict.get? (look h x).values n = some v → ∃ t, v = some t ∧
    (∀ c fs, t ≠ .obj c fs) ∧ ∀ d, t = .dict d → Dict.WF d
  nested : ∃ depth : Nat → Nat, ∀ x < h.length,
    (∀ i, (look h x).items = some i → depth i < depth x) ∧
    (∀ n p, (n, p) ∈ (look h x).props → depth p < depth x) ∧
    (∀ a ∈ (look h x).allOf, depth a < depth x)

/-- `y` or one of its parts has the value `t` in the field `n` -/
def Has (h : Heap) (y : Nat) (n : Str) (t : Tree) : Prop :=
  ∃ z, (z = y ∨ Part h y z) ∧ Dict.get? (look h z).values n = some (some t)

/-- both scalars, both lists or both dicts -/
def Alike : Tree → Tree → Prop
  | .atom _, .atom _ | .list _, .list _ | .dict _, .dict _ => True
  | _, _ => False

/-- A value made from those of `y` and its parts: a scalar is one of them, the elements of a list and
the entries of a dict are from lists and dicts among them. The value is lost only if they are
not alike. -/
def Comes (h : Heap) (y : Nat) (n : Str) : Value → Prop
  | none => ∃ t u, Has h y n t ∧ Has h y n u ∧ ¬ Alike t u
  | some (.atom a) => Has h y n (.atom a)
  | some (.list l) => (∃ m, Has h y n (.list m)) ∧ ∀ t, In t l → ∃ m, Has h y n (.list m) ∧ In t m
  | some (.dict d) => Dict.WF d ∧ (∃ e, Has h y n (.dict e)) ∧
      ∀ k t, Dict.get? d k = some t → ∃ e, Has h y n (.dict e) ∧ Dict.get? e k = some t
  | some (.obj _ _) => False

/-- `v` has all elements or keys of `t`, unless it is lost -/
def Covers (v : Value) (t : Tree) : Prop :=
  ∀ u, v = some u →
    (∀ l e, t = .list l → In e l → ∃ m, u = .list m ∧ In e m) ∧
    ∀ d k, t = .dict d → k ∈ Dict.keys d → ∃ e, u = .dict e ∧ k ∈ Dict.keys e

/-- `v` has the own value `t` of `y`, unless it is lost: the same scalar (but an empty one is replaced
by a list or a dict of a part), all elements, all entries -/
def Keeps (h : Heap) (y : Nat) (n : Str) (v : Value) (t : Tree) : Prop :=
  ∀ u, v = some u →
    (∀ a, t = .atom a → u = t ∨ (Nothing t ∧ ∃ w, Has h y n w ∧ ¬ Alike t w)) ∧
    (∀ l e, t = .list l → In e l → ∃ m, u = .list m ∧ In e m) ∧
    ∀ d k w, t = .dict d → Dict.get? d k = some w → ∃ e, u = .dict e ∧ Dict.get? e k = some w

/-- the same value, or a list with the same elements -/
def Like (v w : Value) : Prop :=
  v = w ∨ ∃ l m, v = some (.list l) ∧ w = some (.list m) ∧ ∀ t, In t l ↔ In t m

end Spec.Aggregate
