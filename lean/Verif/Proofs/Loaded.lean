import Verif.Model.Loaded
import Verif.Spec.Pointed
import Verif.Proofs.Doc
import Verif.Proofs.AppResolve
import Verif.Props.C42
import Verif.Props.C10
/-! # Lemmas for C82: one document -/

namespace Proofs.Loaded
open Py Utils Tree _root_.Doc Spec.Places Spec.Pointed _root_.Loaded

/-! ## references made absolute -/

/-- the reference in absolute form; no reference stays none -/
def absolute (url : Str) (r : Str) : Str :=
  if r = [] then []
  else
    match normalize_jr (some r) (some url) with
    | .ok (some s) => s
    | _ => r

/-- a function on references that keeps "no reference" -/
def Keeps (f : Str → Str) : Prop := ∀ r, f r = [] ↔ r = []

def mapRef (f : Str → Str) : Tree → Tree
  | .atom (.str r) => .atom (.str (f r))
  | t => t

mutual
/-- the references of all objects replaced -/
def mapRefs (f : Str → Str) : Tree → Tree
  | .atom a => .atom a
  | .list l => .list (mapList f l)
  | .dict d => .dict (mapDict f d)
  | .obj c fs => .obj c (mapFields f fs)
def mapList (f : Str → Str) : List Tree → List Tree
  | [] => []
  | t :: l => mapRefs f t :: mapList f l
def mapDict (f : Str → Str) : List (Str × Tree) → List (Str × Tree)
  | [] => []
  | (k, t) :: d => (k, mapRefs f t) :: mapDict f d
def mapFields (f : Str → Str) : List (Str × Tree) → List (Str × Tree)
  | [] => []
  | (k, t) :: d => (k, if k = c!"$ref" then mapRef f t else mapRefs f t) :: mapFields f d
end

mutual
/-- every reference is a non-empty text with the property, and objects of other classes have none -/
def Filled (P : Str → Prop) : Tree → Prop
  | .atom _ => True
  | .list l => FilledList P l
  | .dict d => FilledDict P d
  | .obj c fs => FilledFields P (decide (c ∈ refClasses)) fs
def FilledList (P : Str → Prop) : List Tree → Prop
  | [] => True
  | t :: l => Filled P t ∧ FilledList P l
def FilledDict (P : Str → Prop) : List (Str × Tree) → Prop
  | [] => True
  | (_, t) :: d => Filled P t ∧ FilledDict P d
def FilledFields (P : Str → Prop) (mine : Bool) : List (Str × Tree) → Prop
  | [] => True
  | (k, t) :: d => (if k = c!"$ref" then mine = true ∧ (t = .atom .none ∨ ∃ r, r ≠ [] ∧ P r ∧ t = .atom (.str r))
      else Filled P t) ∧ FilledFields P mine d
end

variable {P : Str → Prop}

theorem filledList_iff {l : List Tree} : FilledList P l ↔ ∀ t ∈ l, Filled P t := by
  induction l with
  | nil => simp [FilledList]
  | cons t l ih => simp [FilledList, ih]

theorem filledDict_iff {l : List (Str × Tree)} : FilledDict P l ↔ ∀ x ∈ l, Filled P x.2 := by
  induction l with
  | nil => simp [FilledDict]
  | cons x l ih => obtain ⟨k, t⟩ := x; rw [FilledDict, ih]; simp

theorem filledFields_iff {mine : Bool} {l : List (Str × Tree)} : FilledFields P mine l ↔ ∀ x ∈ l,
    (x.1 = c!"$ref" → mine = true ∧ (x.2 = .atom .none ∨ ∃ r, r ≠ [] ∧ P r ∧ x.2 = .atom (.str r))) ∧
    (x.1 ≠ c!"$ref" → Filled P x.2) := by
  induction l with
  | nil => simp [FilledFields]
  | cons x l ih =>
    obtain ⟨k, t⟩ := x
    rw [FilledFields, ih]
    simp only [List.mem_cons, forall_eq_or_imp]
    by_cases hk : k = c!"$ref"
    · simp [hk]
    · simp [hk]

theorem refField_eq {url : Str} (hu : url ≠ []) {t : Tree}
    (hf : t = .atom .none ∨ ∃ r, r ≠ [] ∧ P r ∧ t = .atom (.str r)) : refField url t = some (mapRef (absolute url) t) := by
  rcases hf with rfl | ⟨r, hr, -, rfl⟩
  · rfl
  · obtain ⟨r', h1, h2⟩ := Props.C10.C10_total (some r) hu
    cases r' with
    | none => exact absurd (h2.1 rfl) (by simp)
    | some s => simp only [refField, h1, mapRef, absolute, if_neg hr]

mutual
theorem normalize_eq {url : Str} (hu : url ≠ []) : ∀ t : Tree, Filled P t →
    normalizeRefs url t = some (mapRefs (absolute url) t)
  | .atom a, _ => rfl
  | .list l, hf => by rw [Filled] at hf; rw [normalizeRefs, normalizeList_eq hu l hf]; rfl
  | .dict d, hf => by rw [Filled] at hf; rw [normalizeRefs, normalizeDict_eq hu d hf]; rfl
  | .obj c fs, hf => by rw [Filled] at hf; rw [normalizeRefs, normalizeFields_eq hu fs hf]; rfl
theorem normalizeList_eq {url : Str} (hu : url ≠ []) : ∀ l : List Tree, FilledList P l →
    normalizeList url l = some (mapList (absolute url) l)
  | [], _ => rfl
  | t :: l, hf => by
    rw [FilledList] at hf
    rw [normalizeList, normalize_eq hu t hf.1, normalizeList_eq hu l hf.2]; rfl
theorem normalizeDict_eq {url : Str} (hu : url ≠ []) : ∀ l : List (Str × Tree), FilledDict P l →
    normalizeDict url l = some (mapDict (absolute url) l)
  | [], _ => rfl
  | (k, t) :: l, hf => by
    rw [FilledDict] at hf
    rw [normalizeDict, normalize_eq hu t hf.1, normalizeDict_eq hu l hf.2]; rfl
theorem normalizeFields_eq {url : Str} (hu : url ≠ []) {mine : Bool} : ∀ l : List (Str × Tree), FilledFields P mine l →
    normalizeFields url mine l = some (mapFields (absolute url) l)
  | [], _ => rfl
  | (k, t) :: l, hf => by
    rw [FilledFields] at hf
    rw [normalizeFields, normalizeFields_eq hu l hf.2, mapFields]
    obtain ⟨hf, -⟩ := hf
    by_cases hk : k = c!"$ref"
    · rw [if_pos hk] at hf
      rw [if_pos (by simp [hf.1, hk]), refField_eq hu hf.2, if_pos hk]
    · rw [if_neg hk] at hf
      rw [if_neg (by simp [hk]), normalize_eq hu t hf, if_neg hk]
end

mutual
theorem fixed_of_filled {g : Str → Str} (hg : ∀ r, P r → g r = r) : ∀ t : Tree, Filled P t → mapRefs g t = t
  | .atom a, _ => rfl
  | .list l, hf => by rw [Filled] at hf; rw [mapRefs, fixed_list hg l hf]
  | .dict d, hf => by rw [Filled] at hf; rw [mapRefs, fixed_dict hg d hf]
  | .obj c fs, hf => by rw [Filled] at hf; rw [mapRefs, fixed_fields hg fs hf]
theorem fixed_list {g : Str → Str} (hg : ∀ r, P r → g r = r) : ∀ l : List Tree, FilledList P l → mapList g l = l
  | [], _ => rfl
  | t :: l, hf => by rw [FilledList] at hf; rw [mapList, fixed_of_filled hg t hf.1, fixed_list hg l hf.2]
theorem fixed_dict {g : Str → Str} (hg : ∀ r, P r → g r = r) : ∀ l : List (Str × Tree), FilledDict P l → mapDict g l = l
  | [], _ => rfl
  | (k, t) :: l, hf => by rw [FilledDict] at hf; rw [mapDict, fixed_of_filled hg t hf.1, fixed_dict hg l hf.2]
theorem fixed_fields {g : Str → Str} (hg : ∀ r, P r → g r = r) {mine : Bool} : ∀ l : List (Str × Tree),
    FilledFields P mine l → mapFields g l = l
  | [], _ => rfl
  | (k, t) :: l, hf => by
    rw [FilledFields] at hf
    rw [mapFields, fixed_fields hg l hf.2]
    obtain ⟨hf, -⟩ := hf
    by_cases hk : k = c!"$ref"
    · rw [if_pos hk] at hf ⊢
      rcases hf.2 with rfl | ⟨r, -, hr, rfl⟩
      · rfl
      · rw [mapRef, hg r hr]
    · rw [if_neg hk] at hf ⊢
      rw [fixed_of_filled hg t hf]
end

theorem absolute_keeps {url : Str} (hu : (urlparse url).scheme ≠ []) (hh : '#' ∉ url) : Keeps (absolute url) := by
  intro r
  unfold absolute
  constructor
  · intro h
    by_cases hr : r = []
    · exact hr
    · rw [if_neg hr] at h
      split at h
      · next s hs =>
        subst h
        have := (Props.C10.C10_idempotent hu hh hs).1
        exact absurd (by decide) this
      · exact h
  · intro h; rw [if_pos h]

/-! ## replacing references and merging -/

section
variable {f : Str → Str}

theorem mapDict_eq (d : List (Str × Tree)) : mapDict f d = d.map fun kv => (kv.1, mapRefs f kv.2) := by
  induction d with
  | nil => rfl
  | cons x d ih => obtain ⟨k, t⟩ := x; rw [mapDict, ih]; rfl

theorem mapList_eq (l : List Tree) : mapList f l = l.map (mapRefs f) := by
  induction l with
  | nil => rfl
  | cons x d ih => rw [mapList, ih]; rfl

theorem mapFields_eq (d : List (Str × Tree)) : mapFields f d =
    d.map fun kv => (kv.1, if kv.1 = c!"$ref" then mapRef f kv.2 else mapRefs f kv.2) := by
  induction d with
  | nil => rfl
  | cons x d ih => obtain ⟨k, t⟩ := x; rw [mapFields, ih]; rfl

theorem get_map (g : Str → Tree → Tree) (d : List (Str × Tree)) (n : Str) :
    Dict.get? (d.map fun kv => (kv.1, g kv.1 kv.2)) n = (Dict.get? d n).map (g n) := by
  induction d with
  | nil => rfl
  | cons x d ih =>
    obtain ⟨k, t⟩ := x
    by_cases h : k = n
    · subst h; simp [Dict.get?]
    · simpa [Dict.get?, h] using ih

/-- the replaced value of a field -/
def mapField (f : Str → Str) (n : Str) (t : Tree) : Tree := if n = c!"$ref" then mapRef f t else mapRefs f t

theorem get_mapFields (d : List (Str × Tree)) (n : Str) :
    Dict.get? (mapFields f d) n = (Dict.get? d n).map (mapField f n) := by
  rw [mapFields_eq]; exact get_map (mapField f) d n

theorem get_mapDict (d : List (Str × Tree)) (n : Str) :
    Dict.get? (mapDict f d) n = (Dict.get? d n).map (mapRefs f) := by
  rw [mapDict_eq]; exact get_map (fun _ => mapRefs f) d n

theorem isDefault_map (dflt v : Tree) : isDefault dflt (mapRefs f v) = isDefault dflt v := by
  cases v with
  | atom a => rw [mapRefs]
  | list l =>
    cases l with
    | nil => simp [mapRefs, mapList]
    | cons x l => rw [mapRefs, mapList]; cases dflt with
      | list m => cases m <;> rfl
      | atom a => cases a <;> rfl
      | dict m => cases m <;> rfl
      | obj => rfl
  | dict l =>
    cases l with
    | nil => simp [mapRefs, mapDict]
    | cons x l => obtain ⟨k, t⟩ := x; rw [mapRefs, mapDict]; cases dflt with
      | list m => cases m <;> rfl
      | atom a => cases a <;> rfl
      | dict m => cases m <;> rfl
      | obj => rfl
  | obj c fs => rw [mapRefs]; cases dflt with
      | list m => cases m <;> rfl
      | atom a => cases a <;> rfl
      | dict m => cases m <;> rfl
      | obj => rfl

theorem falsy_map (v : Tree) : falsy (mapRefs f v) = falsy v := by
  cases v with
  | atom a => rw [mapRefs]
  | list l => cases l <;> rfl
  | dict l => cases l with
    | nil => rfl
    | cons x l => obtain ⟨k, t⟩ := x; rfl
  | obj c fs => rfl

theorem isNull_map (v : Tree) : isNull (mapRefs f v) = isNull v := by
  cases v with
  | atom a => rw [mapRefs]
  | _ => rfl

theorem atoms_map (l : List Tree) : atoms (mapList f l) = atoms l := by
  induction l with
  | nil => rfl
  | cons x l ih => cases x <;> simp [mapList, mapRefs, atoms, ih]

theorem mapList_append (l m : List Tree) : mapList f (l ++ m) = mapList f l ++ mapList f m := by
  simp [mapList_eq]

theorem mapList_atoms (l : List Atom) : mapList f (l.map .atom) = l.map .atom := by
  induction l with
  | nil => rfl
  | cons x l ih => simp [mapList, mapRefs, ih]

theorem joinLists_map (order : List Atom → List Atom) (own : Tree) (l : List Tree) :
    joinLists order (mapRefs f own) (mapList f l) = (joinLists order own l).map (mapRefs f) := by
  have other : ∀ own : Tree, (∀ m, own ≠ .list m) → joinLists order (mapRefs f own) (mapList f l) =
      (joinLists order own l).map (mapRefs f) := by
    intro own hown
    have e1 : ∀ t : Tree, (∀ m, t ≠ .list m) → ∀ l, joinLists order t l = if falsy t then
        match atoms l with
        | some as => some (.list ((order (distinct as)).map .atom))
        | none => some (.list l) else none := by
      intro t ht l
      cases t with
      | list m => exact absurd rfl (ht m)
      | _ => rfl
    rw [e1 own hown, e1 (mapRefs f own) (by
      intro m hm
      cases own with
      | list l => exact hown _ rfl
      | _ => rw [mapRefs] at hm; cases hm), falsy_map, atoms_map]
    by_cases hf : falsy own = true
    · rw [if_pos hf, if_pos hf]
      cases atoms l with
      | none => simp [mapRefs]
      | some as => simp [mapRefs, mapList_atoms]
    · rw [if_neg hf, if_neg hf]; rfl
  cases own with
  | list m =>
    rw [mapRefs, joinLists, joinLists, ← mapList_append, atoms_map]
    cases atoms (m ++ l) with
    | none => simp [mapRefs]
    | some as => simp [mapRefs, mapList_atoms]
  | _ => exact other _ (fun _ => nofun)

theorem set_map (g : Tree → Tree) (d : Dict Str Tree) (n : Str) (t : Tree) :
    Dict.set (d.map fun kv => (kv.1, g kv.2)) n (g t) = (Dict.set d n t).map fun kv => (kv.1, g kv.2) := by
  induction d with
  | nil => rfl
  | cons x d ih =>
    obtain ⟨k, v⟩ := x
    rw [List.map_cons, Dict.set, Dict.set]
    split
    · rfl
    · rw [ih]; rfl

theorem update_map (g : Tree → Tree) (e : Dict Str Tree) : ∀ d : Dict Str Tree,
    Dict.update (d.map fun kv => (kv.1, g kv.2)) (e.map fun kv => (kv.1, g kv.2)) =
      (Dict.update d e).map fun kv => (kv.1, g kv.2) := by
  induction e with
  | nil => intro d; rfl
  | cons x e ih =>
    intro d
    obtain ⟨k, v⟩ := x
    have := ih (Dict.set d k v)
    simp only [Dict.update, List.map_cons, List.foldl_cons] at this ⊢
    rw [← this, set_map]

theorem joinDicts_map (own : Tree) (d : List (Str × Tree)) :
    joinDicts (mapRefs f own) (mapDict f d) = (joinDicts own d).map (mapRefs f) := by
  have e1 : ∀ t : Tree, (∀ m, t ≠ .dict m) → ∀ l, joinDicts t l = if falsy t then some (.dict l) else none := by
    intro t ht l
    cases t with
    | dict m => exact absurd rfl (ht m)
    | _ => rfl
  have other : ∀ own : Tree, (∀ m, own ≠ .dict m) → joinDicts (mapRefs f own) (mapDict f d) =
      (joinDicts own d).map (mapRefs f) := by
    intro own hown
    rw [e1 own hown, e1 (mapRefs f own) (by
      intro m hm
      cases own with
      | dict l => exact hown _ rfl
      | _ => rw [mapRefs] at hm; cases hm), falsy_map]
    split
    · simp [mapRefs]
    · rfl
  cases own with
  | dict e =>
    rw [mapRefs, joinDicts, joinDicts, mapDict_eq, mapDict_eq, update_map (mapRefs f), Option.map_some, mapRefs, mapDict_eq]
  | _ => exact other _ (fun _ => nofun)

/-- merging one field other than a reference -/
theorem mergeField_map (order : List Atom → List Atom) (dflt : Tree) (ch : Bool) (own v : Tree) (cp : Option Tree) :
    mergeField order dflt ch (mapRefs f own) (mapRefs f v) (cp.map (mapRefs f)) =
      (mergeField order dflt ch own v cp).map (mapRefs f) := by
  unfold mergeField
  rw [isDefault_map, isDefault_map]
  by_cases h1 : isDefault dflt v = true
  · rw [if_pos h1, if_pos h1]; rfl
  rw [if_neg h1, if_neg h1]
  cases ch with
  | true =>
    rw [if_pos rfl, if_pos rfl]
    split <;> rfl
  | false =>
    rw [if_neg (by decide), if_neg (by decide)]
    cases v with
    | list l => exact joinLists_map order own l
    | dict d => exact joinDicts_map own d
    | atom a => simp only [mapRefs]; split <;> rfl
    | obj c fs => simp only [mapRefs]; split <;> rfl

theorem mapRef_default (t : Tree) : isDefault nul (mapRef f t) = isDefault nul t := by
  cases t with
  | atom a => cases a <;> rfl
  | _ => rfl

theorem mapRef_falsy (hf : Keeps f) (t : Tree) : falsy (mapRef f t) = falsy t := by
  cases t with
  | atom a =>
    cases a with
    | str s =>
      have := hf s
      cases s with
      | nil => simp [mapRef, falsy, this.2 rfl]
      | cons c s =>
        cases h : f (c :: s) with
        | nil => exact absurd (this.1 h) (by simp)
        | cons => simp [mapRef, falsy, h]
    | _ => rfl
  | _ => rfl

/-- merging the field of references -/
theorem mergeField_ref (hf : Keeps f) (order : List Atom → List Atom) (own v : Tree) (cp : Option Tree) :
    mergeField order nul false (mapRef f own) (mapRef f v) cp = (mergeField order nul false own v cp).map (mapRef f) := by
  unfold mergeField
  rw [mapRef_default, mapRef_default]
  by_cases h1 : isDefault nul v = true
  · rw [if_pos h1, if_pos h1]; rfl
  rw [if_neg h1, if_neg h1, if_neg (by decide), if_neg (by decide)]
  cases v with
  | list l =>
    simp only [mapRef]
    cases own with
    | list m =>
      simp only [mapRef, joinLists]
      cases atoms (m ++ l) <;> rfl
    | atom a =>
      cases a with
      | str s =>
        have := mapRef_falsy hf (.atom (.str s))
        simp only [mapRef] at this
        simp only [mapRef, joinLists, this]
        split
        · cases atoms l <;> rfl
        · rfl
      | _ => simp only [mapRef, joinLists]; first | rfl | (split <;> first | rfl | (cases atoms l <;> rfl))
    | dict m => simp only [mapRef, joinLists]; split <;> first | rfl | (cases atoms l <;> rfl)
    | obj c m => simp only [mapRef, joinLists]; split <;> first | rfl | (cases atoms l <;> rfl)
  | dict l =>
    simp only [mapRef]
    cases own with
    | list m => simp only [mapRef, joinDicts]; split <;> rfl
    | atom a =>
      cases a with
      | str s =>
        have := mapRef_falsy hf (.atom (.str s))
        simp only [mapRef] at this
        simp only [mapRef, joinDicts, this]
        split <;> rfl
      | _ => simp only [mapRef, joinDicts]; split <;> rfl
    | dict m => simp only [mapRef, joinDicts]; rfl
    | obj c m => simp only [mapRef, joinDicts]; split <;> rfl
  | atom a =>
    cases a <;> (simp only [mapRef]; split <;> rfl)
  | obj c m => simp only [mapRef]; split <;> rfl

/-- a field of a class: its default has no references, and the field of references is a plain one -/
theorem grammar_refs (c : Nat) : (∀ n dflt, Dict.get? (v20 c).fields n = some dflt → mapRefs f dflt = dflt) ∧
    (∀ dflt, Dict.get? (v20 c).fields c!"$ref" = some dflt → dflt = nul ∧ c ∈ refClasses) ∧
    Dict.get? (v20 c).child c!"$ref" = none := by
  have key : ∀ c < 15, ((v20 c).fields.all fun x => match x.2 with
          | .atom _ => true
          | .list [] => true
          | .dict [] => true
          | _ => false) = true ∧
      (∀ dflt, Dict.get? (v20 c).fields c!"$ref" = some dflt → dflt = nul ∧ c ∈ refClasses) ∧
      Dict.get? (v20 c).child c!"$ref" = none := by
    intro c hc
    rcases (by omega : c = 0 ∨ c = 1 ∨ c = 2 ∨ c = 3 ∨ c = 4 ∨ c = 5 ∨ c = 6 ∨ c = 7 ∨ c = 8 ∨ c = 9 ∨ c = 10 ∨ c = 11 ∨
      c = 12 ∨ c = 13 ∨ c = 14) with rfl | rfl | rfl | rfl | rfl | rfl | rfl | rfl | rfl | rfl | rfl | rfl | rfl | rfl | rfl <;>
    refine ⟨rfl, fun dflt h => ?_, rfl⟩ <;> cases h <;> exact ⟨rfl, by decide⟩
  by_cases hc : c < 15
  · obtain ⟨h1, h2, h3⟩ := key c hc
    refine ⟨fun n dflt hf => ?_, h2, h3⟩
    have := List.all_eq_true.1 h1 _ (Dict.mem_of_get? hf)
    dsimp only at this
    split at this
    · rfl
    · rfl
    · rfl
    · cases this
  · have : v20 c = ⟨[], []⟩ := by
      unfold v20
      rw [List.getD_eq_getElem?_getD, List.getElem?_eq_none (by simp [classes]; omega)]
      rfl
    rw [this]
    exact ⟨fun _ _ h => (by cases h), fun _ h => (by cases h), rfl⟩

/-- merging one field of a class -/
theorem mergeField_any (hf : Keeps f) (order : List Atom → List Atom) {c : Nat} {n : Str} {dflt : Tree}
    (hd : Dict.get? (v20 c).fields n = some dflt) (own v : Tree) (cp : Option Tree) :
    mergeField order dflt (Dict.get? (v20 c).child n).isSome (mapField f n own) (mapField f n v) (cp.map (mapRefs f)) =
      (mergeField order dflt (Dict.get? (v20 c).child n).isSome own v cp).map (mapField f n) := by
  by_cases hn : n = c!"$ref"
  · subst hn
    obtain ⟨-, h2, h3⟩ := grammar_refs (f := f) c
    obtain ⟨rfl, -⟩ := h2 _ hd
    have e : mapField f c!"$ref" = mapRef f := by funext t; simp [mapField]
    rw [h3, e]
    have hcp : ∀ a b, mergeField order nul false a b (cp.map (mapRefs f)) = mergeField order nul false a b cp := by
      intro a b; unfold mergeField; rfl
    rw [Option.isSome_none, hcp, mergeField_ref hf]
  · have e : mapField f n = mapRefs f := by funext t; simp [mapField, hn]
    rw [e, mergeField_map]

theorem mapFields_cons (n : Str) (t : Tree) (d : List (Str × Tree)) :
    mapFields f ((n, t) :: d) = (n, mapField f n t) :: mapFields f d := by rw [mapFields, mapField]

theorem defaultOf_get {c : Nat} {n : Str} {dflt : Tree} (hd : Dict.get? (v20 c).fields n = some dflt) :
    defaultOf (v20 c) n = dflt := by rw [defaultOf, hd]; rfl

theorem default_field {c : Nat} {n : Str} {dflt : Tree} (hd : Dict.get? (v20 c).fields n = some dflt) :
    mapField f n dflt = dflt := by
  obtain ⟨h1, h2, -⟩ := grammar_refs (f := f) c
  unfold mapField
  split
  · next e => subst e; rw [(h2 _ hd).1]; rfl
  · exact h1 n dflt hd

theorem pick_map (fields : List (Str × Tree)) (e : Dict Str Tree) :
    pick fields (mapFields f e) = (pick fields e).map (mapFields f) := by
  induction fields with
  | nil => rfl
  | cons x fields ih =>
    obtain ⟨n, d⟩ := x
    rw [pick, pick, ih, get_mapFields]
    cases Dict.get? e n with
    | none => rfl
    | some v =>
      cases pick fields e with
      | none => rfl
      | some r => rfl

mutual
theorem copyAs_map (hf : Keeps f) (order : List Atom → List Atom) : ∀ (t : Tree) (k : Kind),
    copyAs v20 order k (mapRefs f t) = (copyAs v20 order k t).map (mapRefs f)
  | .atom a, k => by
    rw [mapRefs, copyAs]
    cases k <;> cases a <;> rfl
  | .list l, k => by
    rw [mapRefs, copyAs.eq_def, copyAs.eq_def]
    cases k with
    | list c =>
      dsimp only
      rw [copyList_map hf order l c]
      cases copyList v20 order c l <;> rfl
    | _ => rfl
  | .dict d, k => by
    rw [mapRefs, copyAs.eq_def, copyAs.eq_def]
    cases k with
    | dict c =>
      dsimp only
      rw [copyDict_map hf order d c]
      cases copyDict v20 order c d <;> rfl
    | _ => rfl
  | .obj c' os, k => by
    rw [mapRefs, copyAs.eq_def, copyAs.eq_def]
    cases k with
    | one c =>
      dsimp only
      rw [copyFields_map hf order os c]
      cases copyFields v20 order (v20 c) os with
      | none => rfl
      | some e =>
        rw [Option.map_some, Option.bind_some, Option.bind_some, pick_map]
        cases pick (v20 c).fields e <;> rfl
    | boolOr c =>
      dsimp only
      rw [copyFields_map hf order os c]
      cases copyFields v20 order (v20 c) os with
      | none => rfl
      | some e =>
        rw [Option.map_some, Option.bind_some, Option.bind_some, pick_map]
        cases pick (v20 c).fields e <;> rfl
    | _ => rfl
theorem copyList_map (hf : Keeps f) (order : List Atom → List Atom) : ∀ (l : List Tree) (c : Nat),
    copyList v20 order c (mapList f l) = (copyList v20 order c l).map (mapList f)
  | [], c => rfl
  | t :: l, c => by
    rw [mapList, copyList, copyList, isNull_map, copyAs_map hf order t, copyList_map hf order l]
    split
    · rfl
    · cases copyAs v20 order (.one c) t <;> cases copyList v20 order c l <;> rfl
theorem copyDict_map (hf : Keeps f) (order : List Atom → List Atom) : ∀ (l : List (Str × Tree)) (c : Nat),
    copyDict v20 order c (mapDict f l) = (copyDict v20 order c l).map (mapDict f)
  | [], c => rfl
  | (n, t) :: l, c => by
    rw [mapDict, copyDict, copyDict, isNull_map, copyAs_map hf order t, copyDict_map hf order l]
    split
    · rfl
    · cases copyAs v20 order (.one c) t <;> cases copyDict v20 order c l <;> rfl
theorem copyFields_map (hf : Keeps f) (order : List Atom → List Atom) : ∀ (l : List (Str × Tree)) (c : Nat),
    copyFields v20 order (v20 c) (mapFields f l) = (copyFields v20 order (v20 c) l).map (mapFields f)
  | [], c => rfl
  | (n, t) :: l, c => by
    rw [mapFields_cons, copyFields, copyFields, copyFields_map hf order l]
    cases copyFields v20 order (v20 c) l with
    | none => rfl
    | some rest =>
      rw [Option.map_some]
      dsimp only
      cases hd : Dict.get? (v20 c).fields n with
      | none => rfl
      | some dflt =>
        rw [if_neg (by simp), if_neg (by simp), defaultOf_get hd]
        have key := fun cp => mergeField_any hf order hd dflt t cp
        rw [default_field hd] at key
        cases hc : Dict.get? (v20 c).child n with
        | none =>
          dsimp only
          have := key none
          rw [hc, Option.isSome_none, Option.map_none] at this
          rw [this]
          cases mergeField order dflt false dflt t none with
          | none => rfl
          | some w => rw [Option.map_some]; dsimp only; rw [Option.map_some, mapFields_cons]
        | some k =>
          dsimp only
          have hn : n ≠ c!"$ref" := by
            rintro rfl
            rw [(grammar_refs (f := f) c).2.2] at hc; cases hc
          have := key (copyAs v20 order k t)
          rw [hc, Option.isSome_some] at this
          rw [show mapField f n t = mapRefs f t from if_neg hn] at this ⊢
          rw [copyAs_map hf order t k, this]
          cases mergeField order dflt true dflt t (copyAs v20 order k t) with
          | none => rfl
          | some w => rw [Option.map_some]; dsimp only; rw [Option.map_some, mapFields_cons]
end

theorem mergeFields_map (hf : Keeps f) (order : List Atom → List Atom) (c : Nat) (os : List (Str × Tree)) :
    ∀ fs : List (Str × Tree), (∀ n ∈ Dict.keys fs, Dict.get? (v20 c).fields n ≠ none) →
    mergeFields v20 order [] (v20 c) (mapFields f os) (mapFields f fs) =
      (mergeFields v20 order [] (v20 c) os fs).map (mapFields f)
  | [], _ => rfl
  | (n, own) :: fs, hk => by
    rw [mapFields_cons, mergeFields, mergeFields, mergeFields_map hf order c os fs (fun m hm => hk m (List.mem_cons_of_mem _ hm))]
    cases mergeFields v20 order [] (v20 c) os fs with
    | none => rfl
    | some rest =>
      rw [Option.map_some]
      dsimp only
      rw [if_neg (by simp), if_neg (by simp), get_mapFields]
      cases Dict.get? os n with
      | none => rfl
      | some v =>
        rw [Option.map_some]
        dsimp only
        obtain ⟨dflt, hd⟩ := Option.ne_none_iff_exists'.1 (hk n (List.mem_cons_self ..))
        have hcopy : copyOf v20 order (v20 c) n (mapField f n v) = (copyOf v20 order (v20 c) n v).map (mapRefs f) := by
          unfold copyOf
          cases hc : Dict.get? (v20 c).child n with
          | none => rfl
          | some k =>
            have hn : n ≠ c!"$ref" := by
              rintro rfl
              rw [(grammar_refs (f := f) c).2.2] at hc; cases hc
            dsimp only
            rw [show mapField f n v = mapRefs f v from if_neg hn, copyAs_map hf]
        rw [hcopy, defaultOf_get hd]
        have := mergeField_any hf order hd own v (copyOf v20 order (v20 c) n v)
        rw [this]
        cases mergeField order dflt (Dict.get? (v20 c).child n).isSome own v (copyOf v20 order (v20 c) n v) with
        | none => rfl
        | some w => rw [Option.map_some]; dsimp only; rw [Option.map_some, mapFields_cons]

/-- the fields of an object are those of its class -/
def Sorted (c : Nat) : Tree → Prop
  | .obj c' fs => c' = c ∧ Dict.keys fs = Dict.keys (v20 c).fields
  | _ => False

theorem merge_map (hf : Keeps f) (order : List Atom → List Atom) {c : Nat} {t : Tree} (ht : Sorted c t) (u : Tree) :
    merge v20 order [] (mapRefs f t) (mapRefs f u) = (merge v20 order [] t u).map (mapRefs f) := by
  cases t with
  | obj c' fs =>
    obtain ⟨rfl, hk⟩ := ht
    cases u with
    | obj c'' os =>
      rw [mapRefs, mapRefs, merge, merge, mergeFields_map hf order c' os fs (by
        intro n hn
        rw [hk] at hn
        exact Option.isSome_iff_ne_none.1 ((Dict.get?_isSome_iff _ _).2 hn))]
      cases mergeFields v20 order [] (v20 c') os fs <;> rfl
    | _ => rfl
  | _ => exact ht.elim

theorem sorted_merge {order : List Atom → List Atom} {c : Nat} {t u w : Tree} (ht : Sorted c t)
    (h : merge v20 order [] t u = some w) : Sorted c w := by
  cases t with
  | obj c' fs =>
    obtain ⟨rfl, hk⟩ := ht
    cases u with
    | obj c'' os =>
      rw [merge] at h
      cases hm : mergeFields v20 order [] (v20 c') os fs with
      | none => rw [hm] at h; cases h
      | some gs =>
        rw [hm] at h; cases h
        refine ⟨rfl, ?_⟩
        rw [← hk]
        clear hk
        induction fs generalizing gs with
        | nil => cases hm; rfl
        | cons x fs ih =>
          obtain ⟨n, own⟩ := x
          rw [mergeFields] at hm
          cases hr : mergeFields v20 order [] (v20 c') os fs with
          | none => rw [hr] at hm; cases hm
          | some rest =>
            rw [hr] at hm
            dsimp only at hm
            rw [if_neg (by simp)] at hm
            split at hm
            · cases hm
            · split at hm
              · cases hm
              · cases hm
                have := ih rest hr
                simp only [Dict.keys, List.map_cons] at this ⊢
                rw [this]
    | _ => cases h
  | _ => exact ht.elim

theorem refText_map (hf : Keeps f) (t : Tree) :
    MergeRefs.refText (mapRefs f t) = (MergeRefs.refText t).map f := by
  cases t with
  | obj c fs =>
    have e : MergeRefs.refOf (mapRefs f (.obj c fs)) = mapRef f (MergeRefs.refOf (.obj c fs)) := by
      rw [mapRefs, MergeRefs.refOf, MergeRefs.refOf, get_mapFields]
      cases Dict.get? fs c!"$ref" with
      | none => rfl
      | some v => simp [mapField]
    unfold MergeRefs.refText
    rw [e]
    generalize MergeRefs.refOf (.obj c fs) = v
    cases v with
    | atom a =>
      cases a with
      | str s =>
        cases s with
        | nil => simp [mapRef, (hf []).2 rfl]
        | cons x s =>
          cases h : f (x :: s) with
          | nil => exact absurd ((hf _).1 h) (by simp)
          | cons y l => simp [mapRef, h]
      | _ => rfl
    | _ => rfl
  | _ => rfl

theorem cls_map (t : Tree) : cls? (mapRefs f t) = cls? t := by cases t <;> rfl

/-- an outcome with the references replaced -/
def mapOutcome (f : Str → Str) : MergeRefs.Outcome → MergeRefs.Outcome
  | .value t => .value (mapRefs f t)
  | o => o

/-- two runs that differ in the form of the references only, as far as the objects in `I` are concerned -/
structure Alike (f : Str → Str) (I : Nat → Prop) (W W' : MergeRefs.World) : Prop where
  keeps : Keeps f
  content : ∀ i, I i → W'.content i = mapRefs f (W.content i)
  resolve : ∀ i r, I i → MergeRefs.refText (W.content i) = some r →
    W'.resolve (f r) = W.resolve r ∧ ∀ j, W.resolve r = .ok j → I j

theorem follow_map {W W' : MergeRefs.World} {I : Nat → Prop} (ha : Alike f I W W') (order : List Atom → List Atom) (c : Nat) :
    ∀ (n : Nat) (vis : List Nat) (cur : Nat) (t : Tree), I cur → Sorted c t →
      MergeRefs.follow W' order c n vis cur (mapRefs f t) = (MergeRefs.follow W order c n vis cur t).map (mapOutcome f) := by
  intro n
  induction n with
  | zero => intro _ _ _ _ _; rfl
  | succ n ih =>
    intro vis cur t hI ht
    rw [MergeRefs.follow, MergeRefs.follow, ha.content cur hI, refText_map ha.keeps]
    cases hr : MergeRefs.refText (W.content cur) with
    | none => rfl
    | some r =>
      rw [Option.map_some]
      dsimp only
      obtain ⟨h1, h2⟩ := ha.resolve cur r hI hr
      rw [h1]
      cases hj : W.resolve r with
      | error e => rfl
      | ok j =>
        dsimp only
        rw [ha.content j (h2 j hj), cls_map, merge_map ha.keeps order ht]
        split
        · rfl
        · split
          · rfl
          · cases hm : merge v20 order [] t (W.content j) with
            | none => rfl
            | some w => exact ih _ _ _ (h2 j hj) (sorted_merge ht hm)

theorem effective_map {W W' : MergeRefs.World} {I : Nat → Prop} (ha : Alike f I W W') (order : List Atom → List Atom)
    (c fuel : Nat) {i : Nat} (hI : I i) :
    MergeRefs.effective W' order c fuel i = (MergeRefs.effective W order c fuel i).map (mapOutcome f) := by
  have hs : Sorted c (fresh v20 c) := ⟨rfl, rfl⟩
  have hfr : mapRefs f (fresh v20 c) = fresh v20 c := by
    rw [fresh, mapRefs, mapFields_eq]
    congr 1
    refine (List.map_congr_left fun x hx => ?_).trans (List.map_id _)
    have hd : Dict.get? (v20 c).fields x.1 = some x.2 := Dict.get?_of_mem (Props.C42.C42_grammar c).1 hx
    have := default_field (f := f) hd
    unfold mapField at this
    rw [this]; rfl
  unfold MergeRefs.effective
  have := merge_map ha.keeps order hs (W.content i)
  rw [hfr] at this
  rw [ha.content i hI, this]
  cases hm : merge v20 order [] (fresh v20 c) (W.content i) with
  | none => rfl
  | some w => exact follow_map ha order c fuel [i] i w hI (sorted_merge hs hm)

end

end Proofs.Loaded
