import Verif.Proofs.Placed
import Verif.Model.Reply
import Verif.Props.C50
import Mathlib.Data.List.Forall2
/-! # Lemmas for C82: what reads the objects does not depend on the form of references -/

namespace Proofs.Simulate
open Py Utils Tree _root_.Doc Proofs.Loaded Prim
open _root_.Effective (attr text? number? length? toVal toVals toPairs listed finals nameOf)

variable {f : Str → Str} {ω : Type}

theorem attr_map {n : Str} (fs : List (Str × Tree)) (hn : n ≠ c!"$ref") :
    attr (mapFields f fs) n = mapRefs f (attr fs n) := by
  unfold attr
  rw [get_mapFields]
  cases Dict.get? fs n with
  | none => rfl
  | some v => rw [Option.map_some, Option.getD_some, Option.getD_some, mapField, if_neg hn]

theorem text_map (t : Tree) : text? (mapRefs f t) = text? t := by cases t <;> rfl
theorem number_map (t : Tree) : number? (mapRefs f t) = number? t := by cases t <;> rfl
theorem length_map (t : Tree) : length? (mapRefs f t) = length? t := by cases t <;> rfl

mutual
theorem toVal_map : ∀ t : Tree, toVal (mapRefs f t) = toVal t
  | .atom a => rfl
  | .list l => by rw [mapRefs, toVal, toVal, toVals_map l]
  | .dict d => by rw [mapRefs, toVal, toVal, toPairs_map d]
  | .obj c fs => rfl
theorem toVals_map : ∀ l : List Tree, toVals (mapList f l) = toVals l
  | [] => rfl
  | t :: l => by rw [mapList, toVals, toVals, toVal_map t, toVals_map l]
theorem toPairs_map : ∀ d : List (Str × Tree), toPairs (mapDict f d) = toPairs d
  | [] => rfl
  | (k, t) :: d => by rw [mapDict, toPairs, toPairs, toVal_map t, toPairs_map d]
end

theorem listed_map (t : Tree) : listed (mapRefs f t) = mapList f (listed t) := by cases t <;> rfl

theorem entries_map (t : Tree) : Schemas.entries (mapRefs f t) = mapDict f (Schemas.entries t) := by cases t <;> rfl

theorem texts_map (l : List Tree) : Schemas.texts (mapList f l) = Schemas.texts l := by
  rw [mapList_eq]
  unfold Schemas.texts
  rw [List.filterMap_map]
  congr 1
  funext t
  exact text_map t

theorem node_map (c : Nat) (fs : List (Str × Tree)) (it : Option Nat) :
    _root_.Effective.nodeOf c (mapFields f fs) it = _root_.Effective.nodeOf c fs it := by
  unfold _root_.Effective.nodeOf
  simp only [attr_map fs (f := f) (show (c!"type" : Str) ≠ c!"$ref" by decide),
    attr_map fs (f := f) (show (c!"format" : Str) ≠ c!"$ref" by decide),
    attr_map fs (f := f) (show (c!"default" : Str) ≠ c!"$ref" by decide),
    attr_map fs (f := f) (show (c!"maximum" : Str) ≠ c!"$ref" by decide),
    attr_map fs (f := f) (show (c!"exclusiveMaximum" : Str) ≠ c!"$ref" by decide),
    attr_map fs (f := f) (show (c!"minimum" : Str) ≠ c!"$ref" by decide),
    attr_map fs (f := f) (show (c!"exclusiveMinimum" : Str) ≠ c!"$ref" by decide),
    attr_map fs (f := f) (show (c!"maxLength" : Str) ≠ c!"$ref" by decide),
    attr_map fs (f := f) (show (c!"minLength" : Str) ≠ c!"$ref" by decide),
    attr_map fs (f := f) (show (c!"maxItems" : Str) ≠ c!"$ref" by decide),
    attr_map fs (f := f) (show (c!"minItems" : Str) ≠ c!"$ref" by decide),
    attr_map fs (f := f) (show (c!"multipleOf" : Str) ≠ c!"$ref" by decide),
    attr_map fs (f := f) (show (c!"enum" : Str) ≠ c!"$ref" by decide),
    attr_map fs (f := f) (show (c!"uniqueItems" : Str) ≠ c!"$ref" by decide),
    attr_map fs (f := f) (show (c!"collectionFormat" : Str) ≠ c!"$ref" by decide),
    attr_map fs (f := f) (show (c!"name" : Str) ≠ c!"$ref" by decide),
    text_map, number_map, length_map, toVal_map, toVals_map, listed_map, isNull_map, falsy_map]

theorem schemaNode_map (fs : List (Str × Tree)) (name : Option Str) (it : Option Nat) (al : List Nat)
    (ps : Dict Str Nat) (ad : Addp) :
    Schemas.nodeOf (mapFields f fs) name it al ps ad = Schemas.nodeOf fs name it al ps ad := by
  unfold Schemas.nodeOf
  simp only [attr_map fs (f := f) (show (c!"type" : Str) ≠ c!"$ref" by decide),
    attr_map fs (f := f) (show (c!"format" : Str) ≠ c!"$ref" by decide),
    attr_map fs (f := f) (show (c!"default" : Str) ≠ c!"$ref" by decide),
    attr_map fs (f := f) (show (c!"maximum" : Str) ≠ c!"$ref" by decide),
    attr_map fs (f := f) (show (c!"exclusiveMaximum" : Str) ≠ c!"$ref" by decide),
    attr_map fs (f := f) (show (c!"minimum" : Str) ≠ c!"$ref" by decide),
    attr_map fs (f := f) (show (c!"exclusiveMinimum" : Str) ≠ c!"$ref" by decide),
    attr_map fs (f := f) (show (c!"maxLength" : Str) ≠ c!"$ref" by decide),
    attr_map fs (f := f) (show (c!"minLength" : Str) ≠ c!"$ref" by decide),
    attr_map fs (f := f) (show (c!"maxItems" : Str) ≠ c!"$ref" by decide),
    attr_map fs (f := f) (show (c!"minItems" : Str) ≠ c!"$ref" by decide),
    attr_map fs (f := f) (show (c!"multipleOf" : Str) ≠ c!"$ref" by decide),
    attr_map fs (f := f) (show (c!"enum" : Str) ≠ c!"$ref" by decide),
    attr_map fs (f := f) (show (c!"uniqueItems" : Str) ≠ c!"$ref" by decide),
    attr_map fs (f := f) (show (c!"required" : Str) ≠ c!"$ref" by decide),
    attr_map fs (f := f) (show (c!"discriminator" : Str) ≠ c!"$ref" by decide),
    attr_map fs (f := f) (show (c!"readOnly" : Str) ≠ c!"$ref" by decide),
    text_map, number_map, length_map, toVal_map, toVals_map, listed_map, texts_map, isNull_map, falsy_map]

theorem mapRefs_obj {t : Tree} {c : Nat} {gs : List (Str × Tree)} (h : .obj c gs = mapRefs f t) :
    ∃ fs, t = .obj c fs ∧ gs = mapFields f fs := by
  cases t with
  | obj c' fs => rw [mapRefs] at h; cases h; exact ⟨fs, rfl, rfl⟩
  | _ => rw [mapRefs] at h; cases h

/-! ## parameters -/

theorem shows_map {env : Env ω} {n : Nat} {u : Tree} (h : _root_.Effective.Shows env n u) :
    ∀ t, u = mapRefs f t → _root_.Effective.Shows env n t := by
  induction h with
  | plain h1 h2 =>
    intro t ht
    obtain ⟨fs, rfl, rfl⟩ := mapRefs_obj ht
    rw [attr_map fs (by decide), isNull_map] at h1
    rw [node_map] at h2
    exact .plain h1 h2
  | array _ h2 ih =>
    intro t ht
    obtain ⟨fs, rfl, rfl⟩ := mapRefs_obj ht
    rw [node_map] at h2
    exact .array (ih _ (attr_map fs (by decide))) h2

theorem declares_map {env : Env ω} {p : Call.Decl} {t : Tree} (h : _root_.Effective.Declares env p (mapRefs f t)) :
    _root_.Effective.Declares env p t := by
  cases t with
  | obj c fs =>
    rw [mapRefs] at h
    obtain ⟨h1, h2, h3, h4, h5⟩ := h
    rw [attr_map fs (by decide)] at h1 h2 h3 h5
    rw [falsy_map] at h3
    rw [isNull_map] at h5
    have back : ∀ (v : Tree) s, mapRefs f v = .atom (.str s) → v = .atom (.str s) := by
      intro v s h
      cases v with
      | atom a => rw [mapRefs] at h; exact h
      | _ => rw [mapRefs] at h; cases h
    exact ⟨back _ _ h1, back _ _ h2, h3, shows_map h4 _ (by rw [mapRefs]), h5⟩
  | _ => exact h.elim

theorem nameOf_map (i : Nat) (t : Tree) : nameOf (i, mapRefs f t) = nameOf (i, t) := by
  cases t with
  | obj c fs =>
    unfold nameOf
    rw [mapRefs]
    dsimp only
    rw [attr_map fs (by decide), text_map]
  | _ => rfl

/-- a final with its references replaced -/
def mapFinal (f : Str → Str) (x : Nat × Tree) : Nat × Tree := (x.1, mapRefs f x.2)

theorem finals_map {W W' : MergeRefs.World} {I : Nat → Prop} (ha : Alike f I W W') (order : List Atom → List Atom)
    (fuel : Nat) : ∀ l : List Nat, (∀ i ∈ l, I i) → finals W' order fuel l = (finals W order fuel l).map (·.map (mapFinal f))
  | [], _ => rfl
  | i :: l, h => by
    rw [finals, finals, effective_map ha order cParameter fuel (h i (List.mem_cons_self ..)),
      finals_map ha order fuel l fun j hj => h j (List.mem_cons_of_mem _ hj)]
    cases MergeRefs.effective W order cParameter fuel i with
    | none => rfl
    | some out =>
      cases out with
      | value t =>
        rw [Option.map_some, mapOutcome]
        dsimp only
        cases finals W order fuel l <;> rfl
      | _ => rfl

theorem missing_map {ρ : Type} {name : ρ → Option Str} {g : ρ → ρ} (hg : ∀ x, name (g x) = name x) (own path : List ρ) :
    Patch.appendMissing name (own.map g) (path.map g) = (Patch.appendMissing name own path).map g := by
  unfold Patch.appendMissing
  induction path generalizing own with
  | nil => rfl
  | cons x path ih =>
    rw [List.map_cons, List.foldl_cons, List.foldl_cons, ← ih]
    congr 1
    rw [List.any_map]
    have : ((fun pp => decide (name (g x) = name pp)) ∘ g) = fun pp => decide (name x = name pp) := by
      funext y; simp [hg]
    rw [this]
    split <;> simp

theorem parameters_map {W W' : MergeRefs.World} {I : Nat → Prop} (ha : Alike f I W W') (order : List Atom → List Atom)
    (fuel : Nat) {own up : List Nat} (hown : ∀ i ∈ own, I i) (hup : ∀ i ∈ up, I i) :
    _root_.Effective.parameters W' order fuel own up =
      (_root_.Effective.parameters W order fuel own up).map (·.map (mapRefs f)) := by
  unfold _root_.Effective.parameters
  rw [finals_map ha order fuel own hown, finals_map ha order fuel up hup]
  cases finals W order fuel own with
  | none => rfl
  | some o =>
    cases finals W order fuel up with
    | none => rfl
    | some u =>
      rw [Option.map_some, Option.map_some]
      dsimp only
      rw [Option.map_some]
      congr 1
      have : Patch.parameters nameOf ({ parameters := o.map (mapFinal f), parent := some (u.map (mapFinal f)) } :
          Patch.Op (Nat × Tree) Unit) = (Patch.parameters nameOf ({ parameters := o, parent := some u } :
          Patch.Op (Nat × Tree) Unit)).map (mapFinal f) := by
        unfold Patch.parameters
        dsimp only
        rw [List.isEmpty_map]
        split
        · rfl
        · exact missing_map (fun x => nameOf_map x.1 x.2) o u
      rw [this, List.map_map, List.map_map]
      rfl

/-! ## schemas -/

section
variable {g : Str → Str} {env : Env ω} {ref : Nat → Option Nat} {W W' : MergeRefs.World}

theorem fixed_field {c : Nat} {fs : List (Str × Tree)} (h : mapRefs g (.obj c fs) = .obj c fs) {n : Str} {v : Tree}
    (hv : Dict.get? fs n = some v) : mapField g n v = v := by
  rw [mapRefs] at h
  injection h with _ h
  have := get_mapFields (f := g) fs n
  rw [h, hv, Option.map_some] at this
  exact (Option.some.inj this).symm

theorem fixed_attr {c : Nat} {fs : List (Str × Tree)} (h : mapRefs g (.obj c fs) = .obj c fs) {n : Str}
    (hn : n ≠ c!"$ref") : mapRefs g (attr fs n) = attr fs n := by
  unfold attr
  cases hv : Dict.get? fs n with
  | none => rfl
  | some v =>
    have := fixed_field h hv
    rw [mapField, if_neg hn] at this
    exact this

theorem resolved_map (hf : Keeps f) (hg : Keeps g)
    (hW : ∀ r, g r = r → (W'.resolve (f r) = W.resolve r ∧ ∀ j, W.resolve r = .ok j →
      cls? (W'.content j) = cls? (W.content j))) {fs : List (Str × Tree)}
    (h : mapRefs g (.obj cSchema fs) = .obj cSchema fs) : Schemas.resolved W' (mapFields f fs) = Schemas.resolved W fs := by
  unfold Schemas.resolved
  have e := refText_map hf (.obj cSchema fs)
  rw [mapRefs] at e
  rw [e]
  cases hr : MergeRefs.refText (.obj cSchema fs) with
  | none => rfl
  | some r =>
    rw [Option.map_some]
    dsimp only
    have hgr : g r = r := by
      have := refText_map hg (.obj cSchema fs)
      rw [h, hr, Option.map_some] at this
      exact (Option.some.inj this).symm
    obtain ⟨h1, h2⟩ := hW r hgr
    rw [h1]
    cases hj : W.resolve r with
    | error e => rfl
    | ok j => dsimp only; rw [h2 j hj]

theorem fixed_list_mem {l : List Tree} (h : mapList g l = l) : ∀ t ∈ l, mapRefs g t = t := by
  rw [mapList_eq] at h
  intro t ht
  obtain ⟨i, hi, rfl⟩ := List.getElem_of_mem ht
  have := congrArg (·[i]?) h
  simp only [List.getElem?_map, List.getElem?_eq_getElem hi, Option.map_some, Option.some.injEq] at this
  exact this

theorem fixed_dict_cons {n : Str} {t : Tree} {d : List (Str × Tree)} (h : mapDict g ((n, t) :: d) = (n, t) :: d) :
    mapRefs g t = t ∧ mapDict g d = d := by
  rw [mapDict] at h
  injection h with h1 h2
  injection h1 with _ h1
  exact ⟨h1, h2⟩

theorem schemaShows_map (hf : Keeps f) (hg : Keeps g)
    (hW : ∀ r, g r = r → (W'.resolve (f r) = W.resolve r ∧ ∀ j, W.resolve r = .ok j →
      cls? (W'.content j) = cls? (W.content j))) {n : Nat} {u : Tree} (h : Schemas.Shows env ref W' n u) :
    ∀ t, u = mapRefs f t → mapRefs g t = t → Schemas.Shows env ref W n t := by
  refine Schemas.Shows.rec (motive_1 := fun n u _ => ∀ t, u = mapRefs f t → mapRefs g t = t → Schemas.Shows env ref W n t)
    (motive_2 := fun it u _ => ∀ t, u = mapRefs f t → mapRefs g t = t → Schemas.One (Schemas.Shows env ref W) it t)
    (motive_3 := fun ms us _ => ∀ l, us = mapList f l → mapList g l = l → Schemas.Many (Schemas.Shows env ref W) ms l)
    (motive_4 := fun ms us _ => ∀ l, us = mapDict f l → mapDict g l = l → Schemas.Named (Schemas.Shows env ref W) ms l)
    (motive_5 := fun ad u _ => ∀ t, u = mapRefs f t → mapRefs g t = t → Schemas.Further (Schemas.Shows env ref W) ad t)
    ?_ ?_ ?_ ?_ ?_ ?_ ?_ ?_ ?_ ?_ h
  · intro n fs name it al ps ad hn h1 h2 h3 h4 hr ih1 ih2 ih3 ih4 t ht hfix
    obtain ⟨fs', rfl, rfl⟩ := mapRefs_obj ht
    rw [schemaNode_map] at hn
    rw [resolved_map hf hg hW hfix] at hr
    have hl : ∀ n, n ≠ c!"$ref" → mapList g (listed (attr fs' n)) = listed (attr fs' n) := by
      intro n hne
      rw [← listed_map, fixed_attr hfix hne]
    have he : ∀ n, n ≠ c!"$ref" → mapDict g (Schemas.entries (attr fs' n)) = Schemas.entries (attr fs' n) := by
      intro n hne
      rw [← entries_map, fixed_attr hfix hne]
    exact .intro hn (ih1 _ (attr_map fs' (by decide)) (fixed_attr hfix (by decide)))
      (ih2 _ (by rw [attr_map fs' (by decide), listed_map]) (hl _ (by decide)))
      (ih3 _ (by rw [attr_map fs' (by decide), entries_map]) (he _ (by decide)))
      (ih4 _ (attr_map fs' (by decide)) (fixed_attr hfix (by decide))) hr
  · intro u hu t ht _
    subst ht
    rw [isNull_map] at hu
    exact .none hu
  · intro m u _ ih t ht hfix
    exact .some (ih t ht hfix)
  · intro l hl _
    cases l with
    | nil => exact .nil
    | cons x l => rw [mapList] at hl; cases hl
  · intro m t ms ts _ _ ih1 ih2 l hl hfix
    cases l with
    | nil => cases hl
    | cons x l =>
      rw [mapList] at hl
      injection hl with e1 e2
      rw [mapList] at hfix
      injection hfix with e3 e4
      exact .cons (ih1 x e1 e3) (ih2 l e2 e4)
  · intro l hl _
    cases l with
    | nil => exact .nil
    | cons x l => obtain ⟨k, t⟩ := x; rw [mapDict] at hl; cases hl
  · intro k m t ms ts _ _ ih1 ih2 l hl hfix
    cases l with
    | nil => cases hl
    | cons x l =>
      obtain ⟨k', t'⟩ := x
      rw [mapDict] at hl
      injection hl with e1 e2
      injection e1 with e0 e1
      subst e0
      obtain ⟨e3, e4⟩ := fixed_dict_cons hfix
      exact .cons (ih1 t' e1 e3) (ih2 l e2 e4)
  · intro u hu t ht _
    subst ht
    rw [isNull_map] at hu
    exact .none hu
  · intro b t ht _
    cases t with
    | atom a => rw [mapRefs] at ht; cases ht; exact .bool
    | _ => rw [mapRefs] at ht; cases ht
  · intro m u _ ih t ht hfix
    exact .schema (ih t ht hfix)

/-! ## responses -/

theorem named_map {ms : List (Str × Nat)} {us : List (Str × Tree)} (h : Schemas.Named (_root_.Effective.Shows env) ms us) :
    ∀ l, us = mapDict f l → Schemas.Named (_root_.Effective.Shows env) ms l := by
  induction h with
  | nil =>
    intro l hl
    cases l with
    | nil => exact .nil
    | cons x l => obtain ⟨k, t⟩ := x; rw [mapDict] at hl; cases hl
  | cons h1 _ ih =>
    intro l hl
    cases l with
    | nil => cases hl
    | cons x l =>
      obtain ⟨k', t'⟩ := x
      rw [mapDict] at hl
      injection hl with e1 e2
      injection e1 with e0 e1
      subst e0
      exact .cons (shows_map h1 t' e1) (ih l e2)

theorem replyDeclares_map (hf : Keeps f) (hg : Keeps g)
    (hW : ∀ r, g r = r → (W'.resolve (f r) = W.resolve r ∧ ∀ j, W.resolve r = .ok j →
      cls? (W'.content j) = cls? (W.content j))) {r : Io.RespDecl Nat Nat} {t : Tree} (hfix : mapRefs g t = t)
    (h : Reply.Declares env ref W' r (mapRefs f t)) : Reply.Declares env ref W r t := by
  cases t with
  | obj c fs =>
    rw [mapRefs] at h
    obtain ⟨h1, h2⟩ := h
    rw [attr_map fs (by decide), entries_map] at h1
    refine ⟨named_map h1 _ rfl, ?_⟩
    rw [attr_map fs (by decide)] at h2
    generalize hu : mapRefs f (attr fs c!"schema") = u at h2
    generalize r.schema = sch at h2 ⊢
    cases h2 with
    | none h => rw [← hu, isNull_map] at h; exact .none h
    | some h => exact .some (schemaShows_map hf hg hW h _ hu.symm (fixed_attr hfix (by decide)))
  | _ => exact h.elim

end

end Proofs.Simulate
