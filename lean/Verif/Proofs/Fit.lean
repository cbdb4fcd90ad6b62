import Verif.Model.Objects
import Verif.Props.C82Wire
import Verif.Proofs.Under
import Verif.Proofs.Shape
import Verif.Proofs.Prepared
/-! # Lemmas for C83: the objects of a prepared document are made -/

namespace Proofs.Fit
open Py Utils Tree _root_.Doc Prim Spec.Doc Spec.Merge Spec.Places Spec.Pointed Spec.Described Spec.SchemaDoc _root_.Loaded
open Proofs.Loaded Proofs.Placed Proofs.Simulate Proofs.Origin Proofs.Schemas
open _root_.Effective (attr listed)
open _root_.Schemas (entries resolved One Many Named Further)

/-! ## what a Schema object has to be -/

/-- a Schema object all the way down, with references that lead to Schema objects -/
inductive Fit (W : MergeRefs.World) : Tree → Prop
  | intro {fs} : resolved W fs ≠ none →
      (isNull (attr fs c!"items") = false → Fit W (attr fs c!"items")) →
      (∀ t ∈ listed (attr fs c!"allOf"), Fit W t) →
      ((entries (attr fs c!"properties")).map Prod.fst).Nodup →
      (∀ x ∈ entries (attr fs c!"properties"), Fit W x.2) →
      (isNull (attr fs c!"additionalProperties") = false →
        (∀ b, attr fs c!"additionalProperties" ≠ .atom (.bool b)) → Fit W (attr fs c!"additionalProperties")) →
      Fit W (.obj cSchema fs)

theorem Fit.obj {W : MergeRefs.World} {t : Tree} (h : Fit W t) : ∃ fs, t = .obj cSchema fs := by
  cases h; exact ⟨_, rfl⟩

/-- an Items, Header or Parameter object all the way down -/
inductive FitItems : Tree → Prop
  | intro {c fs} : c ≠ cSchema → (isNull (attr fs c!"items") = false → FitItems (attr fs c!"items")) → FitItems (.obj c fs)

theorem FitItems.obj {t : Tree} (h : FitItems t) : ∃ c fs, t = .obj c fs := by
  cases h; exact ⟨_, _, rfl⟩

section
variable {o : Objects.Outside} {url : Str} {R : Tree} {order : List Atom → List Atom} {mfuel : Nat} {ω : Type} {env : Env ω}

/-- `g us` is the number of the object at the place `us` inside `t` -/
def Numbered (o : Objects.Outside) (url : Str) (R : Tree) (order : List Atom → List Atom) (mfuel : Nat) (g : List Str → Nat)
    (t : Tree) : Prop :=
  ∀ us c gs, Tree.resolve us t = .ok (.obj c gs) →
    ∃ name, Objects.found o url R order mfuel (g us) = some ⟨c, gs, name, fun vs => g (us ++ vs)⟩

theorem numbered_field {g : List Str → Nat} {c : Nat} {fs : List (Str × Tree)} (h : Numbered o url R order mfuel g (.obj c fs))
    (n : Str) : Numbered o url R order mfuel (fun us => g (n :: us)) (attr fs n) := by
  intro us c' gs hr
  refine h (n :: us) c' gs ?_
  rw [Tree.resolve]
  unfold attr at hr
  cases hg : Dict.get? fs n with
  | none =>
    rw [hg, Option.getD_none] at hr
    cases us with
    | nil => rw [Tree.resolve] at hr; cases hr
    | cons u us => rw [resolve_atom] at hr; cases hr
  | some v => rw [hg, Option.getD_some] at hr; exact hr

theorem numbered_list {g : List Str → Nat} {l : List Tree} (h : Numbered o url R order mfuel g (.list l)) {i : Nat} {t : Tree}
    (hi : l[i]? = some t) : Numbered o url R order mfuel (fun us => g (natStr i :: us)) t := by
  intro us c' gs hr
  refine h (natStr i :: us) c' gs ?_
  rw [Tree.resolve, intOf_natStr]
  dsimp only
  rw [pyIndex_nat, hi]
  exact hr

theorem numbered_dict {g : List Str → Nat} {d : List (Str × Tree)} (h : Numbered o url R order mfuel g (.dict d))
    (hnd : (d.map Prod.fst).Nodup) {x : Str × Tree} (hx : x ∈ d) :
    Numbered o url R order mfuel (fun us => g (x.1 :: us)) x.2 := by
  intro us c' gs hr
  refine h (x.1 :: us) c' gs ?_
  rw [Tree.resolve, Dict.get?_of_mem hnd hx]
  exact hr

theorem many_shown {P : Nat → Tree → Prop} : ∀ {l : List Tree} {j : Nat} {g : Nat → Nat},
    (∀ (i : Nat) t, l[i]? = some t → P (g (j + i)) t) → Many P ((List.range' j l.length).map g) l
  | [], j, g, _ => .nil
  | t :: l, j, g, h => by
    rw [List.length_cons, List.range'_succ, List.map_cons]
    refine .cons (h 0 t rfl) (many_shown fun i u hi => ?_)
    rw [show j + 1 + i = j + (i + 1) by omega]
    exact h (i + 1) u hi

theorem named_shown {P : Nat → Tree → Prop} {g : Str → Nat} : ∀ {l : List (Str × Tree)},
    (∀ x ∈ l, P (g x.1) x.2) → Named P (l.map fun x => (x.1, g x.1)) l
  | [], _ => .nil
  | x :: l, h => .cons (h x (List.mem_cons_self ..)) (named_shown fun y hy => h y (List.mem_cons_of_mem _ hy))

theorem shown (hnode : ∀ n, env.node n = Objects.node o url R order mfuel n) {t : Tree}
    (h : Fit (world o.toOutside url R) t) : ∀ {g : List Str → Nat}, Numbered o url R order mfuel g t →
      Schemas.Shows env (Objects.ref o url R order mfuel) (world o.toOutside url R) (g []) t := by
  induction h with
  | @intro fs hr hi ha hnd hp had ih1 ih2 ih3 ih4 =>
    intro g hg
    obtain ⟨name, hf⟩ := hg [] cSchema fs (by rw [Tree.resolve])
    have hn : env.node (g []) = Schemas.nodeOf fs name (Objects.one ⟨cSchema, fs, name, g⟩ c!"items")
        (Objects.many ⟨cSchema, fs, name, g⟩ c!"allOf") (Objects.named ⟨cSchema, fs, name, g⟩ c!"properties")
        (Objects.further ⟨cSchema, fs, name, g⟩) := by
      rw [hnode, Objects.node, hf]
      dsimp only
      rw [if_pos rfl]
      rfl
    refine .intro hn ?_ ?_ ?_ ?_ ?_
    · unfold Objects.one
      dsimp only
      cases hnull : isNull (attr fs c!"items") with
      | true => rw [if_pos rfl]; exact .none hnull
      | false => rw [if_neg (by decide)]; exact .some (ih1 hnull (numbered_field hg c!"items"))
    · unfold Objects.many
      dsimp only
      have hl := numbered_field hg c!"allOf"
      rw [List.range_eq_range']
      refine many_shown fun i t hi' => ?_
      rw [Nat.zero_add]
      have ht : t ∈ listed (attr fs c!"allOf") := List.mem_of_getElem? hi'
      refine ih2 t ht (g := fun us => g (c!"allOf" :: natStr i :: us)) ?_
      revert hl hi'
      cases attr fs c!"allOf" with
      | list l => intro hl hi'; exact numbered_list hl hi'
      | _ => intro _ hi'; simp [listed] at hi'
    · unfold Objects.named
      dsimp only
      rw [if_pos hnd]
      have hl := numbered_field hg c!"properties"
      refine named_shown (g := fun k => g [c!"properties", k]) fun x hx => ?_
      refine ih3 x hx (g := fun us => g (c!"properties" :: x.1 :: us)) ?_
      revert hl hx hnd
      cases attr fs c!"properties" with
      | dict d => intro hnd hl hx; exact numbered_dict hl hnd hx
      | _ => intro _ _ hx; simp [entries] at hx
    · have hl := numbered_field hg c!"additionalProperties"
      unfold Objects.further
      dsimp only
      revert hl had ih4
      cases attr fs c!"additionalProperties" with
      | atom a =>
        intro had _ _
        cases a with
        | none => exact .none rfl
        | bool b => cases b <;> first | exact .bool (b := false) | exact .bool (b := true)
        | _ =>
          have := had rfl (fun b h => by cases h)
          cases this
      | _ => intro _ ih4 hl; exact .schema (ih4 rfl (fun b h => by cases h) hl)
    · unfold Objects.ref
      rw [hf]
      dsimp only
      rw [if_pos rfl]
      cases hres : resolved (world o.toOutside url R) fs with
      | none => exact absurd hres hr
      | some x => rfl

theorem items_shown (hnode : ∀ n, env.node n = Objects.node o url R order mfuel n) {t : Tree} (h : FitItems t) :
    ∀ {g : List Str → Nat}, Numbered o url R order mfuel g t → _root_.Effective.Shows env (g []) t := by
  induction h with
  | @intro c fs hc _ ih =>
    intro g hg
    obtain ⟨name, hf⟩ := hg [] c fs (by rw [Tree.resolve])
    have hn : env.node (g []) = _root_.Effective.nodeOf c fs (Objects.one ⟨c, fs, name, g⟩ c!"items") := by
      rw [hnode, Objects.node, hf]
      dsimp only
      rw [if_neg hc]
      rfl
    unfold Objects.one at hn
    dsimp only at hn
    cases hnull : isNull (attr fs c!"items") with
    | true => rw [if_pos hnull] at hn; exact .plain hnull hn
    | false =>
      rw [hnull, if_neg (by decide)] at hn
      exact .array (ih hnull (numbered_field hg c!"items")) hn

theorem resolve_append : ∀ (ts us : List Str) (t : Tree) {u : Tree}, Tree.resolve ts t = .ok u →
    Tree.resolve (ts ++ us) t = Tree.resolve us u
  | [], us, t, u, h => by rw [Tree.resolve] at h; cases h; rfl
  | s :: ts, us, .atom a, u, h => by rw [resolve_atom] at h; cases h; rw [resolve_atom, resolve_atom]
  | s :: ts, us, .obj c fs, u, h => by
    rw [Tree.resolve] at h
    rw [List.cons_append, Tree.resolve]
    cases hg : Dict.get? fs s with
    | none => rw [hg] at h; cases h
    | some v => rw [hg] at h; exact resolve_append ts us v h
  | s :: ts, us, .dict d, u, h => by
    rw [Tree.resolve] at h
    rw [List.cons_append, Tree.resolve]
    cases hg : Dict.get? d s with
    | none => rw [hg] at h; cases h
    | some v => rw [hg] at h; exact resolve_append ts us v h
  | s :: ts, us, .list l, u, h => by
    rw [Tree.resolve] at h
    rw [List.cons_append, Tree.resolve]
    cases hi : intOf? s with
    | none => rw [hi] at h; cases h
    | some i =>
      rw [hi] at h
      dsimp only at h ⊢
      cases hv : pyIndex l i with
      | none => rw [hv] at h; cases h
      | some v => rw [hv] at h; exact resolve_append ts us v h

/-- the numbers of the objects of the document -/
theorem numbered_doc {ts : List Str} {t : Tree} (ht : Tree.resolve ts R = .ok t) :
    Numbered o url R order mfuel (fun us => o.num (ts ++ us)) t := by
  intro us c gs hr
  unfold Objects.found
  rw [o.apart]
  dsimp only
  rw [o.left, resolve_append ts us R ht, hr]
  dsimp only
  refine ⟨Objects.nameAt o.version12 (ts ++ us), ?_⟩
  simp only [List.append_assoc]

/-- the numbers of the objects inside `final` -/
theorem numbered_final {c i : Nat} (hc : cls? ((world o.toOutside url R).content i) = some c) {t : Tree}
    (he : MergeRefs.effective (world o.toOutside url R) order c mfuel i = some (.value t)) :
    Numbered o url R order mfuel (o.spare i) t := by
  intro us c' gs hr
  unfold Objects.found
  rw [o.makes]
  dsimp only
  rw [hc]
  dsimp only
  rw [he]
  dsimp only
  rw [hr]
  exact ⟨_, rfl⟩

end

/-! ## the schemas of a document -/

/-- an object where one is expected: a dict, if there is no null -/
theorem parse_one {c : Nat} {j v : Tree} (h : parseAs v20 (.one c) j = some v) (hn : isNull j = false) : ∃ d, j = .dict d := by
  cases j with
  | dict d => exact ⟨d, rfl⟩
  | atom a =>
    cases a <;> first | exact absurd hn (by decide) | (simp [parseAs, parseAtom] at h; done)
  | list l => simp [parseAs] at h
  | obj c' fs => rw [parseAs] at h; cases h


theorem parseDict_mem' {c : Nat} : ∀ {l l' : List (Str × Tree)}, parseDict v20 c l = some l' →
    l'.map Prod.fst = l.map Prod.fst
  | [], l', h => by rw [parseDict] at h; cases h; rfl
  | (k, t) :: l, l', h => by
    rw [parseDict] at h
    split at h
    · next w rest h1 h2 =>
      cases h
      rw [List.map_cons, List.map_cons, parseDict_mem' h2]
    · cases h

/-- a copy of an element -/
theorem copied_list {c : Nat} {l : List Tree} {w : Tree} (h : Copy v20 (.list c) (.list l) w) :
    ∃ m, w = .list m ∧ ∀ t ∈ m, ∃ v ∈ l, Copy v20 (.one c) v t := by
  cases h with
  | list _ _ m hl h =>
    refine ⟨m, rfl, fun t ht => ?_⟩
    obtain ⟨i, hi, rfl⟩ := List.mem_iff_getElem.1 ht
    have hi' : i < l.length := by omega
    exact ⟨l[i], List.getElem_mem hi', h i _ _ (List.getElem?_eq_getElem hi') (List.getElem?_eq_getElem hi)⟩

theorem copied_dict {c : Nat} {d : List (Str × Tree)} {w : Tree} (h : Copy v20 (.dict c) (.dict d) w) :
    ∃ e, w = .dict e ∧ e.map Prod.fst = d.map Prod.fst ∧ ∀ x ∈ e, ∃ v, (x.1, v) ∈ d ∧ Copy v20 (.one c) v x.2 := by
  cases h with
  | dict _ _ e hk h =>
    have hk' : d.map Prod.fst = e.map Prod.fst := hk
    refine ⟨e, rfl, hk'.symm, fun x hx => ?_⟩
    obtain ⟨i, hi, rfl⟩ := List.mem_iff_getElem.1 hx
    have hlen : d.length = e.length := by simpa using congrArg List.length hk'
    have hi' : i < d.length := by omega
    have h1 : d[i].1 = e[i].1 := by
      have := congrArg (fun l => l[i]?) hk'
      simpa [hi, hi'] using this
    refine ⟨d[i].2, ?_, h i d[i].1 d[i].2 e[i].1 e[i].2 (List.getElem?_eq_getElem hi') (List.getElem?_eq_getElem hi)⟩
    rw [← h1]
    exact List.getElem_mem hi'

/-- what a field with objects is, after reading and copying -/
structure Outcome (q : Dict Str Tree) (n : Str) (dflt : Tree) (k : Kind) (v w : Tree) : Prop where
  copied : w = v ∨ (isDefault dflt v = true ∧ w = dflt) ∨ Copy v20 k v w
  missing : Dict.get? q n = none → v = (emptyOf k).getD dflt
  null : Dict.get? q n = some (.atom .none) → v = (emptyOf k).getD nul
  given : ∀ j, Dict.get? q n = some j → isNull j = false → parseAs v20 k j = some v

/-- the same, or a copy -/
def Same (c : Nat) (v t : Tree) : Prop := t = v ∨ Copy v20 (.one c) v t

section
variable {q : Dict Str Tree} {n : Str} {c : Nat} {v w : Tree}

theorem isNull_iff {t : Tree} : isNull t = true ↔ t = .atom .none := by
  cases t with
  | atom a => cases a <;> simp [isNull]
  | _ => simp [isNull]

theorem outcome_one (h : Outcome q n nul (.one c) v w) :
    isNull w = true ∨ ∃ d, Dict.get? q n = some (.dict d) ∧ parse v20 c (.dict d) = some v ∧ Same c v w := by
  have hnul : v = nul → isNull w = true := by
    rintro rfl
    rcases h.copied with rfl | ⟨-, rfl⟩ | hc
    · rfl
    · rfl
    · cases hc with
      | null => rfl
  cases hq : Dict.get? q n with
  | none => exact .inl (hnul (h.missing hq))
  | some j =>
    cases hj : isNull j with
    | true =>
      rw [isNull_iff.1 hj] at hq
      exact .inl (hnul (h.null hq))
    | false =>
      have hp := h.given j hq hj
      obtain ⟨d, rfl⟩ := parse_one hp hj
      refine .inr ⟨d, rfl, hp, ?_⟩
      obtain ⟨fs, rfl⟩ := parse_dict hp
      rcases h.copied with h | ⟨h, -⟩ | h
      · exact .inl h
      · simp [isDefault, nul] at h
      · exact .inr h

theorem outcome_list (h : Outcome q n (.list []) (.list c) v w) {t : Tree} (ht : t ∈ listed w) :
    ∃ l j u, Dict.get? q n = some (.list l) ∧ j ∈ l ∧ parseAs v20 (.one c) j = some u ∧ Same c u t := by
  have hempty : v = .list [] → False := by
    rintro rfl
    rcases h.copied with rfl | ⟨-, rfl⟩ | hc
    · cases ht
    · cases ht
    · obtain ⟨m, rfl, hm⟩ := copied_list hc
      obtain ⟨_, hv, _⟩ := hm t ht
      cases hv
  cases hq : Dict.get? q n with
  | none => exact (hempty (h.missing hq)).elim
  | some j =>
    cases hj : isNull j with
    | true =>
      rw [isNull_iff.1 hj] at hq
      exact (hempty (h.null hq)).elim
    | false =>
      have hp := h.given j hq hj
      cases j with
      | list l =>
        rw [parseAs] at hp
        cases hl : parseList v20 c l with
        | none => rw [hl] at hp; cases hp
        | some l' =>
          rw [hl] at hp
          cases hp
          obtain ⟨hlen, hget⟩ := Placed.parseList_get hl
          have key : ∀ u ∈ l', ∃ j ∈ l, parseAs v20 (.one c) j = some u := by
            intro u hu
            obtain ⟨i, hi, rfl⟩ := List.mem_iff_getElem.1 hu
            have hi' : i < l.length := by omega
            obtain ⟨w, h1, h2⟩ := hget i _ (List.getElem?_eq_getElem hi')
            rw [List.getElem?_eq_getElem hi] at h2
            cases h2
            exact ⟨_, List.getElem_mem hi', h1⟩
          rcases h.copied with rfl | ⟨-, rfl⟩ | hc
          · obtain ⟨j, hj, hu⟩ := key t ht
            exact ⟨l, j, t, rfl, hj, hu, .inl rfl⟩
          · cases ht
          · obtain ⟨m, rfl, hm⟩ := copied_list hc
            obtain ⟨u, hu, hcp⟩ := hm t ht
            obtain ⟨j, hj, hu⟩ := key u hu
            exact ⟨l, j, u, rfl, hj, hu, .inr hcp⟩
      | dict d =>
        rw [parseAs] at hp
        split at hp
        · cases hp; exact (hempty rfl).elim
        · cases hp
      | obj c' fs => rw [parseAs] at hp; cases hp
      | atom a =>
        rw [parseAs] at hp
        unfold parseAtom at hp
        split at hp <;> first | (cases hp; exact (hempty rfl).elim) | cases hp
        all_goals simp_all

theorem outcome_dict (h : Outcome q n (.dict []) (.dict c) v w) :
    (entries w = [] ∨ ∃ d, Dict.get? q n = some (.dict d) ∧ (entries w).map Prod.fst = d.map Prod.fst) ∧
    ∀ x ∈ entries w, ∃ d j u, Dict.get? q n = some (.dict d) ∧ (x.1, j) ∈ d ∧ parseAs v20 (.one c) j = some u ∧
      Same c u x.2 := by
  have hempty : v = .dict [] → entries w = [] := by
    rintro rfl
    rcases h.copied with rfl | ⟨-, rfl⟩ | hc
    · rfl
    · rfl
    · obtain ⟨e, rfl, hk, -⟩ := copied_dict hc
      cases e with
      | nil => rfl
      | cons x e => simp at hk
  have hno : v = .dict [] → (entries w = [] ∨ ∃ d, Dict.get? q n = some (.dict d) ∧ (entries w).map Prod.fst = d.map Prod.fst) ∧
    ∀ x ∈ entries w, ∃ d j u, Dict.get? q n = some (.dict d) ∧ (x.1, j) ∈ d ∧ parseAs v20 (.one c) j = some u ∧
      Same c u x.2 := by
    intro hv
    rw [hempty hv]
    exact ⟨.inl rfl, fun x hx => by cases hx⟩
  cases hq : Dict.get? q n with
  | none => rw [hq] at hno; exact hno (h.missing hq)
  | some j =>
    rw [hq] at hno
    cases hj : isNull j with
    | true =>
      rw [isNull_iff.1 hj] at hq hno ⊢
      exact hno (h.null hq)
    | false =>
      have hp := h.given j hq hj
      cases j with
      | dict d =>
        rw [parseAs] at hp
        cases hl : parseDict v20 c d with
        | none => rw [hl] at hp; cases hp
        | some l' =>
          rw [hl] at hp
          cases hp
          have hkeys := parseDict_mem' hl
          rcases h.copied with rfl | ⟨-, rfl⟩ | hc
          · refine ⟨.inr ⟨d, rfl, hkeys⟩, fun x hx => ?_⟩
            obtain ⟨y, hy, h1, h2⟩ := parseDict_mem hl hx
            exact ⟨d, y.2, x.2, rfl, by rw [← h1]; exact hy, h2, .inl rfl⟩
          · exact ⟨.inl rfl, fun x hx => by cases hx⟩
          · obtain ⟨e, rfl, hk, hm⟩ := copied_dict hc
            refine ⟨.inr ⟨d, rfl, hk.trans hkeys⟩, fun x hx => ?_⟩
            obtain ⟨u, hu, hcp⟩ := hm x hx
            obtain ⟨y, hy, h1, h2⟩ := parseDict_mem hl hu
            exact ⟨d, y.2, u, rfl, by dsimp only at h1; rw [← h1]; exact hy, h2, .inr hcp⟩
      | list l => simp [parseAs] at hp
      | obj c' fs => rw [parseAs] at hp; cases hp
      | atom a => cases a <;> simp [parseAs, parseAtom] at hp

theorem outcome_bool (h : Outcome q n (.atom (.bool true)) (.boolOr c) v w) :
    isNull w = true ∨ (∃ b, w = .atom (.bool b)) ∨
      ∃ d, Dict.get? q n = some (.dict d) ∧ parse v20 c (.dict d) = some v ∧ (w = v ∨ Copy v20 (.boolOr c) v w) := by
  cases hq : Dict.get? q n with
  | none =>
    have := h.missing hq
    subst this
    rcases h.copied with rfl | ⟨-, rfl⟩ | hc
    · exact .inr (.inl ⟨_, rfl⟩)
    · exact .inr (.inl ⟨_, rfl⟩)
    · cases hc with
      | bool => exact .inr (.inl ⟨_, rfl⟩)
  | some j =>
    cases hj : isNull j with
    | true =>
      rw [isNull_iff.1 hj] at hq
      have := h.null hq
      subst this
      rcases h.copied with rfl | ⟨-, rfl⟩ | hc
      · exact .inl rfl
      · exact .inr (.inl ⟨_, rfl⟩)
      · cases hc with
        | null => exact .inl rfl
    | false =>
      have hp := h.given j hq hj
      cases j with
      | dict d =>
        refine .inr ?_
        rcases h.copied with hc | ⟨-, rfl⟩ | hc
        · exact .inr ⟨d, rfl, hp, .inl hc⟩
        · exact .inl ⟨_, rfl⟩
        · exact .inr ⟨d, rfl, hp, .inr hc⟩
      | list l => simp [parseAs] at hp
      | obj c' fs => rw [parseAs] at hp; cases hp
      | atom a =>
        cases a with
        | bool b =>
          simp only [parseAs, parseAtom, Option.some.injEq] at hp
          subst hp
          rcases h.copied with rfl | ⟨-, rfl⟩ | hc
          · exact .inr (.inl ⟨_, rfl⟩)
          · exact .inr (.inl ⟨_, rfl⟩)
          · cases hc with
            | bool => exact .inr (.inl ⟨_, rfl⟩)
        | _ => simp [parseAs, parseAtom] at hp
end

theorem copy_takes {c : Nat} {v w : Tree} (h : Copy v20 (.boolOr c) v w) (hv : ∃ c' fs, v = .obj c' fs) :
    Copy v20 (.one c) v w := by
  obtain ⟨c', fs, rfl⟩ := hv
  cases h with
  | obj _ c1 _ _ gs hk hg hall hdef hplain hchild =>
    have hc : c1 = c := by rcases hk with hk | hk <;> cases hk; rfl
    subst hc
    exact .obj _ _ _ _ _ (.inl rfl) hg hall hdef hplain hchild

theorem schema_outcome {q : Dict Str Tree} {fs gs : List (Str × Tree)} (hp : parse v20 cSchema (.dict q) = some (.obj cSchema fs))
    (hk : Kin fs gs) {n : Str} {dflt : Tree} {k : Kind} (hf : Dict.get? (v20 cSchema).fields n = some dflt)
    (hch : Dict.get? (v20 cSchema).child n = some k) : ∃ v, Outcome q n dflt k v (attr gs n) := by
  obtain ⟨v, ⟨-, h1⟩, h2, h3, h4⟩ := child hp hk hf hch
  exact ⟨v, h1, h2, h3, h4⟩

section
variable {D T R : Tree} {p : Url} {o : Outside}

theorem size_get {q : Dict Str Tree} {n : Str} {t : Tree} (h : Dict.get? q n = some t) : sizeOf t < sizeOf q := by
  have := List.sizeOf_lt_of_mem (Dict.mem_of_get? h)
  simp at this
  omega

theorem size_list {l : List Tree} {t : Tree} (h : t ∈ l) : sizeOf t < sizeOf l := List.sizeOf_lt_of_mem h

theorem size_dict {l : List (Str × Tree)} {n : Str} {t : Tree} (h : (n, t) ∈ l) : sizeOf t < sizeOf l := by
  have := List.sizeOf_lt_of_mem h
  simp at this
  omega

theorem fit_twin (hl : Loads D p T R) (q : Dict Str Tree) {ts : List Str} {v t : Tree} (hw : Written D ts cSchema q)
    (hp : parse v20 cSchema (.dict q) = some v) (ht : Twin v t) : Fit (Origin.raw o D (urlunparse p) T) t := by
  obtain ⟨fs, hv⟩ := parse_dict hp
  obtain ⟨gs, rfl, hk⟩ := kin_of_twin ht hv
  subst hv
  refine .intro ?_ ?_ ?_ ?_ ?_ ?_
  · -- the reference
    unfold resolved
    rw [ref_of hp hk]
    cases hr : refAt q with
    | none => exact fun h => by cases h
    | some r =>
      have hq : Dict.get? q c!"$ref" = some (.atom (.str r)) := by
        unfold refAt at hr
        split at hr
        · next h => cases hr; exact h
        · cases hr
      obtain ⟨r', us, q', h1, hn, hw'⟩ := hl.self.refs ts cSchema q _ hw (by decide) hq
      cases h1
      obtain ⟨fs', -, h2, -⟩ := content_raw (o := o) hl hw'
      dsimp only
      rw [resolve_raw hl hn hw']
      dsimp only
      rw [h2, if_pos (show cls? (.obj cSchema fs') = some cSchema from rfl)]
      exact fun h => by cases h
  · -- items
    intro hnull
    obtain ⟨v, ho⟩ := schema_outcome hp hk (n := c!"items") (k := .one cSchema) rfl rfl
    rcases outcome_one ho with h | ⟨d, hd, hpd, hs⟩
    · rw [h] at hnull; cases hnull
    · have hsz := size_get hd
      exact fit_twin hl d ⟨_, .inl rfl, written_field hw hd rfl .here⟩ hpd hs
  · -- allOf
    intro t ht
    obtain ⟨v, ho⟩ := schema_outcome hp hk (n := c!"allOf") (k := .list cSchema) rfl rfl
    obtain ⟨l, j, u, hd, hj, hpj, hs⟩ := outcome_list ho ht
    obtain ⟨i, hi⟩ := List.mem_iff_getElem?.1 hj
    have hpl := written_field hw hd rfl (.item hi .here)
    obtain ⟨d, rfl⟩ := parse_one hpj (by
      cases hn : isNull j with
      | false => rfl
      | true => rw [isNull_iff.1 hn] at hpl; exact absurd hpl (hl.self.whole _ _))
    have hsz := size_get hd
    have hsz' := size_list hj
    exact fit_twin hl d ⟨_, .inl rfl, hpl⟩ hpj hs
  · -- the names of properties
    obtain ⟨v, ho⟩ := schema_outcome hp hk (n := c!"properties") (k := .dict cSchema) rfl rfl
    rcases (outcome_dict ho).1 with h | ⟨d, hd, h⟩
    · rw [h]; exact List.nodup_nil
    · rw [h]
      obtain ⟨k, -, hpl⟩ := hw
      have := Props.C82.place_plain hpl hl.self.plain
      rw [Plain] at this
      have := plainDict_iff.1 this.2 _ (Dict.mem_of_get? hd)
      rw [Plain] at this
      exact this.1
  · -- properties
    intro x hx
    obtain ⟨v, ho⟩ := schema_outcome hp hk (n := c!"properties") (k := .dict cSchema) rfl rfl
    obtain ⟨l, j, u, hd, hj, hpj, hs⟩ := (outcome_dict ho).2 x hx
    have hnd : (l.map Prod.fst).Nodup := by
      obtain ⟨k, -, hpl⟩ := hw
      have := Props.C82.place_plain hpl hl.self.plain
      rw [Plain] at this
      have := plainDict_iff.1 this.2 _ (Dict.mem_of_get? hd)
      rw [Plain] at this
      exact this.1
    have hpl := written_field hw hd rfl (.key (Dict.get?_of_mem hnd hj) .here)
    obtain ⟨d, rfl⟩ := parse_one hpj (by
      cases hn : isNull j with
      | false => rfl
      | true => rw [isNull_iff.1 hn] at hpl; exact absurd hpl (hl.self.whole _ _))
    have hsz := size_get hd
    have hsz' := size_dict hj
    exact fit_twin hl d ⟨_, .inl rfl, hpl⟩ hpj hs
  · -- additionalProperties
    intro hnull hb
    obtain ⟨v, ho⟩ := schema_outcome hp hk (n := c!"additionalProperties") (k := .boolOr cSchema) rfl rfl
    rcases outcome_bool ho with h | ⟨b, h⟩ | ⟨d, hd, hpd, hs⟩
    · rw [h] at hnull; cases hnull
    · exact absurd h (hb b)
    · have hsz := size_get hd
      obtain ⟨fs', hfs'⟩ := parse_dict hpd
      exact fit_twin hl d ⟨_, .inr rfl, written_field hw hd rfl .here⟩ hpd
        (hs.imp id fun h => copy_takes h ⟨_, _, hfs'⟩)
termination_by sizeOf q
decreasing_by all_goals (simp at *; omega)

/-- the schemas keep their shape when references are made absolute -/
theorem fit_map (hl : Loads D p T R) {t : Tree} (h : Fit (Origin.raw o D (urlunparse p) T) t) :
    mapRefs (marked D (urlunparse p)) t = t →
    Fit (world o (urlunparse p) R) (mapRefs (absolute (urlunparse p)) t) := by
  induction h with
  | @intro fs hr hi ha hnd hp had ih1 ih2 ih3 ih4 =>
    intro hfix
    have hres := resolved_map (alike (o := o) hl).keeps (marked_keeps D _) (fun _ h => resolve_marked (o := o) hl h) hfix
    rw [mapRefs]
    refine .intro (by rw [hres]; exact hr) ?_ ?_ ?_ ?_ ?_
    · rw [attr_map fs (by decide), isNull_map]
      exact fun h => ih1 h (fixed_attr hfix (by decide))
    · rw [attr_map fs (by decide), listed_map, mapList_eq]
      intro t ht
      obtain ⟨u, hu, rfl⟩ := List.mem_map.1 ht
      have hf : mapList (marked D (urlunparse p)) (listed (attr fs c!"allOf")) = listed (attr fs c!"allOf") := by
        rw [← listed_map, fixed_attr hfix (by decide)]
      exact ih2 u hu (fixed_list_mem hf u hu)
    · rw [attr_map fs (by decide), entries_map, mapDict_eq, List.map_map]
      exact hnd
    · rw [attr_map fs (by decide), entries_map, mapDict_eq]
      intro x hx
      obtain ⟨u, hu, rfl⟩ := List.mem_map.1 hx
      have hf : mapDict (marked D (urlunparse p)) (entries (attr fs c!"properties")) = entries (attr fs c!"properties") := by
        rw [← entries_map, fixed_attr hfix (by decide)]
      refine ih3 u hu ?_
      rw [mapDict_eq] at hf
      obtain ⟨i, hi, rfl⟩ := List.mem_iff_getElem.1 hu
      have := congrArg (·[i]?) hf
      simp only [List.getElem?_map, List.getElem?_eq_getElem hi, Option.map_some, Option.some.injEq] at this
      exact congrArg Prod.snd this
    · rw [attr_map fs (by decide), isNull_map]
      intro h1 h2
      refine ih4 h1 (fun b hb => h2 b (by rw [hb]; rfl)) (fixed_attr hfix (by decide))

theorem fitItems_map {f : Str → Str} {t : Tree} (h : FitItems t) : FitItems (mapRefs f t) := by
  induction h with
  | @intro c fs hc hi ih =>
    rw [mapRefs]
    refine .intro hc ?_
    rw [attr_map fs (by decide), isNull_map]
    exact ih

theorem outcome_copied {c : Nat} {q : Dict Str Tree} {fs gs : List (Str × Tree)}
    (hp : parse v20 c (.dict q) = some (.obj c fs)) (hc : Effective.Copied c fs gs) {n : Str} (hn : n ≠ c!"$ref") {dflt : Tree}
    {k : Kind} (hf : Dict.get? (v20 c).fields n = some dflt) (hch : Dict.get? (v20 c).child n = some k) :
    ∃ v, Outcome q n dflt k v (attr gs n) := by
  obtain ⟨v, hfs, h1, h2, h3⟩ := parsed_child hp hf hch
  obtain ⟨w, hw, h4, h5⟩ := hc n dflt v hn hf hfs
  have ha : attr gs n = w := by rw [attr, hw]; rfl
  refine ⟨v, ?_, h1, h2, h3⟩
  rw [ha]
  cases hd : isDefault dflt v with
  | true => exact .inr (.inl ⟨rfl, h4 hd⟩)
  | false => exact .inr (.inr ((h5 hd).2 k hch))

theorem outcome_same {c : Nat} {q : Dict Str Tree} {fs : List (Str × Tree)} {t : Tree}
    (hp : parse v20 c (.dict q) = some (.obj c fs)) (hs : Same c (.obj c fs) t) : ∃ gs, t = .obj c gs ∧
    ∀ n dflt k, n ≠ c!"$ref" → Dict.get? (v20 c).fields n = some dflt → Dict.get? (v20 c).child n = some k →
      ∃ v, Outcome q n dflt k v (attr gs n) := by
  rcases hs with rfl | h
  · refine ⟨fs, rfl, fun n dflt k _ hf hch => ?_⟩
    obtain ⟨v, hfs, h1, h2, h3⟩ := parsed_child hp hf hch
    exact ⟨v, .inl (by rw [attr, hfs]; rfl), h1, h2, h3⟩
  · obtain ⟨gs, rfl, hc⟩ := Effective.copied_of_copy h rfl
    exact ⟨gs, rfl, fun n dflt k hn hf hch => outcome_copied hp hc hn hf hch⟩

/-- the classes with `items` other than Schema -/
def itemClasses : List Nat := [cItems, cParameter, cHeader]

theorem items_field {c : Nat} (h : c ∈ itemClasses) : c ≠ cSchema ∧ Dict.get? (v20 c).fields c!"items" = some nul ∧
    Dict.get? (v20 c).child c!"items" = some (.one cItems) := by
  simp only [itemClasses, List.mem_cons, List.not_mem_nil, or_false] at h
  rcases h with rfl | rfl | rfl <;> exact ⟨by decide, rfl, rfl⟩

theorem fit_items {c : Nat} (hc : c ∈ itemClasses) (q : Dict Str Tree) {gs : List (Str × Tree)}
    (h : ∀ n dflt k, n ≠ c!"$ref" → Dict.get? (v20 c).fields n = some dflt → Dict.get? (v20 c).child n = some k →
      ∃ v, Outcome q n dflt k v (attr gs n)) : FitItems (.obj c gs) := by
  obtain ⟨h1, h2, h3⟩ := items_field hc
  refine .intro h1 fun hnull => ?_
  obtain ⟨v, ho⟩ := h _ _ _ (by decide) h2 h3
  rcases outcome_one ho with h | ⟨d, hd, hpd, hs⟩
  · rw [h] at hnull; cases hnull
  · have hsz := size_get hd
    obtain ⟨fs', hfs⟩ := parse_dict hpd
    subst hfs
    obtain ⟨gs', hgs, hall⟩ := outcome_same hpd hs
    rw [hgs]
    exact fit_items (c := cItems) (by decide) d hall
termination_by sizeOf q
decreasing_by (simp at hsz; omega)

/-! ## declared objects are prepared -/

theorem styles_of (hst : Styled D) {ts : List Str} {c : Nat} {q : Dict Str Tree} (hw : Written D ts c q) :
    Shape.Styles (.one c) (.dict q) := by
  intro us k' c' q' v hp hk hf hv
  obtain ⟨k, hk0, hpl⟩ := hw
  refine hst (ts ++ us) c' q' v ?_ hf hv
  cases hp with
  | here =>
    have : c = c' := by rcases hk with h | h <;> cases h; rfl
    subst this
    rw [List.append_nil]
    exact ⟨k, hk0, hpl⟩
  | @field _ c1 d n w k1 us' _ u h1 h2 h3 h4 =>
    have : c = c1 := by rcases h1 with h | h <;> cases h; rfl
    subst this
    exact ⟨k', hk, place_append hpl (.field hk0 h2 h3 h4)⟩

theorem stands_written {url : Str} {c k : Nat} {ts : List Str} {q : Dict Str Tree} (h : Stands D url c k ts q) :
    ∃ us, Written D us c q ∧ Dict.get? q c!"$ref" = none := by
  induction h with
  | inline hw hr => exact ⟨_, hw, hr⟩
  | ref _ _ _ ih => exact ih

/-- the `final` of a declared object, in the world of references as they are written -/
theorem final_raw (hl : Loads D p T R) (hst : Styled D) {order : List Atom → List Atom} (ho : ∀ l, (order l).Perm l)
    {c : Nat} (hcl : c = cParameter ∨ c = cResponse) {k : Nat} {ts : List Str} {q : Dict Str Tree}
    (h : Stands D (urlunparse p) c k ts q) {mfuel : Nat} (hk : k < mfuel) :
    ∃ gs, MergeRefs.effective (Origin.raw o D (urlunparse p) T) order c mfuel (o.num ts) = some (.value (.obj c gs)) ∧
      mapRefs (marked D (urlunparse p)) (.obj c gs) = .obj c gs ∧
      ∃ us fs, Written D us c q ∧ parse v20 c (.dict q) = some (.obj c fs) ∧ Effective.Copied c fs gs ∧
      ∀ n dflt k, n ≠ c!"$ref" → Dict.get? (v20 c).fields n = some dflt →
        Dict.get? (v20 c).child n = some k → ∃ v, Outcome q n dflt k v (attr gs n) := by
  have hc : c ∈ refClasses := by rcases hcl with rfl | rfl <;> decide
  have hm := means (o := o) hl hc h
  obtain ⟨us, hw, -⟩ := stands_written h
  have hplain : Plain (.dict q) := by
    obtain ⟨k, -, hp⟩ := hw
    exact Props.C82.place_plain hp hl.self.plain
  obtain ⟨t, he⟩ := Prepared.prepared (order := order) hcl hm (fun v hv =>
    Shape.shaped_parse (.dict q) (.one c) v hplain (styles_of hst hw) hv) hk
  obtain ⟨-, fs, gs, hp, rfl, hcp⟩ := Effective.effective_copied hcl ho hm he
  exact ⟨gs, he, fixed_effective hl (stands_mine h) he, us, fs, hw, hp, hcp, fun n dflt k hn hf hch => outcome_copied hp hcp hn hf hch⟩

/-- and in the one the application has -/
theorem final_world (hl : Loads D p T R) {order : List Atom → List Atom} {c mfuel i : Nat} (hi : Mine D o i)
    {gs : List (Str × Tree)}
    (he : MergeRefs.effective (Origin.raw o D (urlunparse p) T) order c mfuel i = some (.value (.obj c gs))) :
    MergeRefs.effective (world o (urlunparse p) R) order c mfuel i =
      some (.value (.obj c (mapFields (absolute (urlunparse p)) gs))) := by
  rw [effective_map (alike (o := o) hl) order c mfuel hi, he]
  rw [Option.map_some, mapOutcome, mapRefs]

/-- the schema of a final -/
theorem final_schema (hl : Loads D p T R) {c : Nat} {us : List Str} {q : Dict Str Tree} {gs : List (Str × Tree)}
    (hw : Written D us c q) (hfix : mapRefs (marked D (urlunparse p)) (.obj c gs) = .obj c gs)
    (hf : Dict.get? (v20 c).fields c!"schema" = some nul) (hch : Dict.get? (v20 c).child c!"schema" = some (.one cSchema))
    (h : ∀ n dflt k, n ≠ c!"$ref" → Dict.get? (v20 c).fields n = some dflt →
        Dict.get? (v20 c).child n = some k → ∃ v, Outcome q n dflt k v (attr gs n))
    (hn : isNull (attr gs c!"schema") = false) :
    Fit (world o (urlunparse p) R) (attr (mapFields (absolute (urlunparse p)) gs) c!"schema") := by
  obtain ⟨v, ho⟩ := h _ _ _ (by decide) hf hch
  rw [attr_map gs (by decide)]
  rcases outcome_one ho with h | ⟨d, hd, hpd, hs⟩
  · rw [h] at hn; cases hn
  · exact fit_map hl (fit_twin hl d ⟨_, .inl rfl, written_field hw hd hch .here⟩ hpd hs) (fixed_attr hfix (by decide))

end

end Proofs.Fit
