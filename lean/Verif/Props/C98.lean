import Verif.Spec.Dangling
import Verif.Proofs.Visited
import Verif.Props.C92
/-!
# C98: references that lead nowhere are refused

A document of version 2.0 in which a schema, a parameter, a response or a path item refers to a place of the document where no object
of the same kind is written does not become an application: neither is there nothing behind the reference that a request would
find out about later, nor is another kind of object taken instead. `C98_refused`: no run of `App.create` ends with tables of
operations and models, strict or not. `C98_schema`: for schemas, an exception is raised, before anything else is looked at (also in an
application that is not strict). `C98_index_false`: a list index in another form than its usual one is not seen as a mistake.

The converse, that documents without such references are accepted, is C92.
-/

namespace Props.C98
open Py Utils Tree _root_.Doc Spec Spec.Places Spec.Pointed _root_.Loaded Proofs.Loaded Proofs.Origin Proofs.Placed Proofs.Index Proofs.Visited
open _root_.Create

variable {D T R : Tree} {p : Url} {o : Objects.Outside} {sq : Dict Str Tree} {sep : Str}

/-- A document at a URL, read, and its references made absolute, whether or not they lead to something. -/
structure Reads (D : Tree) (p : Url) (T R : Tree) : Prop where
  canon : Canon p
  whole : p.fragment = []
  inside : Inside D (urlunparse p)
  read : parse v20 cSwagger D = some T
  normalized : normalizeRefs (urlunparse p) T = some R

theorem filled (hl : Reads D p T R) : Filled (fun _ => True) T := by
  refine filled_parse D (.one cSwagger) T hl.inside.plain ?_ hl.read
  intro ts k' c q v hp hk hf hr
  obtain ⟨r, us, rfl, hn⟩ := hl.inside.refs ts c q v ⟨k', hk, hp⟩ hf hr
  exact ⟨r, names_ne hn, trivial, rfl⟩

theorem normal_form (hl : Reads D p T R) : R = mapRefs (absolute (urlunparse p)) T := by
  have := normalize_eq (url_facts hl.canon hl.whole).2.2 T (filled hl)
  rw [hl.normalized] at this
  exact Option.some.inj this

theorem root_wf (hl : Reads D p T R) : WF R := by
  rw [normal_form hl]
  exact map_wf _ _ (parse_wf D (.one cSwagger) T hl.inside.plain hl.read)

theorem root_obj (hl : Reads D p T R) (hD : D = .dict sq) : ∃ gs, R = .obj cSwagger gs := by
  subst hD
  obtain ⟨fs, h1, h2, -⟩ := written_parse hl.read (C86.root_written sq)
  rw [Tree.resolve] at h2; cases h2
  exact ⟨_, by rw [normal_form hl, mapRefs]⟩

/-- an object found in the document is written where it stands -/
theorem written_of (hl : Reads D p T R) {ts : List Str} {c : Nat} {gs : List (Str × Tree)}
    (h : Places.At [] R ts (.obj c gs)) : ∃ q, Written D ts c q := by
  rw [normal_form hl] at h
  obtain ⟨k, v, h1, h2⟩ := Proofs.Index.at_place h rfl (k := .one cSwagger) rfl hl.inside.plain hl.read
  rcases h2 with ⟨q, rfl, h2⟩ | ⟨rfl, rfl⟩
  · exact ⟨q, k, h2, h1⟩
  · exact absurd h1 (hl.inside.whole ts c)

/-- what is written is visited, and is the object of its place -/
theorem seen (hl : Reads D p T R) (hD : D = .dict sq) {ts : List Str} {c : Nat} {q : Dict Str Tree} (h : Written D ts c q) :
    ∃ gs, parse v20 c (.dict q) = some (.obj c gs) ∧
      (pointer ts, mapRefs (absolute (urlunparse p)) (.obj c gs)) ∈ Scan.traversal R [] ∧
      Tree.resolve ts R = .ok (mapRefs (absolute (urlunparse p)) (.obj c gs)) := by
  obtain ⟨fs, h1, h2, -⟩ := written_parse hl.read h
  obtain ⟨k, hk, hp⟩ := h
  obtain ⟨t, h3, h4⟩ := place_at (f := absolute (urlunparse p)) hp rfl hl.read
  rw [parseAs_takes hk, h1] at h3
  cases h3
  rw [← normal_form hl] at h4
  obtain ⟨rs, hR⟩ := root_obj hl hD
  refine ⟨fs, h1, (C03.C03_visited R [] (root_wf hl) (by rw [hR]; rfl) _ _).2 ⟨rfl, _, rfl, h4⟩, ?_⟩
  exact Proofs.ScanTree.resolve_at h4 (root_wf hl)

/-- where ordinary tokens lead to an object, it stands there -/
theorem at_of_resolve : ∀ (us : List Str) (t : Tree) {c : Nat} {gs : List (Str × Tree)}, Ordinary us →
    Tree.resolve us t = .ok (.obj c gs) → Places.At [] t us (.obj c gs) ∧ locate us t = us
  | [], t, c, gs, _, h => by
    rw [Tree.resolve] at h
    cases h
    exact ⟨.here _, by rw [locate]⟩
  | n :: us, .atom a, c, gs, _, h => by
    rw [resolve_atom] at h
    cases h
  | n :: us, .obj c' fs, c, gs, ho, h => by
    have ho' : Ordinary us := fun t ht => ho t (List.mem_cons_of_mem _ ht)
    rw [Tree.resolve] at h
    cases hg : Dict.get? fs n with
    | none => rw [hg] at h; cases h
    | some v =>
      rw [hg] at h
      obtain ⟨h1, h2⟩ := at_of_resolve us v ho' h
      exact ⟨.field _ _ _ _ _ _ (by simp) (Dict.mem_of_get? hg) h1, by rw [locate, hg]; dsimp only; rw [h2]⟩
  | n :: us, .dict d, c, gs, ho, h => by
    have ho' : Ordinary us := fun t ht => ho t (List.mem_cons_of_mem _ ht)
    rw [Tree.resolve] at h
    cases hg : Dict.get? d n with
    | none => rw [hg] at h; cases h
    | some v =>
      rw [hg] at h
      obtain ⟨h1, h2⟩ := at_of_resolve us v ho' h
      exact ⟨.key _ _ _ _ _ (Dict.mem_of_get? hg) h1, by rw [locate, hg]; dsimp only; rw [h2]⟩
  | n :: us, .list l, c, gs, ho, h => by
    have ho' : Ordinary us := fun t ht => ho t (List.mem_cons_of_mem _ ht)
    rw [Tree.resolve] at h
    cases hi : intOf? n with
    | none => rw [hi] at h; cases h
    | some i =>
      obtain ⟨m, rfl⟩ := ho n (by simp) i hi
      rw [intOf_natStr] at hi
      cases hi
      rw [intOf_natStr] at h
      dsimp only at h
      have hx : pyIndex l (m : Int) = l[m]? := by
        unfold pyIndex
        rw [if_pos (by omega)]
        simp
      rw [hx] at h
      cases hg : l[m]? with
      | none => rw [hg] at h; cases h
      | some v =>
        rw [hg] at h
        obtain ⟨h1, h2⟩ := at_of_resolve us v ho' h
        refine ⟨.item _ _ _ _ _ hg h1, ?_⟩
        rw [locate, intOf_natStr]
        dsimp only
        rw [hx, hg]
        dsimp only
        rw [h2, if_pos (by omega)]
        simp

/-- what is found for a reference within the document, whatever has become of the document -/
theorem found_in (hl : Reads D p T R) (S : Tree) {r : Str} {us : List Str} (hn : Names (urlunparse p) r us) :
    (world o.toOutside (urlunparse p) S).resolve (absolute (urlunparse p) r) =
      match Tree.resolve us S with
      | .error e => .error e
      | .ok t =>
        match AppResolve.wrap t with
        | .error e => .error e
        | .ok (.obj _ _) => .ok (o.num (locate us S))
        | .ok _ => .error .TypeError := by
  show Loaded.find o.toOutside (urlunparse p) S (absolute (urlunparse p) r) = _
  obtain ⟨g, hg, hp⟩ := pointer_cons hn.1
  rw [absolute_named hl.canon hl.whole hn]
  unfold Loaded.find
  rw [if_neg (by rw [hp]; simp)]
  have := Props.C10.C10_split o.path2url o.abspath hl.canon hl.whole g
  unfold Props.C10.withFrag at this
  simp only [Option.getD_some, if_neg hg] at this
  rw [hp, this]
  dsimp only
  rw [if_pos rfl, ← hp, Proofs.ScanTree.split_pointer, List.tail_cons]
  cases Tree.resolve us S with
  | error e => rfl
  | ok t =>
    dsimp only
    cases AppResolve.wrap t with
    | error e => rfl
    | ok t => cases t <;> rfl

/-- a reference to a place where no such object is written does not lead to such an object -/
theorem lost (hl : Reads D p T R) {r : Str} {us : List Str} {c : Nat} (hn : Names (urlunparse p) r us) (ho : Ordinary us)
    (hw : ¬ ∃ q, Written D us c q) {j : Nat}
    (hj : (world o.toOutside (urlunparse p) R).resolve (absolute (urlunparse p) r) = .ok j) :
    cls? ((world o.toOutside (urlunparse p) R).content j) ≠ some c := by
  intro hc
  rw [found_in hl R hn] at hj
  cases hr : Tree.resolve us R with
  | error e => rw [hr] at hj; cases hj
  | ok t =>
    rw [hr] at hj
    dsimp only at hj
    cases t with
    | atom a =>
      exfalso
      cases a <;> simp [AppResolve.wrap] at hj
    | list l => simp [AppResolve.wrap] at hj
    | dict d => simp [AppResolve.wrap] at hj
    | obj c' gs =>
      obtain ⟨h1, h2⟩ := at_of_resolve us R ho hr
      simp only [AppResolve.wrap, h2] at hj
      cases hj
      simp only [world, o.left, hr, cls?] at hc
      cases hc
      exact hw (written_of hl h1)

theorem ref_shown (hl : Reads D p T R) {c : Nat} (hc : c ∈ refClasses) {q : Dict Str Tree} {gs : List (Str × Tree)}
    (hp : parse v20 c (.dict q) = some (.obj c gs)) {r : Str} (hne : r ≠ []) (hr : Dict.get? q c!"$ref" = some (.atom (.str r))) :
    MergeRefs.refText (mapRefs (absolute (urlunparse p)) (.obj c gs)) = some (absolute (urlunparse p) r) := by
  rw [refText_map (absolute_keeps (url_facts hl.canon hl.whole).1 (url_facts hl.canon hl.whole).2.1)]
  obtain ⟨fs', e, -, hf⟩ := C42.C42_fields _ q _ hp
  cases e
  have := hf c!"$ref" nul (ref_table hc).1 (ref_table hc).2
  unfold MergeRefs.refText MergeRefs.refOf
  dsimp only
  rw [this, hr]
  cases r with
  | nil => exact absurd rfl hne
  | cons a s => rfl

theorem unresolved {W : MergeRefs.World} {v : Str × Tree} {r : Str} (hr : MergeRefs.refText v.2 = some r)
    (h : ∀ j, W.resolve r = .ok j → cls? (W.content j) ≠ some cSchema) : ∀ vs : List (Str × Tree), v ∈ vs →
    ∃ e, resolveAll W vs = .error e
  | w :: vs, hm => by
    rw [resolveAll]
    rcases List.mem_cons.1 hm with rfl | hm
    · rw [hr]
      dsimp only
      cases hj : W.resolve r with
      | error e => exact ⟨e, rfl⟩
      | ok j => dsimp only; rw [if_neg (h j hj)]; exact ⟨_, rfl⟩
    · obtain ⟨e, he⟩ := unresolved hr h vs hm
      split
      · exact ⟨e, he⟩
      · split
        · exact ⟨_, rfl⟩
        · split
          · exact ⟨e, he⟩
          · exact ⟨_, rfl⟩

theorem effective_lost {W : MergeRefs.World} {order : List Atom → List Atom} {c fuel i : Nat} {r : Str}
    (hr : MergeRefs.refText (W.content i) = some r) (h : ∀ j, W.resolve r = .ok j → cls? (W.content j) ≠ some c) (t : Tree) :
    MergeRefs.effective W order c fuel i ≠ some (.value t) := by
  unfold MergeRefs.effective
  split
  · simp
  · cases fuel with
    | zero => simp [MergeRefs.follow]
    | succ n =>
      rw [MergeRefs.follow, hr]
      dsimp only
      cases hj : W.resolve r with
      | error e => simp
      | ok j => dsimp only; rw [if_pos (h j hj)]; simp

theorem pathItem_lost {W : MergeRefs.World} {order : List Atom → List Atom} {fuel i : Nat} {r : Str}
    (hr : MergeRefs.refText (W.content i) = some r) (h : ∀ j, W.resolve r = .ok j → cls? (W.content j) ≠ some cPathItem) (t : Tree) :
    MergeRefs.pathItem W order fuel i ≠ some (.value t) := by
  unfold MergeRefs.pathItem
  split
  · next hv => exact absurd hv (effective_lost hr h _)
  · next hv => exact fun e => hv t e

theorem ended_ok {x : Option MergeRefs.Outcome} {u : Unit} (h : ended x = some (.ok u)) : ∃ t, x = some (.value t) := by
  unfold ended at h
  split at h
  · exact ⟨_, rfl⟩
  all_goals cases h

theorem unmerged {order : List Atom → List Atom} {fuel : Nat} {W : MergeRefs.World} {v : Str × Tree}
    (h : ∀ u, mergeOne W order fuel (numAt o v.1) v.2 ≠ some (.ok u)) : ∀ vs : List (Str × Tree), v ∈ vs →
    ∀ u, mergeAll o W order fuel vs ≠ some (.ok u)
  | w :: vs, hm, u => by
    rw [mergeAll]
    rcases List.mem_cons.1 hm with rfl | hm
    · split
      · next hv => exact absurd hv (h _)
      · next hv => exact h u
    · split
      · exact unmerged h vs hm u
      · next hv => exact fun e => hv _ e

section
variable [LinearOrder Str] {names : Nat → Str} {order : List Atom → List Atom} {fuel : Nat} {strict : Bool}

theorem prepare_ok {checked : Except Exc Unit} {x : Dict Str Nat × Dict Str Nat}
    (h : prepare o (urlunparse p) R checked order fuel sep strict = some (.ok x)) :
    (∃ u, resolveAll (world o.toOutside (urlunparse p) R) (visited R cSchema) = .ok u) ∧
    ∃ u, mergeAll o (world o.toOutside (urlunparse p) R) order fuel (Scan.traversal R []) = some (.ok u) := by
  unfold prepare at h
  split at h
  · cases h
  · next u hu =>
    refine ⟨⟨u, hu⟩, ?_⟩
    split at h
    · cases h
    · split at h
      · cases h
      · split at h
        · cases h
        · cases h
        · next u' hu' => exact ⟨u', hu'⟩

theorem create_ok (hl : Reads D p T R) {x : Dict Str Nat × Dict Str Nat}
    (h : create o (urlunparse p) D names order fuel sep strict = some (.ok x)) :
    ∃ checked, prepare o (urlunparse p) R checked order fuel sep strict = some (.ok x) := by
  unfold create at h
  split at h
  · cases h
  · split at h
    · cases h
    · split at h
      · rw [hl.read] at h
        dsimp only at h
        rw [hl.normalized] at h
        exact ⟨_, h⟩
      · cases h

/-- a schema that refers to nothing keeps the references from being resolved -/
theorem schema_lost (hl : Reads D p T R) (hD : D = .dict sq) (h : Dangling D (urlunparse p) cSchema) :
    ∃ e, resolveAll (world o.toOutside (urlunparse p) R) (visited R cSchema) = .error e := by
  obtain ⟨ts, q, r, us, hw, hr, hn, ho, hno⟩ := h
  obtain ⟨gs, h1, h2, h3⟩ := seen hl hD hw
  refine unresolved (ref_shown hl (by decide) h1 (names_ne hn) hr) (fun j hj => lost hl hn ho hno hj) _ (v := (pointer ts, _)) ?_
  unfold visited
  rw [List.mem_filter]
  exact ⟨h2, by simp [mapRefs, cls?]⟩

/-- **C98.** A document with a reference that leads nowhere, or to an object of another kind, never becomes an application. -/
theorem C98_refused (hl : Reads D p T R) (hD : D = .dict sq) {c : Nat} (hc : c ∈ [cSchema, cParameter, cResponse, cPathItem])
    (h : Dangling D (urlunparse p) c) (x : Dict Str Nat × Dict Str Nat) :
    create o (urlunparse p) D names order fuel sep strict ≠ some (.ok x) := by
  intro hx
  obtain ⟨checked, hx⟩ := create_ok hl hx
  obtain ⟨⟨u, hres⟩, u', hm⟩ := prepare_ok hx
  by_cases hs : c = cSchema
  · subst hs
    obtain ⟨e, he⟩ := schema_lost (o := o) hl hD h
    rw [he] at hres
    cases hres
  · obtain ⟨ts, q, r, us, hw, hr, hn, ho, hno⟩ := h
    obtain ⟨gs, h1, h2, h3⟩ := seen hl hD hw
    have hc' : c ∈ refClasses := hc
    have e0 : numAt o (pointer ts) = o.num ts := by
      unfold numAt
      rw [Proofs.ScanTree.split_pointer, List.tail_cons]
    have e1 : (world o.toOutside (urlunparse p) R).content (o.num ts) = mapRefs (absolute (urlunparse p)) (.obj c gs) := by
      simp only [world, o.left, h3, mapRefs]
    have e2 := ref_shown hl hc' h1 (names_ne hn) hr
    rw [← e1] at e2
    have e3 := fun j hj => lost (o := o) (c := c) hl hn ho hno (j := j) hj
    refine unmerged (v := (pointer ts, mapRefs (absolute (urlunparse p)) (.obj c gs))) ?_ _ h2 u' hm
    intro v hv
    rw [e0] at hv
    unfold mergeOne at hv
    simp only [cls_map] at hv
    simp only [List.mem_cons, List.not_mem_nil, or_false] at hc
    rcases hc with rfl | rfl | rfl | rfl
    · exact hs rfl
    all_goals
      simp [cls?, cParameter, cResponse, cPathItem] at hv
      obtain ⟨t, ht⟩ := ended_ok hv
      first
      | exact effective_lost e2 e3 t ht
      | exact pathItem_lost e2 e3 t ht

/-- **C98, schemas.** When a schema of a document of version 2.0 refers to nothing, or to something else than a schema, an exception is
raised, whatever else the document says. -/
theorem C98_schema (hl : Reads D p T R) (hD : D = .dict sq) (hv : C92.Says sq (Spec.Service.text c!"2.0"))
    (h : Dangling D (urlunparse p) cSchema) : ∃ e, create o (urlunparse p) D names order fuel sep strict = some (.error e) := by
  obtain ⟨e, he⟩ := schema_lost (o := o) hl hD h
  refine ⟨e, ?_⟩
  have hver : AppResolve.get_swagger_version (_root_.Effective.toVal D) = .ok (.str c!"2.0") := by
    rw [hD, C92.version]
    rcases hv with h | ⟨h, h'⟩
    · rw [h]; rfl
    · rw [h]; dsimp only; rw [h']; rfl
  unfold create
  rw [hver]
  dsimp only
  rw [if_neg (by decide), if_pos rfl, hl.read]
  dsimp only
  rw [hl.normalized]
  dsimp only
  unfold prepare
  rw [he]

end

end Props.C98
