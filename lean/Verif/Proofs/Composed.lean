import Verif.Spec.Composed
import Verif.Spec.Aggregate
import Verif.Proofs.Visited
import Mathlib.Data.List.Nodup
/-! # Lemmas for C94: the Schema objects of a document as a heap -/

namespace Proofs.Composed
open Py Utils Tree _root_.Doc Spec.Places Spec.Pointed Spec.Composed _root_.Loaded Proofs.Loaded Proofs.Origin Proofs.Placed Proofs.Index
open Proofs.Visited _root_.Create Props
open _root_.Aggregate (look Value)
open _root_.Effective (attr listed)

variable {D T R : Tree} {p : Url} {o : Loaded.Outside} {sq : Dict Str Tree}

theorem placeOf_pointer (ts : List Str) : placeOf (pointer ts) = ts := by
  unfold placeOf
  rw [Proofs.ScanTree.split_pointer]
  rfl

theorem mem_places (hl : Loads D p T R) (hD : D = .dict sq) {ts : List Str} :
    ts ∈ schemaPlaces R ↔ ∃ q, Written D ts cSchema q := by
  unfold schemaPlaces
  rw [List.mem_map]
  constructor
  · rintro ⟨v, hv, rfl⟩
    obtain ⟨us, q, gs, hw, -, rfl⟩ := (visited_iff hl hD).1 hv
    rw [placeOf_pointer]
    exact ⟨q, hw⟩
  · rintro ⟨q, hw⟩
    obtain ⟨gs, h1, -⟩ := read_at hl hw
    exact ⟨_, (visited_iff hl hD).2 ⟨ts, q, gs, hw, h1, rfl⟩, placeOf_pointer ts⟩

theorem places_nodup (hl : Loads D p T R) (hD : D = .dict sq) : (schemaPlaces R).Nodup := by
  obtain ⟨rs, hR⟩ := C88.root_obj hl hD
  have h := (C03.C03_order R [] (C88.root_wf hl) (by rw [hR]; rfl)).1
  have h1 : ((visited R cSchema).map Prod.fst).Nodup := h.sublist (List.Sublist.map _ List.filter_sublist)
  have h2 : schemaPlaces R = ((visited R cSchema).map Prod.fst).map placeOf := by
    unfold schemaPlaces; rw [List.map_map]; rfl
  rw [h2]
  refine h1.map_on fun x hx y hy e => ?_
  obtain ⟨v, hv, rfl⟩ := List.mem_map.1 hx
  obtain ⟨w, hw, rfl⟩ := List.mem_map.1 hy
  obtain ⟨us, q, gs, -, -, rfl⟩ := (visited_iff hl hD).1 hv
  obtain ⟨us', q', gs', -, -, rfl⟩ := (visited_iff hl hD).1 hw
  dsimp only at e ⊢
  rw [placeOf_pointer, placeOf_pointer] at e
  rw [e]

theorem heap_length : (schemaHeap o (urlunparse p) R).length = (schemaPlaces R).length := by
  unfold schemaHeap schemaPlaces
  rw [List.length_map, List.length_map]

/-- the position of a schema that is written -/
theorem index_lt (hl : Loads D p T R) (hD : D = .dict sq) {ts : List Str} {q : Dict Str Tree} (hw : Written D ts cSchema q) :
    schemaIndex R ts < (schemaHeap o (urlunparse p) R).length := by
  rw [heap_length]
  exact List.idxOf_lt_length_iff.2 ((mem_places hl hD).2 ⟨q, hw⟩)

theorem index_inj (hl : Loads D p T R) (hD : D = .dict sq) {ts us : List Str} {q : Dict Str Tree} (hw : Written D ts cSchema q)
    (e : schemaIndex R ts = schemaIndex R us) : ts = us := by
  unfold schemaIndex at e
  exact (List.idxOf_inj ((mem_places hl hD).2 ⟨q, hw⟩)).1 e

/-- the objects of the heap are those at the places -/
theorem look_at (hl : Loads D p T R) (hD : D = .dict sq) {ts : List Str} {q : Dict Str Tree} (hw : Written D ts cSchema q)
    {t : Tree} (ht : Tree.resolve ts R = .ok t) :
    look (schemaHeap o (urlunparse p) R) (schemaIndex R ts) = schemaObj o (urlunparse p) R ts t := by
  have hlt := index_lt (o := o) hl hD hw
  have hlt' : schemaIndex R ts < (visited R cSchema).length := by
    rw [heap_length] at hlt; unfold schemaPlaces at hlt; rwa [List.length_map] at hlt
  have hpl : placeOf ((visited R cSchema)[schemaIndex R ts]).1 = ts := by
    have : (schemaPlaces R)[schemaIndex R ts]'(by rw [← heap_length (o := o) (p := p)]; exact hlt) = ts := by
      unfold schemaIndex; exact List.getElem_idxOf _
    unfold schemaPlaces at this
    rwa [List.getElem_map] at this
  obtain ⟨us, q', gs, hw', h1, h2⟩ := (visited_iff hl hD).1 (List.getElem_mem hlt')
  rw [h2] at hpl
  rw [placeOf_pointer] at hpl
  subst hpl
  obtain ⟨gs', h3, h4⟩ := read_at hl hw'
  rw [h1] at h3; cases h3
  rw [ht] at h4; cases h4
  unfold look schemaHeap
  rw [List.getElem?_map, List.getElem?_eq_getElem hlt']
  simp only [Option.map_some, Option.getD_some]
  rw [h2, placeOf_pointer]

theorem of_index (hl : Loads D p T R) (hD : D = .dict sq) {x : Nat} (hx : x < (schemaHeap o (urlunparse p) R).length) :
    ∃ ts q, Written D ts cSchema q ∧ x = schemaIndex R ts := by
  rw [heap_length] at hx
  obtain ⟨q, hw⟩ := (mem_places hl hD).1 (List.getElem_mem hx)
  exact ⟨_, q, hw, by unfold schemaIndex; rw [(places_nodup hl hD).idxOf_getElem]⟩

/-! ## the fields of the objects -/

section
variable {ts : List Str} {q : Dict Str Tree}

/-- what is written for one object is a dict -/
theorem one_dict (hl : Loads D p T R) {us : List Str} {c : Nat} {v w : Tree} (hp : Place (.one cSwagger) D us (.one c) v)
    (h : parseAs v20 (.one c) v = some w) : ∃ d, v = .dict d := by
  cases v with
  | atom a => rw [parseAs.eq_def] at h; cases a <;> cases h; exact absurd hp (hl.self.whole _ _)
  | list l => rw [parseAs.eq_def] at h; cases h
  | dict d => exact ⟨d, rfl⟩
  | obj => rw [parseAs.eq_def] at h; cases h

/-- the names in a dict of schemas -/
def namesIn (q : Dict Str Tree) (n : Str) : List Str :=
  match Dict.get? q n with
  | some (.dict d) => Dict.keys d
  | _ => []

theorem items_written (hl : Loads D p T R) (hw : Written D ts cSchema q) {gs : List (Str × Tree)}
    (hr : Tree.resolve ts R = .ok (.obj cSchema gs)) {c : Nat} {fs : List (Str × Tree)} (h : attr gs c!"items" = .obj c fs) :
    ∃ v, Written D (ts ++ [c!"items"]) cSchema v := by
  obtain ⟨gs', e, h1, he, h2⟩ := fields_of hl hw
  rw [hr] at h1; cases h1
  have h3 := h2 c!"items" nul (by rfl)
  rw [mapField, if_neg (by decide)] at h3
  unfold attr at h
  rw [h3, Option.getD_some] at h
  obtain ⟨k, hk, hp⟩ := hw
  have hpl : Plain (.dict q) := C82.place_plain hp hl.self.plain
  rw [Plain] at hpl
  rcases field_cases he hpl.2 (n := c!"items") (dflt := nul) (by rfl) with hf | ⟨v, k', w, g1, g2, g3, g4⟩
  · rw [plain_map _ _ hf] at h
    rw [h] at hf
    exact absurd hf (by simp [Plain])
  · have : k' = .one cSchema := by
      have e : Dict.get? (v20 cSchema).child c!"items" = some (.one cSchema) := rfl
      rw [e] at g2; exact (Option.some.inj g2).symm
    subst this
    have hp' := Proofs.Fit.place_append hp (.field hk g1 g2 .here)
    obtain ⟨d, rfl⟩ := one_dict hl hp' g3
    exact ⟨d, _, .inl rfl, hp'⟩

theorem props_written (hl : Loads D p T R) (hw : Written D ts cSchema q) {gs : List (Str × Tree)}
    (hr : Tree.resolve ts R = .ok (.obj cSchema gs)) :
    ∃ d, attr gs c!"properties" = .dict d ∧ Dict.keys d = namesIn q c!"properties" ∧
      ∀ n ∈ Dict.keys d, ∃ v, Written D (ts ++ [c!"properties", n]) cSchema v := by
  obtain ⟨gs', e, h1, he, h2⟩ := fields_of hl hw
  rw [hr] at h1; cases h1
  have h3 := h2 c!"properties" (.dict []) (by rfl)
  rw [mapField, if_neg (by decide)] at h3
  unfold attr namesIn
  rw [h3, Option.getD_some]
  obtain ⟨k, hk, hp⟩ := hw
  rcases dict_field he (dflt := .dict []) (b := cSchema) (n := c!"properties") (by rfl) with h | ⟨d, d', g1, g2, h⟩
  · rw [h, mapRefs, mapDict]
    refine ⟨[], rfl, ?_, fun n hn => (by cases hn)⟩
    cases hq : Dict.get? q c!"properties" with
    | none => rfl
    | some v =>
      cases v with
      | dict d =>
        obtain ⟨w, g1, g2⟩ := fieldOf_child he hq (k := .dict cSchema) (by rfl) rfl (.dict [])
        rw [h] at g2; subst g2
        rw [parseAs] at g1
        cases hd : parseDict v20 cSchema d with
        | none => rw [hd] at g1; cases g1
        | some d' => rw [hd] at g1; cases g1; exact parseDict_keys hd
      | _ => rfl
  · rw [h, mapRefs, g1]
    have hkeys : Dict.keys (mapDict (absolute (urlunparse p)) d') = Dict.keys d := by
      rw [mapDict_eq, ← parseDict_keys g2, Dict.keys, List.map_map]; rfl
    refine ⟨_, rfl, hkeys, fun n hn => ?_⟩
    rw [hkeys] at hn
    obtain ⟨v, hv⟩ := Option.isSome_iff_exists.1 ((Dict.get?_isSome_iff _ _).2 hn)
    obtain ⟨w, g3, -⟩ := (parseDict_get g2 n).2 v hv
    have hp' := Proofs.Fit.place_append hp (.field hk g1 (by rfl) (.key hv .here))
    obtain ⟨d, rfl⟩ := one_dict hl hp' g3
    exact ⟨d, _, .inl rfl, hp'⟩

theorem allOf_written (hl : Loads D p T R) (hw : Written D ts cSchema q) {us : List Str} (h : us ∈ elements ts c!"allOf" q) :
    ∃ v, Written D us cSchema v := by
  obtain ⟨gs, e, -, he, -⟩ := fields_of hl hw
  unfold elements at h
  obtain ⟨k, hk, hp⟩ := hw
  cases hq : Dict.get? q c!"allOf" with
  | none => rw [hq] at h; cases h
  | some v =>
    rw [hq] at h
    cases v with
    | list l =>
      dsimp only at h
      obtain ⟨i, hi, rfl⟩ := List.mem_map.1 h
      have hi := List.getElem?_eq_getElem (List.mem_range.1 hi)
      obtain ⟨w, g1, -⟩ := fieldOf_child he hq (k := .list cSchema) (by rfl) rfl (.list [])
      rw [parseAs] at g1
      cases hd : parseList v20 cSchema l with
      | none => rw [hd] at g1; cases g1
      | some l' =>
        obtain ⟨w, g3, -⟩ := (parseList_get hd).2 i _ hi
        have hp' := Proofs.Fit.place_append hp (.field hk hq (by rfl) (.item hi .here))
        obtain ⟨d, hd⟩ := one_dict hl hp' g3
        rw [hd] at hp'
        exact ⟨d, _, .inl rfl, hp'⟩
    | _ => cases h

/-! ## plain values -/

theorem plain_table : ∀ n, n ∈ plainFields ↔ (∃ dflt, Dict.get? (v20 cSchema).fields n = some dflt) ∧
    Dict.get? (v20 cSchema).child n = none ∧ n ≠ c!"$ref" := by
  intro n
  have h1 : ∀ n ∈ plainFields, (Dict.get? (v20 cSchema).fields n).isSome = true ∧ Dict.get? (v20 cSchema).child n = none ∧ n ≠ c!"$ref" := by
    decide +kernel
  have h2 : ∀ n ∈ Dict.keys (v20 cSchema).fields, Dict.get? (v20 cSchema).child n = none ∧ n ≠ c!"$ref" → n ∈ plainFields := by
    decide +kernel
  constructor
  · intro h
    obtain ⟨g1, g2⟩ := h1 n h
    exact ⟨Option.isSome_iff_exists.1 g1, g2⟩
  · rintro ⟨⟨dflt, hd⟩, h⟩
    exact h2 n ((Dict.get?_isSome_iff _ _).1 (by rw [hd]; rfl)) h

theorem default_table {n : Str} (h : n ∈ plainFields) :
    Dict.get? (v20 cSchema).fields n = some (if n = c!"required" then .list [] else nul) := by
  have key : ∀ n ∈ plainFields, n = c!"required" ∨ ∃ m, (n, nul) = m ∧ Dict.get? (v20 cSchema).fields n = some nul := by
    intro n h
    simp only [plainFields, List.mem_cons, List.not_mem_nil, or_false] at h
    rcases h with rfl | rfl | rfl | rfl | rfl | rfl | rfl | rfl | rfl | rfl | rfl | rfl | rfl | rfl | rfl | rfl | rfl | rfl | rfl |
      rfl | rfl | rfl | rfl <;> first | exact .inl rfl | exact .inr ⟨_, rfl, rfl⟩
  rcases key n h with rfl | ⟨_, _, h'⟩
  · rfl
  · rw [h', if_neg]
    rintro rfl
    cases h'

theorem default_iff {n : Str} {t : Tree} (h : n ∈ plainFields) : isDefault (defaultOf (v20 cSchema) n) t = true ↔
    (n ≠ c!"required" ∧ t = .atom .none) ∨ (n = c!"required" ∧ t = .list []) := by
  unfold defaultOf
  rw [default_table h, Option.getD_some]
  split
  · next e =>
    constructor
    · intro h'
      refine .inr ⟨e, ?_⟩
      cases t with
      | list l => cases l with
        | nil => rfl
        | cons a l => cases h'
      | _ => cases h'
    · rintro (⟨h, -⟩ | ⟨-, rfl⟩)
      · exact absurd e h
      · rfl
  · next e =>
    constructor
    · intro h'
      refine .inl ⟨e, ?_⟩
      cases t with
      | atom a => cases a <;> first | rfl | cases h'
      | _ => cases h'
    · rintro (⟨-, rfl⟩ | ⟨h, -⟩)
      · rfl
      · exact absurd h e

theorem get_values {fs : List (Str × Tree)} (hwf : Dict.WF fs) (n : Str) (v : Value) :
    Dict.get? (plainValues fs) n = some v ↔ ∃ t, v = some t ∧ Dict.get? fs n = some t ∧ Dict.get? (v20 cSchema).child n = none ∧
      n ≠ c!"$ref" ∧ isDefault (defaultOf (v20 cSchema) n) t = false := by
  have hwf' : Dict.WF (plainValues fs) := by
    unfold plainValues Dict.WF Dict.keys
    rw [List.map_map]
    exact List.Nodup.sublist (List.Sublist.map _ List.filter_sublist) hwf
  constructor
  · intro h
    have := Dict.mem_of_get? h
    unfold plainValues at this
    obtain ⟨⟨m, t⟩, hm, e⟩ := List.mem_map.1 this
    cases e
    obtain ⟨h1, h2⟩ := List.mem_filter.1 hm
    simp only [Bool.and_eq_true, Option.isNone_iff_eq_none, bne_iff_ne, Bool.not_eq_true'] at h2
    exact ⟨t, rfl, Dict.get?_of_mem hwf h1, h2.1.1, h2.1.2, h2.2⟩
  · rintro ⟨t, rfl, h1, h2, h3, h4⟩
    refine Dict.get?_of_mem hwf' ?_
    unfold plainValues
    refine List.mem_map.2 ⟨(n, t), List.mem_filter.2 ⟨Dict.mem_of_get? h1, ?_⟩, rfl⟩
    simp only [Bool.and_eq_true, Option.isNone_iff_eq_none, bne_iff_ne, Bool.not_eq_true']
    exact ⟨⟨h2, h3⟩, h4⟩

/-! ## the objects of the heap, by what is written -/

theorem written_unique (hw : Written D ts cSchema q) {q' : Dict Str Tree} (hw' : Written D ts cSchema q') : q = q' := by
  obtain ⟨k, hk, hp⟩ := hw
  obtain ⟨k', hk', hp'⟩ := hw'
  have := place_split hp (vs := []) (by rw [List.append_nil]; exact hp')
  generalize hu : Tree.dict q = u at this
  generalize hu' : Tree.dict q' = u' at this
  cases this
  rw [← hu] at hu'
  exact (Tree.dict.inj hu').symm

theorem obj_at (hl : Loads D p T R) (hD : D = .dict sq) (hw : Written D ts cSchema q) :
    ∃ gs, Tree.resolve ts R = .ok (.obj cSchema gs) ∧ Dict.WF gs ∧
      look (schemaHeap o (urlunparse p) R) (schemaIndex R ts) = schemaObj o (urlunparse p) R ts (.obj cSchema gs) := by
  obtain ⟨gs, h1, h2⟩ := read_at hl hw
  obtain ⟨gs', e, h3, -, -⟩ := fields_of hl hw
  refine ⟨gs', h3, ?_, look_at hl hD hw h3⟩
  rw [h3] at h2
  cases h2
  obtain ⟨fs, e1, e2, -⟩ := C42.C42_fields _ q _ h1
  cases e1
  show (Dict.keys (mapFields _ gs)).Nodup
  have : Dict.keys (mapFields (absolute (urlunparse p)) gs) = Dict.keys gs := by
    rw [mapFields_eq, Dict.keys, List.map_map]; rfl
  rw [this, e2]
  exact (C42.C42_grammar cSchema).1

theorem value_iff (hl : Loads D p T R) (hD : D = .dict sq) (hw : Written D ts cSchema q) (n : Str) (v : Value) :
    Dict.get? (look (schemaHeap o (urlunparse p) R) (schemaIndex R ts)).values n = some v ↔ ∃ t, v = some t ∧ Says D ts n t := by
  obtain ⟨gs, h1, hwf, h2⟩ := obj_at (o := o) hl hD hw
  have hpl : Plain (.dict q) := by
    obtain ⟨k, hk, hp⟩ := hw
    exact C82.place_plain hp hl.self.plain
  rw [Plain] at hpl
  have hget : n ∈ plainFields → Dict.get? gs n = some ((Dict.get? q n).getD (defaultOf (v20 cSchema) n)) := by
    intro hn
    obtain ⟨⟨dflt, hd⟩, hc, hne⟩ := (plain_table n).1 hn
    obtain ⟨fs, h3, h4⟩ := read_at hl hw
    rw [h1] at h4
    rw [mapRefs] at h4
    cases h4
    obtain ⟨fs', e1, -, e3⟩ := C42.C42_fields _ q _ h3
    cases e1
    rw [get_mapFields, e3 n dflt hd hc]
    have hdf : defaultOf (v20 cSchema) n = dflt := by unfold defaultOf; rw [hd]; rfl
    rw [hdf]
    simp only [Option.map_some, mapField, if_neg hne]
    rw [plain_map]
    cases hq : Dict.get? q n with
    | none => exact plain_default hd
    | some w => exact plainDict_iff.1 hpl.2 _ (Dict.mem_of_get? hq)
  rw [h2]
  show Dict.get? (plainValues gs) n = some v ↔ _
  rw [get_values hwf]
  constructor
  · rintro ⟨t, rfl, g1, g2, g3, g4⟩
    refine ⟨t, rfl, q, hw, ?_⟩
    have hn : n ∈ plainFields := by
      refine (plain_table n).2 ⟨?_, g2, g3⟩
      obtain ⟨fs, h3, h4⟩ := read_at hl hw
      rw [h1, mapRefs] at h4
      cases h4
      obtain ⟨fs', e1, e2, -⟩ := C42.C42_fields _ q _ h3
      cases e1
      rw [get_mapFields] at g1
      have : n ∈ Dict.keys (v20 cSchema).fields := by
        rw [← e2]
        refine (Dict.get?_isSome_iff _ _).1 ?_
        cases hx : Dict.get? fs n with
        | none => rw [hx] at g1; cases g1
        | some _ => rfl
      exact Option.isSome_iff_exists.1 ((Dict.get?_isSome_iff _ _).2 this)
    have hnd : ¬ (isDefault (defaultOf (v20 cSchema) n) t = true) := by rw [g4]; decide
    rw [default_iff hn, not_or] at hnd
    refine ⟨hn, ?_, hnd⟩
    rw [hget hn] at g1
    cases hq : Dict.get? q n with
    | some w => rw [hq] at g1; exact g1
    | none =>
      rw [hq] at g1
      cases g1
      rw [Option.getD_none] at g4
      obtain ⟨a, b⟩ := hnd
      unfold defaultOf at a b
      rw [default_table hn] at a b
      simp only [Option.getD_none, Option.getD_some] at a b
      by_cases e : n = c!"required"
      · rw [if_pos e] at b; exact absurd ⟨e, rfl⟩ b
      · rw [if_neg e] at a; exact absurd ⟨e, rfl⟩ a
  · rintro ⟨t, rfl, q', hw', hn, hq, h3, h4⟩
    cases written_unique hw hw'
    obtain ⟨-, hc, hne⟩ := (plain_table n).1 hn
    refine ⟨t, rfl, by rw [hget hn, hq]; rfl, hc, hne, ?_⟩
    rw [Bool.eq_false_iff, Ne, default_iff hn, not_or]
    exact ⟨h3, h4⟩

theorem ref_none (hl : Loads D p T R) (hD : D = .dict sq) (hw : Written D ts cSchema q) (hr : Dict.get? q c!"$ref" = none) :
    (look (schemaHeap o (urlunparse p) R) (schemaIndex R ts)).ref = none := by
  obtain ⟨gs, h1, -, h2⟩ := obj_at (o := o) hl hD hw
  rw [h2]
  show refTo o (urlunparse p) R (.obj cSchema gs) = none
  obtain ⟨fs, h3, h4⟩ := read_at hl hw
  rw [h1] at h4
  unfold refTo
  rw [Except.ok.inj h4, refText_map (alike (o := o) hl).keeps]
  cases hx : MergeRefs.refText (.obj cSchema fs) with
  | none => rfl
  | some r => rw [ref_read (by decide) h3 hx] at hr; cases hr

theorem ref_some (hl : Loads D p T R) (hD : D = .dict sq) (hw : Written D ts cSchema q) {r : Str}
    (hr : Dict.get? q c!"$ref" = some (.atom (.str r))) {us : List Str} (hn : Names (urlunparse p) r us) :
    (look (schemaHeap o (urlunparse p) R) (schemaIndex R ts)).ref = some (schemaIndex R us) ∧ ∃ q', Written D us cSchema q' := by
  obtain ⟨gs, h1, -, h2⟩ := obj_at (o := o) hl hD hw
  obtain ⟨r', us', q', e, hn', hw'⟩ := hl.self.refs _ _ _ _ hw
    (by rw [show Dict.get? (v20 cSchema).fields c!"$ref" = some nul from rfl]; simp) hr
  cases e
  cases names_inj hl hn hn'
  refine ⟨?_, q', hw'⟩
  rw [h2]
  show refTo o (urlunparse p) R (.obj cSchema gs) = _
  obtain ⟨fs, h3, h4⟩ := read_at hl hw
  rw [h1] at h4
  unfold refTo
  have hx : MergeRefs.refText (.obj cSchema fs) = some r := by
    obtain ⟨fs', e, -, hf⟩ := C42.C42_fields _ q _ h3
    cases e
    have := hf c!"$ref" nul (by rfl) (by rfl)
    unfold MergeRefs.refText MergeRefs.refOf
    dsimp only
    rw [this, hr]
    cases r with
    | nil => exact absurd rfl (names_ne hn)
    | cons a l => rfl
  rw [Except.ok.inj h4, refText_map (alike (o := o) hl).keeps, hx]
  dsimp only [Option.map_some]
  have := (resolve_good (o := o) hl ⟨us, cSchema, q', hn, hw'⟩).1
  rw [resolve_raw hl hn hw'] at this
  rw [this]
  dsimp only
  rw [o.left]

theorem ref_cases (hl : Loads D p T R) (hw : Written D ts cSchema q) : Dict.get? q c!"$ref" = none ∨
    ∃ r us, Dict.get? q c!"$ref" = some (.atom (.str r)) ∧ Names (urlunparse p) r us := by
  cases hr : Dict.get? q c!"$ref" with
  | none => exact .inl rfl
  | some v =>
    obtain ⟨r, us, q', rfl, hn, -⟩ := hl.self.refs _ _ _ _ hw
      (by rw [show Dict.get? (v20 cSchema).fields c!"$ref" = some nul from rfl]; simp) hr
    exact .inr ⟨r, us, rfl, hn⟩

theorem props_at (hl : Loads D p T R) (hD : D = .dict sq) (hw : Written D ts cSchema q) :
    (look (schemaHeap o (urlunparse p) R) (schemaIndex R ts)).props =
      (namesIn q c!"properties").map fun n => (n, schemaIndex R (ts ++ [c!"properties", n])) := by
  obtain ⟨gs, h1, -, h2⟩ := obj_at (o := o) hl hD hw
  obtain ⟨d, h3, h4, -⟩ := props_written hl hw h1
  rw [h2, ← h4]
  unfold schemaObj Dict.keys
  dsimp only
  rw [h3, List.map_map]
  rfl

theorem allOf_at (hl : Loads D p T R) (hD : D = .dict sq) (hw : Written D ts cSchema q) :
    (look (schemaHeap o (urlunparse p) R) (schemaIndex R ts)).allOf = (elements ts c!"allOf" q).map (schemaIndex R) := by
  obtain ⟨gs, h1, -, h2⟩ := obj_at (o := o) hl hD hw
  have h3 := list_written hl hw (n := c!"allOf") (b := cSchema) (by rfl) h1
  rw [h2, ← h3, List.map_map]
  unfold schemaObj
  dsimp only
  cases attr gs c!"allOf" <;> rfl

theorem items_at (hl : Loads D p T R) (hD : D = .dict sq) (hw : Written D ts cSchema q) {i : Nat}
    (hi : (look (schemaHeap o (urlunparse p) R) (schemaIndex R ts)).items = some i) :
    i = schemaIndex R (ts ++ [c!"items"]) ∧ ∃ v, Written D (ts ++ [c!"items"]) cSchema v := by
  obtain ⟨gs, h1, -, h2⟩ := obj_at (o := o) hl hD hw
  rw [h2] at hi
  unfold schemaObj at hi
  dsimp only at hi
  split at hi
  · next h => cases hi; exact ⟨rfl, items_written hl hw h1 h⟩
  · cases hi

theorem namesIn_nodup (hl : Loads D p T R) (hw : Written D ts cSchema q) : (namesIn q c!"properties").Nodup := by
  unfold namesIn
  split
  · next d hd =>
    obtain ⟨k, hk, hp⟩ := hw
    have hpl : Plain (.dict q) := C82.place_plain hp hl.self.plain
    rw [Plain] at hpl
    have := plainDict_iff.1 hpl.2 _ (Dict.mem_of_get? hd)
    dsimp only at this
    rw [Plain] at this
    exact this.1
  · exact List.nodup_nil

theorem props_child (hl : Loads D p T R) (hw : Written D ts cSchema q) {n : Str} (hn : n ∈ namesIn q c!"properties") :
    ∃ v, Written D (ts ++ [c!"properties", n]) cSchema v := by
  obtain ⟨gs, e, h1, -, -⟩ := fields_of hl hw
  obtain ⟨d, -, h2, h3⟩ := props_written hl hw h1
  exact h3 n (by rw [h2]; exact hn)

end

theorem le_sum {l : List Nat} {n : Nat} (h : n ∈ l) : n ≤ l.sum := by
  induction l with
  | nil => cases h
  | cons a l ih =>
    rw [List.sum_cons]
    rcases List.mem_cons.1 h with rfl | h
    · omega
    · have := ih h; omega

/-- no place is longer than all of them together -/
theorem length_le (hl : Loads D p T R) (hD : D = .dict sq) {ts : List Str} {q : Dict Str Tree} (hw : Written D ts cSchema q) :
    ts.length ≤ ((schemaPlaces R).map List.length).sum :=
  le_sum (List.mem_map.2 ⟨ts, (mem_places hl hD).2 ⟨q, hw⟩, rfl⟩)

theorem place_at_index (hl : Loads D p T R) (hD : D = .dict sq) {ts : List Str} {q : Dict Str Tree} (hw : Written D ts cSchema q) :
    (schemaPlaces R)[schemaIndex R ts]? = some ts := by
  have h := List.idxOf_lt_length_iff.2 ((mem_places hl hD).2 ⟨q, hw⟩)
  unfold schemaIndex
  rw [List.getElem?_eq_getElem h, List.getElem_idxOf]

/-- how much may still be nested in the schema at a position -/
def depth (R : Tree) (x : Nat) : Nat := ((schemaPlaces R).map List.length).sum - (((schemaPlaces R)[x]?).getD []).length

theorem depth_lt (hl : Loads D p T R) (hD : D = .dict sq) {ts vs : List Str} {q q' : Dict Str Tree} (hw : Written D ts cSchema q)
    (hw' : Written D (ts ++ vs) cSchema q') (hne : vs ≠ []) : depth R (schemaIndex R (ts ++ vs)) < depth R (schemaIndex R ts) := by
  unfold depth
  rw [place_at_index hl hD hw, place_at_index hl hD hw', Option.getD_some, Option.getD_some]
  have h1 := length_le hl hD hw'
  have h2 := List.length_pos_iff.2 hne
  rw [List.length_append] at h1 ⊢
  omega

theorem loaded (hl : Loads D p T R) (hD : D = .dict sq) : Spec.Aggregate.Loaded (schemaHeap o (urlunparse p) R) where
  pure x hx := by
    obtain ⟨ts, q, hw, rfl⟩ := of_index hl hD hx
    obtain ⟨gs, -, -, h⟩ := obj_at (o := o) hl hD hw
    rw [h]
    exact ⟨rfl, rfl, rfl⟩
  unique x hx := by
    obtain ⟨ts, q, hw, rfl⟩ := of_index hl hD hx
    refine ⟨?_, ?_⟩
    · rw [props_at hl hD hw]
      unfold Dict.WF Dict.keys
      rw [List.map_map]
      exact (List.map_id (namesIn q c!"properties")).symm ▸ namesIn_nodup hl hw
    · obtain ⟨gs, -, hwf, h⟩ := obj_at (o := o) hl hD hw
      rw [h]
      show Dict.WF (plainValues gs)
      unfold plainValues Dict.WF Dict.keys
      rw [List.map_map]
      exact List.Nodup.sublist (List.Sublist.map _ List.filter_sublist) hwf
  ref x hx r hr := by
    obtain ⟨ts, q, hw, rfl⟩ := of_index hl hD hx
    rcases ref_cases hl hw with h | ⟨s, us, h1, h2⟩
    · rw [ref_none hl hD hw h] at hr; cases hr
    · obtain ⟨g1, q', g2⟩ := ref_some (o := o) hl hD hw h1 h2
      rw [g1] at hr; cases hr
      exact index_lt hl hD g2
  items x hx i hi := by
    obtain ⟨ts, q, hw, rfl⟩ := of_index hl hD hx
    obtain ⟨rfl, v, hv⟩ := items_at hl hD hw hi
    exact index_lt hl hD hv
  props x hx n i hi := by
    obtain ⟨ts, q, hw, rfl⟩ := of_index hl hD hx
    rw [props_at hl hD hw] at hi
    obtain ⟨m, hm, e⟩ := List.mem_map.1 hi
    cases e
    obtain ⟨v, hv⟩ := props_child hl hw hm
    exact index_lt hl hD hv
  allOf x hx i hi := by
    obtain ⟨ts, q, hw, rfl⟩ := of_index hl hD hx
    rw [allOf_at hl hD hw] at hi
    obtain ⟨us, hm, rfl⟩ := List.mem_map.1 hi
    obtain ⟨v, hv⟩ := allOf_written hl hw hm
    exact index_lt hl hD hv
  values x hx n v hv := by
    obtain ⟨ts, q, hw, rfl⟩ := of_index hl hD hx
    obtain ⟨t, rfl, q', hw', -, hq, -⟩ := (value_iff hl hD hw n v).1 hv
    obtain ⟨k, hk, hp⟩ := hw'
    have hpl : Plain (.dict q') := C82.place_plain hp hl.self.plain
    rw [Plain] at hpl
    have := plainDict_iff.1 hpl.2 _ (Dict.mem_of_get? hq)
    refine ⟨t, rfl, ?_, ?_⟩
    · rintro c fs rfl; exact absurd this (by simp [Plain])
    · rintro d rfl; dsimp only at this; rw [Plain] at this; exact this.1
  nested := by
    refine ⟨depth R, fun x hx => ?_⟩
    obtain ⟨ts, q, hw, rfl⟩ := of_index hl hD hx
    refine ⟨fun i hi => ?_, fun n i hi => ?_, fun i hi => ?_⟩
    · obtain ⟨rfl, v, hv⟩ := items_at hl hD hw hi
      exact depth_lt hl hD hw hv (by simp)
    · rw [props_at hl hD hw] at hi
      obtain ⟨m, hm, e⟩ := List.mem_map.1 hi
      cases e
      obtain ⟨v, hv⟩ := props_child hl hw hm
      exact depth_lt hl hD hw hv (by simp)
    · rw [allOf_at hl hD hw] at hi
      obtain ⟨us, hm, rfl⟩ := List.mem_map.1 hi
      obtain ⟨v, hv⟩ := allOf_written hl hw hm
      unfold elements at hm
      split at hm
      · obtain ⟨i, -, rfl⟩ := List.mem_map.1 hm
        exact depth_lt hl hD hw hv (by simp)
      · cases hm

/-! ## parts -/

theorem ends_iff (hl : Loads D p T R) (hD : D = .dict sq) {ts : List Str} {q : Dict Str Tree} (hw : Written D ts cSchema q) {z : Nat} :
    Spec.Aggregate.Ends (schemaHeap o (urlunparse p) R) (schemaIndex R ts) z ↔ ∃ us, z = schemaIndex R us ∧ Leads D (urlunparse p) ts us := by
  constructor
  · intro h
    generalize hx : schemaIndex R ts = x at h
    induction h generalizing ts q with
    | here h =>
      subst hx
      rcases ref_cases hl hw with h1 | ⟨s, us, h1, h2⟩
      · exact ⟨ts, rfl, .here hw h1⟩
      · rw [(ref_some (o := o) hl hD hw h1 h2).1] at h; cases h
    | step h _ ih =>
      subst hx
      rcases ref_cases hl hw with h1 | ⟨s, us, h1, h2⟩
      · rw [ref_none hl hD hw h1] at h; cases h
      · obtain ⟨g1, q', g2⟩ := ref_some (o := o) hl hD hw h1 h2
        rw [g1] at h; cases h
        obtain ⟨vs, e, h3⟩ := ih g2 rfl
        exact ⟨vs, e, .step hw h1 h2 h3⟩
  · rintro ⟨us, rfl, h⟩
    induction h generalizing q with
    | here hw' h =>
      exact .here (ref_none hl hD hw' h)
    | step hw' h1 h2 _ ih =>
      obtain ⟨g1, q', g2⟩ := ref_some (o := o) hl hD hw' h1 h2
      exact .step g1 (ih g2)

theorem leads_written {ts us : List Str} {url : Str} (h : Leads D url ts us) : ∃ q, Written D us cSchema q ∧ Dict.get? q c!"$ref" = none := by
  induction h with
  | here h1 h2 => exact ⟨_, h1, h2⟩
  | step _ _ _ _ ih => exact ih

theorem lists_iff (hl : Loads D p T R) (hD : D = .dict sq) {ts : List Str} {q : Dict Str Tree} (hw : Written D ts cSchema q) {z : Nat} :
    (∃ a ∈ (look (schemaHeap o (urlunparse p) R) (schemaIndex R ts)).allOf, Spec.Aggregate.Ends (schemaHeap o (urlunparse p) R) a z) ↔
      ∃ us, z = schemaIndex R us ∧ Lists D (urlunparse p) ts us := by
  rw [allOf_at hl hD hw]
  constructor
  · rintro ⟨a, ha, h⟩
    obtain ⟨us, hm, rfl⟩ := List.mem_map.1 ha
    obtain ⟨v, hv⟩ := allOf_written hl hw hm
    obtain ⟨vs, rfl, h'⟩ := (ends_iff hl hD hv).1 h
    refine ⟨vs, rfl, ?_⟩
    unfold elements at hm
    split at hm
    · next l hq =>
      obtain ⟨i, hi, rfl⟩ := List.mem_map.1 hm
      exact ⟨q, l, i, hw, hq, List.mem_range.1 hi, h'⟩
    · cases hm
  · rintro ⟨us, rfl, q', l, i, hw', hq, hi, h⟩
    cases written_unique hw hw'
    have hm : ts ++ [c!"allOf", natStr i] ∈ elements ts c!"allOf" q := by
      unfold elements
      rw [hq]
      exact List.mem_map.2 ⟨i, List.mem_range.2 hi, rfl⟩
    obtain ⟨v, hv⟩ := allOf_written hl hw hm
    exact ⟨_, List.mem_map.2 ⟨_, hm, rfl⟩, (ends_iff hl hD hv).2 ⟨us, rfl, h⟩⟩

theorem lists_written {ts us : List Str} {url : Str} (h : Lists D url ts us) : ∃ q, Written D us cSchema q ∧ Dict.get? q c!"$ref" = none := by
  obtain ⟨_, _, _, _, _, _, h⟩ := h
  exact leads_written h

theorem part_written {ts us : List Str} {url : Str} (h : Part D url ts us) : ∃ q, Written D us cSchema q ∧ Dict.get? q c!"$ref" = none := by
  cases h with
  | direct h => exact lists_written h
  | next _ h => exact lists_written h

theorem part_iff (hl : Loads D p T R) (hD : D = .dict sq) {ts : List Str} {q : Dict Str Tree} (hw : Written D ts cSchema q) {z : Nat} :
    Spec.Aggregate.Part (schemaHeap o (urlunparse p) R) (schemaIndex R ts) z ↔ ∃ us, z = schemaIndex R us ∧ Part D (urlunparse p) ts us := by
  constructor
  · intro h
    induction h with
    | direct ha he =>
      obtain ⟨us, e, h⟩ := (lists_iff hl hD hw).1 ⟨_, ha, he⟩
      exact ⟨us, e, .direct h⟩
    | next _ ha he ih =>
      obtain ⟨us, rfl, h⟩ := ih
      obtain ⟨q', hw', -⟩ := part_written h
      obtain ⟨vs, e, h'⟩ := (lists_iff hl hD hw').1 ⟨_, ha, he⟩
      exact ⟨vs, e, .next h h'⟩
  · rintro ⟨us, rfl, h⟩
    induction h with
    | direct h =>
      obtain ⟨a, ha, he⟩ := (lists_iff (o := o) hl hD hw).2 ⟨_, rfl, h⟩
      exact .direct ha he
    | next h h' ih =>
      obtain ⟨q', hw', -⟩ := part_written h
      obtain ⟨a, ha, he⟩ := (lists_iff (o := o) hl hD hw').2 ⟨_, rfl, h'⟩
      exact .next ih ha he

theorem has_iff (hl : Loads D p T R) (hD : D = .dict sq) {ts : List Str} {q : Dict Str Tree} (hw : Written D ts cSchema q) {n : Str} {t : Tree} :
    Spec.Aggregate.Has (schemaHeap o (urlunparse p) R) (schemaIndex R ts) n t ↔ ∃ us, Within D (urlunparse p) ts us ∧ Says D us n t := by
  constructor
  · rintro ⟨z, hz, h⟩
    have : ∃ us q', z = schemaIndex R us ∧ Within D (urlunparse p) ts us ∧ Written D us cSchema q' := by
      rcases hz with rfl | hz
      · exact ⟨ts, q, rfl, .inl rfl, hw⟩
      · obtain ⟨us, rfl, hu⟩ := (part_iff hl hD hw).1 hz
        obtain ⟨q', hw', -⟩ := part_written hu
        exact ⟨us, q', rfl, .inr hu, hw'⟩
    obtain ⟨us, q', rfl, h1, h2⟩ := this
    obtain ⟨t', e, h3⟩ := (value_iff hl hD h2 n _).1 h
    cases e
    exact ⟨us, h1, h3⟩
  · rintro ⟨us, h1, h2⟩
    have h2' := h2
    obtain ⟨q', hw', -⟩ := h2'
    refine ⟨schemaIndex R us, ?_, (value_iff hl hD hw' n _).2 ⟨t, rfl, h2⟩⟩
    rcases h1 with rfl | h1
    · exact .inl rfl
    · exact .inr ((part_iff hl hD hw).2 ⟨us, rfl, h1⟩)

theorem defines_iff (hl : Loads D p T R) (hD : D = .dict sq) {ts : List Str} {q : Dict Str Tree} (hw : Written D ts cSchema q) {n : Str} :
    n ∈ Dict.keys (look (schemaHeap o (urlunparse p) R) (schemaIndex R ts)).props ↔ Defines D ts n := by
  rw [props_at hl hD hw]
  have : Dict.keys ((namesIn q c!"properties").map fun n => (n, schemaIndex R (ts ++ [c!"properties", n]))) = namesIn q c!"properties" := by
    unfold Dict.keys
    rw [List.map_map]
    exact List.map_id _
  rw [this]
  unfold namesIn
  constructor
  · intro h
    split at h
    · next d hd => exact ⟨q, d, hw, hd, h⟩
    · cases h
  · rintro ⟨q', d, hw', hd, h⟩
    cases written_unique hw hw'
    rw [hd]
    exact h

theorem items_get (hl : Loads D p T R) (hD : D = .dict sq) {ts : List Str} {q : Dict Str Tree} (hw : Written D ts cSchema q) {i : Nat} :
    (look (schemaHeap o (urlunparse p) R) (schemaIndex R ts)).items = some i ↔
      HasItems D ts ∧ i = schemaIndex R (ts ++ [c!"items"]) := by
  obtain ⟨gs, h1, -, h2⟩ := obj_at (o := o) hl hD hw
  rw [h2]
  have e : (schemaObj o (urlunparse p) R ts (.obj cSchema gs)).items = match attr gs c!"items" with
      | .obj _ _ => some (schemaIndex R (ts ++ [c!"items"]))
      | _ => none := rfl
  rw [e]
  constructor
  · intro h
    split at h
    · next c fs ha => exact ⟨items_written hl hw h1 ha, (Option.some.inj h).symm⟩
    · cases h
  · rintro ⟨⟨v, hv⟩, rfl⟩
    obtain ⟨fs, -, h3⟩ := read_at hl hv
    rw [Proofs.Fit.resolve_append ts [c!"items"] R h1] at h3
    have : attr gs c!"items" = mapRefs (absolute (urlunparse p)) (.obj cSchema fs) := by
      unfold attr
      rw [Tree.resolve] at h3
      cases hg : Dict.get? gs c!"items" with
      | none => rw [hg] at h3; cases h3
      | some w => rw [hg] at h3; exact Except.ok.inj h3
    rw [this, mapRefs]

theorem props_get (hl : Loads D p T R) (hD : D = .dict sq) {ts : List Str} {q : Dict Str Tree} (hw : Written D ts cSchema q) {n : Str} {i : Nat} :
    Dict.get? (look (schemaHeap o (urlunparse p) R) (schemaIndex R ts)).props n = some i ↔
      Defines D ts n ∧ i = schemaIndex R (ts ++ [c!"properties", n]) := by
  rw [← defines_iff (o := o) hl hD hw]
  have hwf : Dict.WF (look (schemaHeap o (urlunparse p) R) (schemaIndex R ts)).props := ((loaded hl hD).unique _ (index_lt hl hD hw)).1
  constructor
  · intro h
    refine ⟨(Dict.get?_isSome_iff _ _).1 (by rw [h]; rfl), ?_⟩
    have := Dict.mem_of_get? h
    rw [props_at hl hD hw] at this
    obtain ⟨m, -, e⟩ := List.mem_map.1 this
    cases e
    rfl
  · rintro ⟨h, rfl⟩
    refine Dict.get?_of_mem hwf ?_
    rw [props_at hl hD hw] at h ⊢
    unfold Dict.keys at h
    rw [List.map_map] at h
    obtain ⟨m, hm, e⟩ := List.mem_map.1 h
    exact List.mem_map.2 ⟨m, hm, by cases e; rfl⟩

/-- a value written is no object -/
theorem no_object {ts : List Str} (hpl : Plain D) {q : Dict Str Tree} (hw : Written D ts cSchema q) {n : Str} {t : Tree}
    (hg : Dict.get? q n = some t) (c : Nat) (fs : List (Str × Tree)) : t ≠ .obj c fs := by
  rintro rfl
  have := Props.C82.place_plain hw.choose_spec.2 hpl
  rw [Plain] at this
  exact absurd (Proofs.Placed.plainDict_iff.1 this.2 _ (Dict.mem_of_get? hg)) (by simp [Plain])

/-- a schema says one thing -/
theorem alike_self {ts : List Str} (hpl : Plain D) {n : Str} {t u : Tree} (hs : Says D ts n t) (hs' : Says D ts n u) : Spec.Aggregate.Alike t u := by
  obtain ⟨q, hw, -, hg, -⟩ := hs
  obtain ⟨q', hw', -, hg', -⟩ := hs'
  rw [← written_unique hw hw', hg] at hg'
  cases hg'
  cases t with
  | atom | list | dict => trivial
  | obj c fs => exact absurd rfl (no_object hpl hw hg c fs)

/-- schemas without parts -/
theorem matching_whole {url : Str} (hpl : Plain D) (h : ∀ ts q, Written D ts cSchema q → Dict.get? q c!"allOf" = none) : Matching D url := by
  have key : ∀ ts us, Within D url ts us → us = ts := by
    rintro ts us (rfl | hp)
    · rfl
    · exfalso
      induction hp with
      | direct hl => obtain ⟨q, l, i, hw, ha, -⟩ := hl; rw [h _ _ hw] at ha; cases ha
      | next _ _ ih => exact ih
  intro ts us vs n t u hu hv hs hs'
  rw [key ts us hu] at hs
  rw [key ts vs hv] at hs'
  exact alike_self hpl hs hs'

end Proofs.Composed
