import Verif.Spec.Index
import Verif.Proofs.Index
import Verif.Props.C06
import Verif.Props.C67
import Verif.Props.C86
/-!
# C88: what a document declares is found by its name

C03, C05 and C06 are about any tree of objects, any index and any list of operations. Here they are put together for the
objects made of a JSON document: `app.op` holds the operations written in the document, by the names it gives them, and
nothing else; what is found is the operation that requests are made for in C83 and C86. `app.m` holds the definitions.
-/

namespace Props.C88
open Py Utils Tree _root_.Doc Spec Spec.Places Spec.Pointed _root_.Loaded Proofs.Loaded Proofs.Origin Proofs.Placed Proofs.Index
open Spec.Index (Label Calls)
open _root_.Effective (attr text? listed)
open Schemas (texts entries)
open Props.C86 (Says)
open Props.C06 (entryKey)

variable {D T R : Tree} {p : Url} {o : Objects.Outside} {sq : Dict Str Tree} {sep : Str}

/-- every operation is written with `tags` and `operationId` as the standard has them -/
def Labelled (sq : Dict Str Tree) : Prop := ∀ k m oq, C86.At sq k m oq → ∃ l : Label, l.In oq

/-- path items are written in place -/
def InPlace (sq : Dict Str Tree) : Prop := ∀ paths k iq, Dict.get? sq c!"paths" = some (.dict paths) →
  Dict.get? paths k = some (.dict iq) → Dict.get? iq c!"$ref" = none

/-! ## the operations visited -/

theorem root_wf (hl : Loads D p T R) : WF R := by
  rw [normal_form hl]
  exact map_wf _ _ (parse_wf D (.one cSwagger) T hl.self.plain hl.read)

theorem root_obj (hl : Loads D p T R) (hD : D = .dict sq) : ∃ gs, R = .obj cSwagger gs := by
  subst hD
  obtain ⟨fs, h1, h2, -⟩ := written_parse hl.read (C86.root_written sq)
  rw [Tree.resolve] at h2; cases h2
  exact ⟨_, by rw [normal_form hl, mapRefs]⟩

/-- an object of the prepared document is written where it stands -/
theorem written_of (hl : Loads D p T R) {ts : List Str} {c : Nat} {gs : List (Str × Tree)}
    (h : Places.At [] R ts (.obj c gs)) : ∃ q, Written D ts c q := by
  rw [normal_form hl] at h
  obtain ⟨k, v, h1, h2⟩ := at_place h rfl (k := .one cSwagger) rfl hl.self.plain hl.read
  rcases h2 with ⟨q, rfl, h2⟩ | ⟨rfl, rfl⟩
  · exact ⟨q, k, h2, h1⟩
  · exact absurd h1 (hl.self.whole ts c)

/-- what is written for an object stands there in the prepared document -/
theorem at_of (hl : Loads D p T R) {ts : List Str} {c : Nat} {q : Dict Str Tree} (h : Written D ts c q) :
    ∃ gs, Places.At [] R ts (.obj c gs) := by
  obtain ⟨k, h1, h2⟩ := h
  obtain ⟨t, h3, h4⟩ := place_at (f := absolute (urlunparse p)) h2 rfl hl.read
  rw [parseAs_takes h1] at h3
  obtain ⟨e, -, rfl⟩ := parse_fields h3
  rw [← normal_form hl, mapRefs] at h4
  exact ⟨_, h4⟩

theorem operation_at (hD : D = .dict sq) {ts : List Str} {oq : Dict Str Tree} :
    Written D ts cOperation oq ↔ ∃ k m, ts = [c!"paths", k, m] ∧ C86.At sq k m oq := by
  subst hD
  constructor
  · rintro ⟨k', h1, h2⟩
    obtain ⟨sq', paths, iq, k, m, e, h3, h4, h5, h6, h7⟩ := place_root h2 h1
    cases e
    exact ⟨k, m, h5, h6, paths, iq, h3, h4, h7⟩
  · rintro ⟨k, m, rfl, h⟩
    exact C86.at_written h

/-- what a walk shows to the reducer: the operations of the document -/
theorem visits (hl : Loads D p T R) (hD : D = .dict sq) {v : Str × Tree} {x : OpInfo} :
    (v ∈ Scan.traversal R [] ∧ Index.visit o v = some x) ↔ ∃ k m oq gs, C86.At sq k m oq ∧
      Tree.resolve [c!"paths", k, m] R = .ok (.obj cOperation gs) ∧ v = (pointer [c!"paths", k, m], .obj cOperation gs) ∧
      x = Index.infoOf (o.num [c!"paths", k, m]) gs := by
  obtain ⟨rs, hR⟩ := root_obj hl hD
  have hv := fun s t => C03.C03_visited R [] (root_wf hl) (by rw [hR]; rfl) s t
  obtain ⟨s, t⟩ := v
  constructor
  · rintro ⟨h1, h2⟩
    obtain ⟨-, ts, rfl, h3⟩ := (hv s t).1 h1
    unfold Index.visit at h2
    cases t with
    | obj c gs =>
      dsimp only at h2
      split at h2 <;> cases h2
      next hc =>
      subst hc
      obtain ⟨q, hw⟩ := written_of hl h3
      obtain ⟨k, m, rfl, hat⟩ := (operation_at hD).1 hw
      refine ⟨k, m, q, gs, hat, Proofs.ScanTree.resolve_at h3 (root_wf hl), rfl, ?_⟩
      rw [Proofs.ScanTree.split_pointer]; rfl
    | _ => cases h2
  · rintro ⟨k, m, oq, gs, hat, hr, e, rfl⟩
    cases e
    obtain ⟨gs', h3⟩ := at_of hl ((operation_at hD).2 ⟨k, m, rfl, hat⟩)
    have := Proofs.ScanTree.resolve_at h3 (root_wf hl)
    rw [hr] at this
    cases this
    refine ⟨(hv _ _).2 ⟨rfl, _, rfl, h3⟩, ?_⟩
    unfold Index.visit
    dsimp only
    rw [if_pos rfl, Proofs.ScanTree.split_pointer]; rfl

/-! ## names -/

/-- what the reducer reads of an operation is what the document says -/
theorem info_of (hl : Loads D p T R) (hD : D = .dict sq) {k m : Str} {oq : Dict Str Tree} (hat : C86.At sq k m oq)
    {gs : List (Str × Tree)} (hr : Tree.resolve [c!"paths", k, m] R = .ok (.obj cOperation gs)) {l : Label} (h : l.In oq) (n : Nat) :
    (Index.infoOf n gs).operationId = l.id ∧ (Index.infoOf n gs).tags.bind List.head? = l.tags.head? := by
  subst hD
  obtain ⟨gs', h1, h2⟩ := C86.fields_written hl (C86.at_written hat)
  rw [hr] at h1; cases h1
  have ht := h2 c!"tags" (.atom .none) (by decide) (by rfl) (by decide)
  refine ⟨C86.maybe_of rfl (h2 c!"operationId" (.atom .none) (by decide) (by rfl) (by decide)) h.id, ?_⟩
  unfold Index.infoOf
  dsimp only
  rw [ht]
  rcases h.tags with (h3 | ⟨h3, h4⟩) | ⟨h3, h4⟩
  · rw [h3, Option.getD_some, C86.texts_map]
    dsimp only
    rw [C86.texts_text]; rfl
  · rw [h3, h4]; rfl
  · rw [h3, h4]; rfl

theorem key_of (x : OpInfo) : entryKey sep x = match x.operationId with
    | none => none
    | some i => if i = [] then none else match x.tags.bind List.head? with
      | some t => if t = [] then some i else some (t ++ sep ++ i)
      | none => some i := by
  unfold entryKey
  obtain ⟨id, tags, oid⟩ := x
  cases oid with
  | none => rfl
  | some i =>
    dsimp only
    split
    · rfl
    · cases tags with
      | none => rfl
      | some ts => cases ts <;> rfl

theorem calls_iff (hl : Loads D p T R) (hD : D = .dict sq) (hlab : Labelled sq) {k m : Str} {oq : Dict Str Tree}
    (hat : C86.At sq k m oq) {gs : List (Str × Tree)} (hr : Tree.resolve [c!"paths", k, m] R = .ok (.obj cOperation gs)) (n : Nat)
    (x : Str) : entryKey sep (Index.infoOf n gs) = some x ↔ Calls sep oq x := by
  rw [key_of]
  constructor
  · obtain ⟨l, hin⟩ := hlab k m oq hat
    obtain ⟨h1, h2⟩ := info_of hl hD hat hr hin n
    rw [h1, h2]
    cases hi : l.id with
    | none => intro h; cases h
    | some i =>
      dsimp only
      split
      · intro h; cases h
      · next hne =>
        cases ht : l.tags.head? with
        | none => intro h; have h := Option.some.inj h; subst h; exact .alone l i hin hi hne fun t h => by rw [ht] at h; cases h
        | some t =>
          dsimp only
          split
          · next h0 => intro h; have h := Option.some.inj h; subst h; exact .alone l i hin hi hne fun t' h => by rw [ht] at h; cases h; exact h0
          · next h0 => intro h; have h := Option.some.inj h; subst h; exact .tagged l t i hin hi hne ht h0
  · intro h
    cases h with
    | alone l i hin hi hne ht =>
      obtain ⟨h1, h2⟩ := info_of hl hD hat hr hin n
      rw [h1, h2, hi]
      dsimp only
      rw [if_neg hne]
      cases ht' : l.tags.head? with
      | none => rfl
      | some t => dsimp only; rw [if_pos (ht t ht')]
    | tagged l t i hin hi hne ht h0 =>
      obtain ⟨h1, h2⟩ := info_of hl hD hat hr hin n
      rw [h1, h2, hi, ht]
      dsimp only
      rw [if_neg hne, if_neg h0]

theorem in_place (hl : Loads D p T R) (hD : D = .dict sq) (h : InPlace sq) : Index.inPlace R = true := by
  obtain ⟨rs, hR⟩ := root_obj hl hD
  have hwf := root_wf hl
  subst hD
  rw [hR]
  unfold Index.inPlace
  dsimp only
  rw [List.all_eq_true]
  rintro ⟨k, t⟩ hx
  cases t with
  | obj c gs =>
    have hat : Places.At [] R [c!"paths", k] (.obj c gs) := by
      rw [hR]
      unfold attr at hx
      cases hg : Dict.get? rs c!"paths" with
      | none => rw [hg] at hx; cases hx
      | some v =>
        rw [hg] at hx
        cases v with
        | dict d => exact .field _ _ _ _ _ _ (by simp) (Dict.mem_of_get? hg) (.key _ _ _ _ _ hx (.here _))
        | _ => cases hx
    obtain ⟨iq, hw⟩ := written_of hl hat
    have hw' := hw
    obtain ⟨k', ht, hp⟩ := hw
    obtain ⟨paths, h1, h2, rfl⟩ : ∃ paths, Dict.get? sq c!"paths" = some (.dict paths) ∧ Dict.get? paths k = some (.dict iq) ∧ c = cPathItem := by
      cases hp with
      | field ht' hd hc hp =>
        cases takes_class ht'
        have : _ = some (Kind.dict cPathItem) := hc.symm.trans (by rfl : Dict.get? (v20 cSwagger).child c!"paths" = _)
        cases this
        cases hp with
        | field ht' => rcases ht' with h | h <;> cases h
        | key h1 h2 =>
          cases h2
          exact ⟨_, hd, h1, by rw [takes_class ht]; rfl⟩
    have href := h paths k iq h1 h2
    obtain ⟨fs, g1, g2, -⟩ := written_parse hl.read hw'
    have g3 := object_map (f := absolute (urlunparse p)) (filled hl) g2
    rw [← normal_form hl, mapRefs, Proofs.ScanTree.resolve_at hat hwf] at g3
    cases g3
    obtain ⟨fs', e, -, hf⟩ := C42.C42_fields _ iq _ g1
    cases e
    have := hf c!"$ref" (.atom .none) (by rfl) (by decide)
    rw [href] at this
    unfold Index.referring attr
    dsimp only
    rw [get_mapFields, this]
    rfl
  | _ => rfl

/-- **C88, index.** Preparing a document raises `SchemaError` exactly if two of its operations have the same name;
otherwise `app.op` holds the operations with a name, each under its name, and nothing else. -/
theorem C88_index (hl : Loads D p T R) (hD : D = .dict sq) (hlab : Labelled sq) (hin : InPlace sq) (sep : Str) :
    ∃ r, Index.index o R sep = some r ∧
      ((r = .error .SchemaError ∧ ∃ k m oq k' m' oq' n, (k, m) ≠ (k', m') ∧ C86.At sq k m oq ∧ C86.At sq k' m' oq' ∧
          Calls sep oq n ∧ Calls sep oq' n) ∨
       ∃ d, r = .ok d ∧ Dict.WF d ∧
        (∀ n i, Dict.get? d n = some i ↔ ∃ k m oq, C86.At sq k m oq ∧ Calls sep oq n ∧ i = o.num [c!"paths", k, m]) ∧
        ∀ k m oq k' m' oq' n, C86.At sq k m oq → C86.At sq k' m' oq' → Calls sep oq n → Calls sep oq' n → (k, m) = (k', m')) := by
  refine ⟨_, by unfold Index.index; rw [if_pos (in_place hl hD hin)], ?_⟩
  rw [C06.C06_index]
  obtain ⟨rs, hR⟩ := root_obj hl hD
  have hnd : (Scan.traversal R []).Nodup := by
    have := (C03.C03_order R [] (root_wf hl) (by rw [hR]; rfl)).1
    rw [List.nodup_iff_pairwise_ne, List.pairwise_map] at this
    rw [List.nodup_iff_pairwise_ne]
    exact this.imp fun h e => h (by rw [e])
  have hfm : (Index.ops o R).filterMap (entryKey sep) = (Scan.traversal R []).filterMap fun v => (Index.visit o v).bind (entryKey sep) := by
    unfold Index.ops
    rw [List.filterMap_filterMap]
  have hiff := nodup_filterMap (f := fun v => (Index.visit o v).bind (entryKey sep)) hnd
  rw [← hfm] at hiff
  have names : ∀ v n, (v ∈ Scan.traversal R [] ∧ (Index.visit o v).bind (entryKey sep) = some n) ↔
      ∃ k m oq gs, C86.At sq k m oq ∧ Tree.resolve [c!"paths", k, m] R = .ok (.obj cOperation gs) ∧
        v = (pointer [c!"paths", k, m], .obj cOperation gs) ∧ Calls sep oq n := by
    intro v n
    constructor
    · rintro ⟨h1, h2⟩
      obtain ⟨x, h2, h3⟩ := Option.bind_eq_some_iff.1 h2
      obtain ⟨k, m, oq, gs, hat, hr, rfl, rfl⟩ := (visits hl hD).1 ⟨h1, h2⟩
      exact ⟨k, m, oq, gs, hat, hr, rfl, (calls_iff hl hD hlab hat hr _ n).1 h3⟩
    · rintro ⟨k, m, oq, gs, hat, hr, rfl, hc⟩
      obtain ⟨h1, h2⟩ := (visits (o := o) hl hD).2 ⟨k, m, oq, gs, hat, hr, rfl, rfl⟩
      exact ⟨h1, by rw [h2, Option.bind_some]; exact (calls_iff hl hD hlab hat hr _ n).2 hc⟩
  have stands : ∀ {k m oq}, C86.At sq k m oq → ∃ gs, Tree.resolve [c!"paths", k, m] R = .ok (.obj cOperation gs) := by
    intro k m oq hat
    obtain ⟨gs, h⟩ := at_of hl ((operation_at hD).2 ⟨k, m, rfl, hat⟩)
    exact ⟨gs, Proofs.ScanTree.resolve_at h (root_wf hl)⟩
  have same : ((Index.ops o R).filterMap (entryKey sep)).Nodup ↔ ∀ k m oq k' m' oq' n, C86.At sq k m oq → C86.At sq k' m' oq' →
      Calls sep oq n → Calls sep oq' n → (k, m) = (k', m') := by
    rw [hiff]
    constructor
    · intro h k m oq k' m' oq' n h1 h2 c1 c2
      obtain ⟨gs, r1⟩ := stands h1
      obtain ⟨gs', r2⟩ := stands h2
      obtain ⟨m1, e1⟩ := (names _ n).2 ⟨k, m, oq, gs, h1, r1, rfl, c1⟩
      obtain ⟨m2, e2⟩ := (names _ n).2 ⟨k', m', oq', gs', h2, r2, rfl, c2⟩
      have := Proofs.ScanTree.pointer_inj (congrArg Prod.fst (h _ m1 _ m2 n e1 e2))
      cases this; rfl
    · intro h a ha b hb n e1 e2
      obtain ⟨k, m, oq, gs, h1, r1, rfl, c1⟩ := (names a n).1 ⟨ha, e1⟩
      obtain ⟨k', m', oq', gs', h2, r2, rfl, c2⟩ := (names b n).1 ⟨hb, e2⟩
      have := h k m oq k' m' oq' n h1 h2 c1 c2
      cases this
      rw [r1] at r2; cases r2; rfl
  by_cases hn : ((Index.ops o R).filterMap (entryKey sep)).Nodup
  · rw [if_pos hn]
    have hwf : Dict.WF (C06.expected sep (Index.ops o R)) := by
      have hk : (C06.expected sep (Index.ops o R)).keys = (Index.ops o R).filterMap (entryKey sep) := by
        simp only [Dict.keys, C06.expected, List.map_filterMap]
        congr 1; funext o
        cases entryKey sep o <;> rfl
      rw [Dict.WF, hk]; exact hn
    refine .inr ⟨_, rfl, hwf, fun n i => ?_, same.1 hn⟩
    constructor
    · intro h
      obtain ⟨x, h1, h2⟩ := List.mem_filterMap.1 (Dict.mem_of_get? h)
      obtain ⟨v, h3, h4⟩ := List.mem_filterMap.1 h1
      obtain ⟨k, m, oq, gs, hat, hr, rfl, rfl⟩ := (visits hl hD).1 ⟨h3, h4⟩
      cases he : entryKey sep (Index.infoOf (o.num [c!"paths", k, m]) gs) with
      | none => rw [he] at h2; cases h2
      | some n' =>
        rw [he] at h2; cases h2
        exact ⟨k, m, oq, hat, (calls_iff hl hD hlab hat hr _ _).1 he, rfl⟩
    · rintro ⟨k, m, oq, hat, hc, rfl⟩
      obtain ⟨gs, hr⟩ := stands hat
      obtain ⟨h1, h2⟩ := (visits (o := o) hl hD).2 ⟨k, m, oq, gs, hat, hr, rfl, rfl⟩
      exact Dict.get?_of_mem hwf (C06.mem_expected sep _ (Index.infoOf (o.num [c!"paths", k, m]) gs) (List.mem_filterMap.2 ⟨_, h1, h2⟩) n
        ((calls_iff hl hD hlab hat hr _ n).2 hc))
  · rw [if_neg hn]
    refine .inl ⟨rfl, ?_⟩
    rw [same] at hn
    simp only [Classical.not_forall] at hn
    obtain ⟨k, m, oq, k', m', oq', n, h1, h2, c1, c2, hne⟩ := hn
    exact ⟨k, m, oq, k', m', oq', n, hne, h1, h2, c1, c2⟩

/-- **C88, by tag and id.** `app.op[tag, operationId]` is the operation, for the first of its tags. -/
theorem C88_tagged (hl : Loads D p T R) (hD : D = .dict sq) (hlab : Labelled sq) (hin : InPlace sq) {d : Dict Str Nat}
    (h : Index.index o R sep = some (.ok d)) {k m : Str} {oq : Dict Str Tree} (hat : C86.At sq k m oq) {l : Label} (hlb : l.In oq)
    {t i : Str} (ht : l.tags.head? = some t) (hi : l.id = some i) (ht0 : t ≠ []) (hi0 : i ≠ []) :
    ScopeDict.getitem sep d (.tuple [some t, some i]) = .ok (o.num [c!"paths", k, m]) := by
  obtain ⟨r, h1, h2⟩ := C88_index (o := o) hl hD hlab hin sep
  rw [h] at h1; cases h1
  rcases h2 with ⟨h2, -⟩ | ⟨d', h2, -, h3, -⟩
  · cases h2
  · cases h2
    have := C05.C05_tuple sep d t [i] ht0 (by simpa using hi0)
    simp only [List.map_cons, List.map_nil] at this
    rw [this]
    apply C05.C05_exact
    simp only [join]
    exact (h3 _ _).2 ⟨k, m, oq, hat, .tagged l t i hlb hi hi0 ht ht0, rfl⟩

theorem lastComp_alone {i : Str} (h : ¬ sep <:+: i) : LastComp sep i i := .inl ⟨h, rfl⟩

/-- an id without the last character of the separator comes after the last separator -/
theorem lastComp_tagged {t i : Str} {x : Char} {s : Str} (hs : sep = s ++ [x]) (hx : x ∉ i) : LastComp sep (t ++ sep ++ i) i := by
  refine .inr ⟨t, rfl, fun n hn hp => ?_⟩
  obtain ⟨r, hr⟩ := hp
  have e : ((sep ++ i).drop n)[s.length]? = some x := by
    rw [← hr, hs, List.append_assoc, List.getElem?_append_right (Nat.le_refl _)]
    simp
  rw [List.getElem?_drop, List.getElem?_append_right (by rw [hs, List.length_append]; simp; omega)] at e
  exact hx (List.mem_of_getElem? e)

theorem lastComp_unique (hs : sep ≠ []) {j a b : Str} (h1 : LastComp sep j a) (h2 : LastComp sep j b) : a = b := by
  rw [← Proofs.Scope.rsplitLast_iff hs] at h1 h2
  rw [← h1, ← h2]

/-- **C88, by id.** `app.op[operationId]` is the operation, if no other has this id and the last character of the
separator is in no id. -/
theorem C88_id_partial (hl : Loads D p T R) (hD : D = .dict sq) (hlab : Labelled sq) (hin : InPlace sq) {d : Dict Str Nat}
    (h : Index.index o R sep = some (.ok d)) {x : Char} {s : Str} (hs : sep = s ++ [x])
    (hids : ∀ k m oq l i, C86.At sq k m oq → Label.In l oq → l.id = some i → x ∉ i)
    {k m : Str} {oq : Dict Str Tree} (hat : C86.At sq k m oq) {l : Label} (hlb : l.In oq)
    {i : Str} (hi : l.id = some i) (hi0 : i ≠ [])
    (hu : ∀ k' m' oq' l', C86.At sq k' m' oq' → Label.In l' oq' → l'.id = some i → (k', m') = (k, m)) :
    ScopeDict.getitem sep d (.plain i) = .ok (o.num [c!"paths", k, m]) := by
  obtain ⟨r, h1, h2⟩ := C88_index (o := o) hl hD hlab hin sep
  rw [h] at h1; cases h1
  rcases h2 with ⟨h2, -⟩ | ⟨d', h2, hwf, h3, h4⟩
  · cases h2
  · cases h2
    have hne : sep ≠ [] := by rw [hs]; simp
    have hni : ∀ {i : Str}, x ∉ i → ¬ sep <:+: i := by
      intro i hx hi
      exact hx (hi.subset (by rw [hs]; simp))
    -- the last component of a name is the id
    have last : ∀ {k m oq n}, C86.At sq k m oq → Calls sep oq n → ∃ l i, Label.In l oq ∧ l.id = some i ∧ LastComp sep n i := by
      intro k m oq n hat hc
      cases hc with
      | alone l i hin hi h0 ht => exact ⟨l, _, hin, hi, lastComp_alone (hni (hids _ _ _ _ _ hat hin hi))⟩
      | tagged l t i hin hi h0 ht ht0 => exact ⟨l, i, hin, hi, lastComp_tagged hs (hids _ _ _ _ _ hat hin hi)⟩
    obtain ⟨n, hc⟩ : ∃ n, Calls sep oq n := by
      cases ht : l.tags.head? with
      | none => exact ⟨i, .alone l i hlb hi hi0 fun t h => by rw [ht] at h; cases h⟩
      | some t =>
        by_cases h0 : t = []
        · exact ⟨i, .alone l i hlb hi hi0 fun t' h => by rw [ht] at h; cases h; exact h0⟩
        · exact ⟨_, .tagged l t i hlb hi hi0 ht h0⟩
    obtain ⟨gs, hg⟩ := at_of hl ((operation_at hD).2 ⟨k, m, rfl, hat⟩)
    have hr := Proofs.ScanTree.resolve_at hg (root_wf hl)
    have one : ∀ {a b}, Calls sep oq a → Calls sep oq b → a = b := by
      intro a b ha hb
      have e1 := (calls_iff hl hD hlab hat hr 0 a).2 ha
      rw [(calls_iff hl hD hlab hat hr 0 b).2 hb] at e1
      exact (Option.some.inj e1).symm
    obtain ⟨l', i', hlb', hi', hlast⟩ := last hat hc
    have hii : i' = i := by
      have e1 := (info_of hl hD hat hr hlb' 0).1
      rw [(info_of hl hD hat hr hlb 0).1, hi, hi'] at e1
      exact (Option.some.inj e1).symm
    subst hii
    refine C05.C05_short_name_partial sep hne d hwf i' n _ (hni (hids _ _ _ _ _ hat hlb hi)) (Dict.mem_of_get? ((h3 _ _).2 ⟨k, m, oq, hat, hc, rfl⟩))
      hlast fun j hj hz => ?_
    obtain ⟨v, hv⟩ := Option.isSome_iff_exists.1 ((Dict.get?_isSome_iff d j).2 hj)
    obtain ⟨k2, m2, oq2, hat2, hc2, rfl⟩ := (h3 _ _).1 hv
    obtain ⟨l2, i2, hlb2, hi2, hlast2⟩ := last hat2 hc2
    have := lastComp_unique hne hz hlast2
    subst this
    have := hu k2 m2 oq2 l2 hat2 hlb2 hi2
    cases this
    obtain ⟨-, q1, r1, s1, s2, s3⟩ := hat
    obtain ⟨-, q2, r2, s4, s5, s6⟩ := hat2
    rw [s1] at s4; cases s4
    rw [s2] at s5; cases s5
    rw [s3] at s6; cases s6
    exact one hc2 hc

theorem getitem_mem {d : Dict Str Nat} {key : ScopeKey} {n : Nat} (h : ScopeDict.getitem sep d key = .ok n) :
    ∃ k, Dict.get? d k = some n := by
  have idx : ∀ {k}, ScopeDict.getitem.index d k = .ok n → Dict.get? d k = some n := by
    intro k h
    unfold ScopeDict.getitem.index at h
    split at h <;> cases h
    assumption
  unfold ScopeDict.getitem at h
  split at h
  · cases h
  · split at h <;> cases h
  · split at h
    · next hk => cases h; exact ⟨_, hk⟩
    · split at h
      · cases h
      · exact ⟨_, idx h⟩
      · dsimp only at h
        split at h
        · exact ⟨_, idx h⟩
        · cases h

/-- **C88, nothing else.** Whatever `app.op[...]` returns is an operation of the document that has a name. -/
theorem C88_only (hl : Loads D p T R) (hD : D = .dict sq) (hlab : Labelled sq) (hin : InPlace sq) {d : Dict Str Nat}
    (h : Index.index o R sep = some (.ok d)) {key : ScopeKey} {n : Nat} (hg : ScopeDict.getitem sep d key = .ok n) :
    ∃ k m oq name, C86.At sq k m oq ∧ Calls sep oq name ∧ n = o.num [c!"paths", k, m] := by
  obtain ⟨r, h1, h2⟩ := C88_index (o := o) hl hD hlab hin sep
  rw [h] at h1; cases h1
  rcases h2 with ⟨h2, -⟩ | ⟨d', h2, hwf, h3, h4⟩
  · cases h2
  · cases h2
    obtain ⟨name, hn⟩ := getitem_mem hg
    obtain ⟨k, m, oq, a, b, c⟩ := (h3 _ _).1 hn
    exact ⟨k, m, oq, name, a, b, c⟩

/-! ## definitions -/

/-- **C88, definitions.** `app.m[name]` is the schema written under the name, and what `app.m[...]` returns is a schema
written under some name. -/
theorem C88_models (hl : Loads D p T R) (hD : D = .dict sq) (sep : Str) :
    (∀ n q, Written D [c!"definitions", n] cSchema q →
      ScopeDict.getitem sep (Index.models o R) (.plain n) = .ok (o.num [c!"definitions", n])) ∧
    ∀ key i, ScopeDict.getitem sep (Index.models o R) key = .ok i → ∃ n q, Written D [c!"definitions", n] cSchema q ∧
      i = o.num [c!"definitions", n] := by
  obtain ⟨rs, hR⟩ := root_obj hl hD
  have hwf := root_wf hl
  obtain ⟨d, hd, hobj, -⟩ := dict_written (c := cSwagger) (b := cSchema) (n := c!"definitions") (gs := rs) hl
    (hD ▸ C86.root_written sq) (by rfl) (by rw [hR, Tree.resolve])
  have hm : ∀ n i, Dict.get? (Index.models o R) n = some i ↔ i = o.num [c!"definitions", n] ∧ ∃ q, Written D [c!"definitions", n] cSchema q := by
    intro n i
    have hmap : ∀ (l : List (Str × Tree)), Dict.get? (l.map fun x => (x.1, o.num [c!"definitions", x.1])) n =
        (Dict.get? l n).map fun _ => o.num [c!"definitions", n] := by
      intro l
      induction l with
      | nil => rfl
      | cons x l ih =>
        obtain ⟨a, b⟩ := x
        simp only [List.map_cons, Dict.get?]
        split
        · next e => subst e; rfl
        · exact ih
    unfold Index.models
    rw [hR]
    dsimp only
    rw [hmap]
    rw [show attr rs c!"definitions" = .dict d by unfold attr; rw [hd]; rfl]
    dsimp only [entries]
    constructor
    · intro h
      cases hg : Dict.get? d n with
      | none => rw [hg] at h; cases h
      | some t =>
        rw [hg] at h
        cases h
        obtain ⟨fs, rfl⟩ := hobj n t hg
        exact ⟨rfl, written_of hl (by rw [hR]; exact .field _ _ _ _ _ _ (by simp) (Dict.mem_of_get? hd) (.key _ _ _ _ _ (Dict.mem_of_get? hg) (.here _)))⟩
    · rintro ⟨rfl, q, hw⟩
      obtain ⟨gs, hat⟩ := at_of hl hw
      have := Proofs.ScanTree.resolve_at hat hwf
      rw [hR, Tree.resolve, hd] at this
      dsimp only at this
      rw [Tree.resolve] at this
      cases hg : Dict.get? d n with
      | none => rw [hg] at this; cases this
      | some t => rfl
  constructor
  · intro n q hw
    exact C05.C05_exact _ _ _ _ ((hm _ _).2 ⟨rfl, q, hw⟩)
  · intro key i h
    obtain ⟨n, hn⟩ := getitem_mem h
    obtain ⟨rfl, q, hw⟩ := (hm _ _).1 hn
    exact ⟨n, q, hw, rfl⟩

/-! ## what is found -/

theorem parameters_of (hl : Loads D p T R) {ts : List Str} {c b : Nat} {q : Dict Str Tree} (hw : Written D ts c q)
    (hc : Dict.get? (v20 c).child c!"parameters" = some (.list b)) :
    Index.parameters o R (o.num ts) = (elements ts c!"parameters" q).map o.num := by
  obtain ⟨gs, e, h1, -⟩ := fields_of hl hw
  have h2 := list_written hl hw hc h1
  unfold Index.parameters
  rw [o.left, h1]
  dsimp only
  rw [← h2, List.map_map]
  rfl

theorem index_operation (hl : Loads D p T R) (hD : D = .dict sq) {order : List Atom → List Atom} {k m : Str} {iq oq : Dict Str Tree}
    (hitem : Written D [c!"paths", k] cPathItem iq) (hat : C86.At sq k m oq) {mfuel : Nat} {deref : Nat → Except Exc Nat} {ps : List Call.Decl}
    {op : Io.Op Nat}
    (h1 : Objects.decls o (urlunparse p) R order mfuel ((elements [c!"paths", k, m] c!"parameters" oq).map o.num)
      ((elements [c!"paths", k] c!"parameters" iq).map o.num) = some ps)
    (h3 : _root_.Service.operation (urlunparse p) R [c!"paths", k] m deref ps = some op) :
    Index.operation o (urlunparse p) R order mfuel deref (o.num [c!"paths", k, m]) = some (op, ps) := by
  unfold Index.operation Index.parent
  rw [o.left]
  rw [parameters_of (b := cParameter) hl ((operation_at hD).2 ⟨k, m, rfl, hat⟩) (by rfl)]
  rw [show [c!"paths", k, m].dropLast = [c!"paths", k] from rfl, parameters_of (b := cParameter) hl hitem (by rfl), h1]
  dsimp only
  rw [show [c!"paths", k, m].getLastD [] = m from rfl, h3]
  rfl

/-- **C88, operations.** What a call of the operation found works with is what the document says: the parameters are the
ones declared for it, and a request goes where the document says (C83 and C86 are about these). -/
theorem C88_operation (hl : Loads D p T R) (hD : D = .dict sq) (hst : Styled D) {order : List Atom → List Atom}
    (ho : ∀ l, (order l).Perm l) {s : Spec.Service.Common} (hs : s.In sq) {k m : Str} {iq oq : Dict Str Tree}
    {qs us : List (Dict Str Tree)} (hask : C83.Asked D p [c!"paths", k] m iq oq qs us) {a : Spec.Service.Own} (ha : a.In oq)
    {w : Prim.World.Outside} (hw : C74.Sound w) (hat : C86.At sq k m oq) (deref : Nat → Except Exc Nat) :
    ∃ b, ∀ mfuel, b ≤ mfuel → ∀ rounds, b ≤ rounds →
    ∃ op ps, Index.operation o (urlunparse p) R order mfuel deref (o.num [c!"paths", k, m]) = some (op, ps) ∧ Says s a p k m op ∧
      op.parameters.map (fun d => (d.name, d.in_)) = ps.map (fun d => (d.name, d.in_)) ∧
      ∀ e, List.Forall₂ (Spec.Described.Declared (Prim.World.env w (Objects.env o (urlunparse p) R order mfuel rounds e))) ps
        (Spec.Described.inForce qs us) := by
  obtain ⟨b, hb⟩ := C83.C83_parameters (o := o) hl hst ho hask hw
  refine ⟨b, fun mfuel hm rounds hr => ?_⟩
  obtain ⟨ps, h1, h2⟩ := hb mfuel hm rounds hr
  obtain ⟨op, h3, h4, h5⟩ := C86.C86_operation hl hD hs hat ha deref ps
  exact ⟨op, ps, index_operation hl hD hask.item hat h1 h3, h4, h5, h2⟩

/-- **C88, path items.** `app.s(path)` is the object for the path, and its attribute named after the method is the
operation. -/
theorem C88_path (hl : Loads D p T R) (hD : D = .dict sq) {app : AppResolve.App} (happ : app.root = R) (n : Nat) {objs : AppResolve.Objs}
    (hn : C67.NoLocal app objs) {k m : Str} {oq : Dict Str Tree} (hat : C86.At sq k m oq) {path : Str}
    (hp : k = path ∨ k = '/' :: path ∧ path.head? ≠ some '/') (hk : k.head? = some '/') :
    ∃ gs t, AppResolve.s app (n + 1) objs path = (.ok (.obj cPathItem gs), objs) ∧ Dict.get? gs m = some t ∧
      Tree.resolve [c!"paths", k, m] R = .ok t ∧ cls? t = some cOperation := by
  obtain ⟨rs, hR⟩ := root_obj hl hD
  obtain ⟨d, hd, hobj, hall⟩ := dict_written (c := cSwagger) (b := cPathItem) (n := c!"paths") (gs := rs) hl
    (hD ▸ C86.root_written sq) (by rfl) (by rw [hR, Tree.resolve])
  have hs := C67.C67_path app n objs hn (by rw [happ, hR]) hd (fun x hx => by obtain ⟨fs, h⟩ := hall x hx; rw [h]; rfl) path
  have he : C67.absolute path = k := by
    rcases hp with rfl | ⟨rfl, h⟩
    · cases k with
      | nil => cases hk
      | cons c cs => cases hk; rfl
    · cases path with
      | nil => rfl
      | cons c cs =>
        unfold C67.absolute
        split
        · next h' => cases h'; exact absurd rfl h
        · rfl
  rw [he] at hs
  obtain ⟨gs, hg⟩ := at_of hl ((operation_at hD).2 ⟨k, m, rfl, hat⟩)
  have hr := Proofs.ScanTree.resolve_at hg (root_wf hl)
  have hr' := hr
  rw [hR, Tree.resolve, hd] at hr'
  dsimp only at hr'
  rw [Tree.resolve] at hr'
  cases hi : Dict.get? d k with
  | none => rw [hi] at hr'; cases hr'
  | some t =>
    rw [hi] at hr' hs
    dsimp only at hr'
    obtain ⟨fs, rfl⟩ := hobj k t hi
    rw [Tree.resolve] at hr'
    cases hm : Dict.get? fs m with
    | none => rw [hm] at hr'; cases hr'
    | some t' =>
      rw [hm] at hr'
      dsimp only at hr'
      rw [Tree.resolve] at hr'
      cases hr'
      exact ⟨fs, _, hs, hm, hr, rfl⟩

end Props.C88
