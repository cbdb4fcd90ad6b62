import Verif.Proofs.Compose
/-!
# C53: `allOf` composition yields the union of properties, own ones first

`h` are the schemas as loaded (`Spec.Aggregate.Loaded`), `xs` those visited by the scanner in any
order, `h'` the schemas afterwards. Composition terminates, whatever cycles the references form; the
composed schema has exactly the properties of the schema and of all its parts; its own ones win. The
last point does not carry over to the parts: a part that refines a property of its own base loses
against that base (`C53_override_false`).
-/

namespace Props.C53
open Py _root_.Aggregate Spec.Aggregate Spec.Merge Proofs.Aggregate

variable {h h' : Heap} {xs : List Nat}

/-- Composition terminates. -/
theorem C53_terminates (ld : Loaded h) (hxs : ∀ x ∈ xs, x < h.length) : ∃ h', aggregate h xs = some h' := by
  obtain ⟨h', he, _⟩ := aggregate_ok ld xs h (valid_loaded ld) hxs
  exact ⟨h', he⟩

theorem facts (ld : Loaded h) (hxs : ∀ x ∈ xs, x < h.length) (he : aggregate h xs = some h') :
    Valid h h' ∧ Fin h h' ∧ ∀ x ∈ xs, ∀ t, Ends h x t → (look h' t).final.isSome := by
  obtain ⟨h'', he', r⟩ := aggregate_ok ld xs h (valid_loaded ld) hxs
  rw [he] at he'; cases he'
  exact r

/-- Every schema visited, or referenced by one, is composed. -/
theorem C53_composed (ld : Loaded h) (hxs : ∀ x ∈ xs, x < h.length) (he : aggregate h xs = some h')
    {x y : Nat} (hx : x ∈ xs) (hy : Ends h x y) : (look h' y).final.isSome :=
  (facts ld hxs he).2.2 x hx y hy

/-- The schemas of the document stay as they are. -/
theorem C53_document (ld : Loaded h) (hxs : ∀ x ∈ xs, x < h.length) (he : aggregate h xs = some h')
    {x : Nat} (hx : x < h.length) : look h' x = { look h x with final := (look h' x).final } :=
  (facts ld hxs he).1.orig x hx

theorem finalFacts (ld : Loaded h) (hxs : ∀ x ∈ xs, x < h.length) (he : aggregate h xs = some h')
    {y f : Nat} (hy : y < h.length) (hf : (look h' y).final = some f) :
    ObjOk h h' (look h' f) ∧ (look h' f).origin = y ∧ Complete h (look h' f) := by
  obtain ⟨v, _, _⟩ := facts ld hxs he
  obtain ⟨f1, _, f3, f4⟩ := (v.ok y (Nat.lt_of_lt_of_le hy v.len)).fin f hf
  exact ⟨v.ok f f1, f3.trans (v.orig' ld hy).2.1, f4⟩

/-- The composed schema has the properties of the schema and of all its parts, and no others. -/
theorem C53_union (ld : Loaded h) (hxs : ∀ x ∈ xs, x < h.length) (he : aggregate h xs = some h')
    {y f : Nat} (hy : y < h.length) (hf : (look h' y).final = some f) (n : Str) :
    n ∈ Dict.keys (look h' f).props ↔
      n ∈ Dict.keys (look h y).props ∨ ∃ z, Part h y z ∧ n ∈ Dict.keys (look h z).props := by
  obtain ⟨ok, ho, hc⟩ := finalFacts ld hxs he hy hf
  constructor
  · intro hn
    obtain ⟨p, hp⟩ := Option.isSome_iff_exists.1 ((Dict.get?_isSome_iff _ _).2 hn)
    obtain ⟨z, hz, hg⟩ := ok.sound n p hp
    rw [ho] at hz
    have hk : n ∈ Dict.keys (look h z).props := (Dict.get?_isSome_iff _ _).1 (by rw [hg]; rfl)
    rcases hz with rfl | hz
    · exact Or.inl hk
    · exact Or.inr ⟨z, hz, hk⟩
  · rintro (hn | ⟨z, hz, hn⟩)
    · obtain ⟨p0, hp0⟩ := Option.isSome_iff_exists.1 ((Dict.get?_isSome_iff _ _).2 hn)
      obtain ⟨p, hp, _⟩ := ok.own n p0 (by rw [ho]; exact hp0)
      exact (Dict.get?_isSome_iff _ _).1 (by rw [hp]; rfl)
    · exact (hc z (by rw [ho]; exact hz)).1 n hn

/-- An own property of the schema is in the composed schema (as a copy). -/
theorem C53_own (ld : Loaded h) (hxs : ∀ x ∈ xs, x < h.length) (he : aggregate h xs = some h')
    {y f : Nat} (hy : y < h.length) (hf : (look h' y).final = some f) {n : Str} {p0 : Nat}
    (hp : Dict.get? (look h y).props n = some p0) :
    ∃ p, Dict.get? (look h' f).props n = some p ∧ (look h' p).origin = p0 := by
  obtain ⟨ok, ho, _⟩ := finalFacts ld hxs he hy hf
  exact ok.own n p0 (by rw [ho]; exact hp)

/-- Any other property of the composed schema is one of a part (or a copy of it). -/
theorem C53_inherited (ld : Loaded h) (hxs : ∀ x ∈ xs, x < h.length) (he : aggregate h xs = some h')
    {y f : Nat} (hy : y < h.length) (hf : (look h' y).final = some f) {n : Str} {p : Nat}
    (hn : n ∉ Dict.keys (look h y).props) (hp : Dict.get? (look h' f).props n = some p) :
    ∃ z, Part h y z ∧ Dict.get? (look h z).props n = some (look h' p).origin := by
  obtain ⟨ok, ho, _⟩ := finalFacts ld hxs he hy hf
  obtain ⟨z, hz, hg⟩ := ok.sound n p hp
  rw [ho] at hz
  rcases hz with rfl | hz
  · exact absurd ((Dict.get?_isSome_iff _ _).1 (by rw [hg]; rfl)) hn
  · exact ⟨z, hz, hg⟩

/-- Copies are faithful: an object with a given origin has the same reference, plain values and shape, and
its children are copies of the children of the origin. The properties of a composed schema are
never composed schemas themselves. -/
theorem C53_copies (ld : Loaded h) (hxs : ∀ x ∈ xs, x < h.length) (he : aggregate h xs = some h')
    {y f : Nat} (hy : y < h.length) (hf : (look h' y).final = some f) {n : Str} {p : Nat}
    (hp : Dict.get? (look h' f).props n = some p) :
    (look h' p).composed = false ∧ ∀ q, q < h'.length → (look h' q).composed = false →
      (look h' q).ref = (look h (look h' q).origin).ref ∧
      (∀ n, n ∈ Dict.keys (look h' q).values ↔ n ∈ Dict.keys (look h (look h' q).origin).values) ∧
      (∀ n v w, Dict.get? (look h (look h' q).origin).values n = some v →
        Dict.get? (look h' q).values n = some w → Like v w) ∧
      (look h' q).items.map (fun a => (look h' a).origin) = (look h (look h' q).origin).items ∧
      (look h' q).props.map (fun e => (e.1, (look h' e.2).origin)) = (look h (look h' q).origin).props ∧
      (look h' q).allOf.map (fun a => (look h' a).origin) = (look h (look h' q).origin).allOf := by
  obtain ⟨ok, _, _⟩ := finalFacts ld hxs he hy hf
  refine ⟨(ok.propsLt n p (Dict.mem_of_get? hp)).2, fun q hq hc => ?_⟩
  obtain ⟨v, _, _⟩ := facts ld hxs he
  have okq := v.ok q hq
  obtain ⟨q1, q2, q3⟩ := okq.plain hc
  refine ⟨okq.ref, fun n => ⟨fun hn => ?_, fun hn => ?_⟩, fun n v w hv hw => ?_, q1, q2, okq.allOf⟩
  · obtain ⟨w, hw⟩ := Option.isSome_iff_exists.1 ((Dict.get?_isSome_iff _ _).2 hn)
    obtain ⟨v, hv, _⟩ := q3.2 n w hw
    exact (Dict.get?_isSome_iff _ _).1 (by rw [hv]; rfl)
  · obtain ⟨v, hv⟩ := Option.isSome_iff_exists.1 ((Dict.get?_isSome_iff _ _).2 hn)
    obtain ⟨w, hw, _⟩ := q3.1 n v hv
    exact (Dict.get?_isSome_iff _ _).1 (by rw [hw]; rfl)
  · obtain ⟨w', hw', hl⟩ := q3.1 n v hv
    rw [hw] at hw'; cases hw'; exact hl

/-- Plain fields (`type`, `required`, `enum`, `default`, ...): the composed schema has those of the schema
and its parts; each value is made from theirs, has the own one and covers all; it is lost (`merge`
raises) only if two of them are not alike. -/
theorem C53_values (ld : Loaded h) (hxs : ∀ x ∈ xs, x < h.length) (he : aggregate h xs = some h')
    {y f : Nat} (hy : y < h.length) (hf : (look h' y).final = some f) (n : Str) :
    (n ∈ Dict.keys (look h' f).values ↔ ∃ t, Has h y n t) ∧
    ∀ v, Dict.get? (look h' f).values n = some v → Comes h y n v ∧
      (∀ t, Dict.get? (look h y).values n = some (some t) → Keeps h y n v t) ∧
      ∀ t, Has h y n t → Covers v t := by
  obtain ⟨ok, ho, hc⟩ := finalFacts ld hxs he hy hf
  have hall : ∀ t, Has h y n t → ∃ v, Dict.get? (look h' f).values n = some v ∧ Covers v t := by
    rintro t ⟨z, rfl | hz, hg⟩
    · obtain ⟨v, hv, hk⟩ := ok.sown n t (by rw [ho]; exact hg)
      exact ⟨v, hv, keeps_covers hk⟩
    · exact (hc z (by rw [ho]; exact hz)).2.1 n t hg
  refine ⟨⟨fun hn => ?_, ?_⟩, fun v hv => ⟨by rw [← ho]; exact ok.ssound n v hv, fun t ht => ?_, fun t ht => ?_⟩⟩
  · obtain ⟨v, hv⟩ := Option.isSome_iff_exists.1 ((Dict.get?_isSome_iff _ _).2 hn)
    have := ok.ssound n v hv
    rw [ho] at this
    cases v with
    | none => obtain ⟨t, _, ht, _⟩ := this; exact ⟨t, ht⟩
    | some u => obtain ⟨t, ht, _⟩ := comes_has this; exact ⟨t, ht⟩
  · rintro ⟨t, ht⟩
    obtain ⟨v, hv, _⟩ := hall t ht
    exact (Dict.get?_isSome_iff _ _).1 (by rw [hv]; rfl)
  · obtain ⟨w, hw, hk⟩ := ok.sown n t (by rw [ho]; exact ht)
    rw [hv] at hw; cases hw
    rw [ho] at hk; exact hk
  · obtain ⟨w, hw, hk⟩ := hall t ht
    rw [hv] at hw; cases hw; exact hk

/-- No value is lost where those of the schema and its parts are alike. -/
theorem C53_alike (ld : Loaded h) (hxs : ∀ x ∈ xs, x < h.length) (he : aggregate h xs = some h')
    {y f : Nat} (hy : y < h.length) (hf : (look h' y).final = some f) {n : Str}
    (ha : ∀ t u, Has h y n t → Has h y n u → Alike t u) {v : Value}
    (hv : Dict.get? (look h' f).values n = some v) : ∃ t, v = some t := by
  cases v with
  | some t => exact ⟨t, rfl⟩
  | none =>
    obtain ⟨t, u, h1, h2, h3⟩ := ((C53_values ld hxs he hy hf n).2 _ hv).1
    exact absurd (ha t u h1 h2) h3

/-- No value is lost anywhere, in composed schemas or copies, if the values of every schema and its parts
are alike. -/
theorem C53_whole (ld : Loaded h) (hxs : ∀ x ∈ xs, x < h.length) (he : aggregate h xs = some h')
    (ha : ∀ y < h.length, ∀ n t u, Has h y n t → Has h y n u → Alike t u) {x : Nat} (hx : x < h'.length)
    {n : Str} {v : Value} (hv : Dict.get? (look h' x).values n = some v) : ∃ t, v = some t := by
  obtain ⟨val, _, _⟩ := facts ld hxs he
  have ok := val.ok x hx
  cases v with
  | some t => exact ⟨t, rfl⟩
  | none =>
    obtain ⟨t, u, h1, h2, h3⟩ := ok.ssound n none hv
    exact absurd (ha _ ok.org n t u h1 h2) h3

theorem wellformed (ld : Loaded h) (hxs : ∀ x ∈ xs, x < h.length) (he : aggregate h xs = some h') {x : Nat} (hx : x < h'.length) :
    Dict.WF (look h' x).values := by
  obtain ⟨val, _, _⟩ := facts ld hxs he
  exact (val.ok x hx).wfs

/-- A scalar of the schema itself wins against those of its parts, and without one the scalar of a part
is taken. -/
theorem C53_scalars (ld : Loaded h) (hxs : ∀ x ∈ xs, x < h.length) (he : aggregate h xs = some h')
    {y f : Nat} (hy : y < h.length) (hf : (look h' y).final = some f) {n : Str}
    (ha : ∀ t, Has h y n t → ∃ a, t = .atom a) :
    (∀ t, Dict.get? (look h y).values n = some (some t) → Dict.get? (look h' f).values n = some (some t)) ∧
    (n ∉ Dict.keys (look h y).values → ∀ v, Dict.get? (look h' f).values n = some v →
      ∃ z, Part h y z ∧ Dict.get? (look h z).values n = some v) := by
  have hal : ∀ t u, Has h y n t → Has h y n u → Alike t u := by
    intro t u ht hu
    obtain ⟨a, rfl⟩ := ha t ht
    obtain ⟨b, rfl⟩ := ha u hu
    trivial
  obtain ⟨hk, hall⟩ := C53_values ld hxs he hy hf n
  refine ⟨fun t ht => ?_, fun hn v hv => ?_⟩
  · have hs : Has h y n t := ⟨y, Or.inl rfl, ht⟩
    obtain ⟨a, rfl⟩ := ha t hs
    obtain ⟨v, hv⟩ := Option.isSome_iff_exists.1 ((Dict.get?_isSome_iff _ _).2 (hk.2 ⟨_, hs⟩))
    obtain ⟨u, rfl⟩ := C53_alike ld hxs he hy hf hal hv
    rcases ((hall _ hv).2.1 _ ht u rfl).1 a rfl with rfl | ⟨_, w, hw, hna⟩
    · exact hv
    · exact absurd (hal _ _ hs hw) hna
  · obtain ⟨u, rfl⟩ := C53_alike ld hxs he hy hf hal hv
    have hc := (hall _ hv).1
    cases u with
    | atom a =>
      obtain ⟨z, rfl | hz, hg⟩ := hc
      · exact absurd ((Dict.get?_isSome_iff _ _).1 (by rw [hg]; rfl)) hn
      · exact ⟨z, hz, hg⟩
    | list l => obtain ⟨⟨m, hm⟩, _⟩ := hc; obtain ⟨a, h⟩ := ha _ hm; cases h
    | dict l => obtain ⟨_, ⟨m, hm⟩, _⟩ := hc; obtain ⟨a, h⟩ := ha _ hm; cases h
    | obj _ _ => cases hc

/-- A field with lists (`required`, `enum`): the composed schema has the elements of all of them and no
others. -/
theorem C53_lists (ld : Loaded h) (hxs : ∀ x ∈ xs, x < h.length) (he : aggregate h xs = some h')
    {y f : Nat} (hy : y < h.length) (hf : (look h' y).final = some f) {n : Str}
    (ha : ∀ t, Has h y n t → ∃ l, t = .list l) (hn : ∃ t, Has h y n t) :
    ∃ m, Dict.get? (look h' f).values n = some (some (.list m)) ∧
      ∀ e, In e m ↔ ∃ l, Has h y n (.list l) ∧ In e l := by
  have hal : ∀ t u, Has h y n t → Has h y n u → Alike t u := by
    intro t u ht hu
    obtain ⟨a, rfl⟩ := ha t ht
    obtain ⟨b, rfl⟩ := ha u hu
    trivial
  obtain ⟨hk, hall⟩ := C53_values ld hxs he hy hf n
  obtain ⟨v, hv⟩ := Option.isSome_iff_exists.1 ((Dict.get?_isSome_iff _ _).2 (hk.2 hn))
  obtain ⟨u, rfl⟩ := C53_alike ld hxs he hy hf hal hv
  obtain ⟨hc, _, hcov⟩ := hall _ hv
  cases u with
  | atom a => obtain ⟨l, h⟩ := ha _ hc; cases h
  | dict l => obtain ⟨_, ⟨m, hm⟩, _⟩ := hc; obtain ⟨a, h⟩ := ha _ hm; cases h
  | obj _ _ => cases hc
  | list m =>
    refine ⟨m, hv, fun e => ⟨hc.2 e, ?_⟩⟩
    rintro ⟨l, hl, hin⟩
    obtain ⟨m', h1, h2⟩ := (hcov _ hl _ rfl).1 l e rfl hin
    cases h1; exact h2

/-- A field with dicts (`x-...`, `example`): the composed schema has the keys of all of them and no
others; its own entries win, the others are from a part. -/
theorem C53_dicts (ld : Loaded h) (hxs : ∀ x ∈ xs, x < h.length) (he : aggregate h xs = some h')
    {y f : Nat} (hy : y < h.length) (hf : (look h' y).final = some f) {n : Str}
    (ha : ∀ t, Has h y n t → ∃ d, t = .dict d) (hn : ∃ t, Has h y n t) :
    ∃ m, Dict.get? (look h' f).values n = some (some (.dict m)) ∧
      (∀ k, k ∈ Dict.keys m ↔ ∃ d, Has h y n (.dict d) ∧ k ∈ Dict.keys d) ∧
      (∀ k t, Dict.get? m k = some t → ∃ d, Has h y n (.dict d) ∧ Dict.get? d k = some t) ∧
      ∀ d k t, Dict.get? (look h y).values n = some (some (.dict d)) → Dict.get? d k = some t →
        Dict.get? m k = some t := by
  have hal : ∀ t u, Has h y n t → Has h y n u → Alike t u := by
    intro t u ht hu
    obtain ⟨a, rfl⟩ := ha t ht
    obtain ⟨b, rfl⟩ := ha u hu
    trivial
  obtain ⟨hk, hall⟩ := C53_values ld hxs he hy hf n
  obtain ⟨v, hv⟩ := Option.isSome_iff_exists.1 ((Dict.get?_isSome_iff _ _).2 (hk.2 hn))
  obtain ⟨u, rfl⟩ := C53_alike ld hxs he hy hf hal hv
  obtain ⟨hc, hown, hcov⟩ := hall _ hv
  cases u with
  | atom a => obtain ⟨l, h⟩ := ha _ hc; cases h
  | list l => obtain ⟨⟨m, hm⟩, _⟩ := hc; obtain ⟨a, h⟩ := ha _ hm; cases h
  | obj _ _ => cases hc
  | dict m =>
    refine ⟨m, hv, fun k => ⟨fun hkm => ?_, ?_⟩, hc.2.2, fun d k t hd ht => ?_⟩
    · obtain ⟨t, ht⟩ := Option.isSome_iff_exists.1 ((Dict.get?_isSome_iff _ _).2 hkm)
      obtain ⟨d, hd, hg⟩ := hc.2.2 k t ht
      exact ⟨d, hd, (Dict.get?_isSome_iff _ _).1 (by rw [hg]; rfl)⟩
    · rintro ⟨d, hd, hkd⟩
      obtain ⟨m', h1, h2⟩ := (hcov _ hd _ rfl).2 d k rfl hkd
      cases h1; exact h2
    · obtain ⟨e, h1, h2⟩ := (hown _ hd _ rfl).2.2 d k t rfl ht
      cases h1; exact h2

/-- The own `items` win. -/
theorem C53_items (ld : Loaded h) (hxs : ∀ x ∈ xs, x < h.length) (he : aggregate h xs = some h')
    {y f : Nat} (hy : y < h.length) (hf : (look h' y).final = some f) {i : Nat}
    (hi : (look h y).items = some i) :
    ∃ j, (look h' f).items = some j ∧ (look h' j).origin = i := by
  obtain ⟨ok, ho, _⟩ := finalFacts ld hxs he hy hf
  exact ok.itemsOwn i (by rw [ho]; exact hi)

/-- The composed schema has `items` if the schema or a part has them, and they are a copy of those of one of these. -/
theorem C53_items_inherited (ld : Loaded h) (hxs : ∀ x ∈ xs, x < h.length) (he : aggregate h xs = some h')
    {y f : Nat} (hy : y < h.length) (hf : (look h' y).final = some f) :
    ((∃ z, (z = y ∨ Part h y z) ∧ (look h z).items.isSome) → (look h' f).items.isSome) ∧
    ∀ j, (look h' f).items = some j → ∃ z, (z = y ∨ Part h y z) ∧ (look h z).items = some (look h' j).origin := by
  obtain ⟨ok, ho, hc⟩ := finalFacts ld hxs he hy hf
  refine ⟨?_, fun j hj => by obtain ⟨z, hz, hg⟩ := ok.itemsSound j hj; exact ⟨z, ho ▸ hz, hg⟩⟩
  rintro ⟨z, rfl | hz, hi⟩
  · obtain ⟨i, hi⟩ := Option.isSome_iff_exists.1 hi
    obtain ⟨j, hj, _⟩ := ok.itemsOwn i (by rw [ho]; exact hi)
    rw [hj]; rfl
  · exact (hc z (by rw [ho]; exact hz)).2.2 hi

/-! ## a document

`A` (0) has the part `B` (2), `B` has the part `C` (5); both define `x`. -/

def world : Heap := [⟨none, none, none, [], [1], [], 0, false⟩, ⟨some 2, none, none, [], [], [], 1, false⟩,
  ⟨none, none, none, [(c!"x", 3)], [4], [], 2, false⟩, ⟨none, none, none, [], [], [], 3, false⟩,
  ⟨some 5, none, none, [], [], [], 4, false⟩, ⟨none, none, none, [(c!"x", 6)], [], [], 5, false⟩,
  ⟨none, none, none, [], [], [], 6, false⟩]

theorem small {n x : Nat} (hx : x < n) (hn : n = 7) :
    x = 0 ∨ x = 1 ∨ x = 2 ∨ x = 3 ∨ x = 4 ∨ x = 5 ∨ x = 6 := by omega

theorem world_loaded : Loaded world := by
  refine ⟨?_, ?_, ?_, ?_, ?_, ?_, ?_, ⟨fun x => if x = 0 ∨ x = 2 ∨ x = 5 then 1 else 0, ?_⟩⟩ <;>
  · intro x hx
    rcases small hx rfl with rfl | rfl | rfl | rfl | rfl | rfl | rfl <;>
      simp [world, look, Dict.WF, Dict.keys, Dict.get?]

macro "run" : tactic => `(tactic| simp [compose, composeAll, finish, gather, deref, mergeInto, mergeItems,
  mergeProps, addProps, finalOr, look, copyObj, copyOpt, copyList, copyDict, Dict.set, Dict.keys,
  joinValues, Dict.get?])

def world1 : Heap := [⟨none, none, none, [], [1], [], 0, false⟩, ⟨some 2, none, none, [], [], [], 1, false⟩,
  ⟨none, none, none, [(c!"x", 3)], [4], [], 2, false⟩, ⟨none, some 8, none, [], [], [], 3, false⟩,
  ⟨some 5, none, none, [], [], [], 4, false⟩, ⟨none, some 10, none, [(c!"x", 6)], [], [], 5, false⟩,
  ⟨none, some 7, none, [], [], [], 6, false⟩, ⟨none, none, none, [], [], [], 6, true⟩,
  ⟨none, none, none, [], [], [], 3, true⟩, ⟨none, some 7, none, [], [], [], 6, false⟩,
  ⟨none, none, none, [(c!"x", 9)], [], [], 5, true⟩]

def world2 : Heap := [⟨none, none, none, [], [1], [], 0, false⟩, ⟨some 2, none, none, [], [], [], 1, false⟩,
  ⟨none, some 13, none, [(c!"x", 3)], [4], [], 2, false⟩, ⟨none, some 8, none, [], [], [], 3, false⟩,
  ⟨some 5, none, none, [], [], [], 4, false⟩, ⟨none, some 10, none, [(c!"x", 6)], [], [], 5, false⟩,
  ⟨none, some 7, none, [], [], [], 6, false⟩, ⟨none, none, none, [], [], [], 6, true⟩,
  ⟨none, none, none, [], [], [], 3, true⟩, ⟨none, some 7, none, [], [], [], 6, false⟩,
  ⟨none, none, none, [(c!"x", 9)], [], [], 5, true⟩, ⟨none, some 8, none, [], [], [], 3, false⟩,
  ⟨some 5, none, none, [], [], [], 4, false⟩, ⟨none, none, none, [(c!"x", 11)], [12], [], 2, true⟩]

def world3 : Heap := [⟨none, some 15, none, [], [1], [], 0, false⟩, ⟨some 2, none, none, [], [], [], 1, false⟩,
  ⟨none, some 13, none, [(c!"x", 3)], [4], [], 2, false⟩, ⟨none, some 8, none, [], [], [], 3, false⟩,
  ⟨some 5, none, none, [], [], [], 4, false⟩, ⟨none, some 10, none, [(c!"x", 6)], [], [], 5, false⟩,
  ⟨none, some 7, none, [], [], [], 6, false⟩, ⟨none, none, none, [], [], [], 6, true⟩,
  ⟨none, none, none, [], [], [], 3, true⟩, ⟨none, some 7, none, [], [], [], 6, false⟩,
  ⟨none, none, none, [(c!"x", 9)], [], [], 5, true⟩, ⟨none, some 8, none, [], [], [], 3, false⟩,
  ⟨some 5, none, none, [], [], [], 4, false⟩, ⟨none, none, none, [(c!"x", 11)], [12], [], 2, true⟩,
  ⟨some 2, none, none, [], [], [], 1, false⟩, ⟨none, none, none, [(c!"x", 9)], [14], [], 0, true⟩,
  ⟨none, some 8, none, [], [], [], 3, false⟩]

def worldA : Heap := [⟨none, none, none, [], [1], [], 0, false⟩, ⟨some 2, none, none, [], [], [], 1, false⟩,
  ⟨none, none, none, [(c!"x", 3)], [4], [], 2, false⟩, ⟨none, none, none, [], [], [], 3, false⟩,
  ⟨some 5, none, none, [], [], [], 4, false⟩, ⟨none, none, none, [(c!"x", 6)], [], [], 5, false⟩,
  ⟨none, some 7, none, [], [], [], 6, false⟩, ⟨none, none, none, [], [], [], 6, true⟩]

def worldB : Heap := [⟨none, none, none, [], [1], [], 0, false⟩, ⟨some 2, none, none, [], [], [], 1, false⟩,
  ⟨none, none, none, [(c!"x", 3)], [4], [], 2, false⟩, ⟨none, some 8, none, [], [], [], 3, false⟩,
  ⟨some 5, none, none, [], [], [], 4, false⟩, ⟨none, none, none, [(c!"x", 6)], [], [], 5, false⟩,
  ⟨none, some 7, none, [], [], [], 6, false⟩, ⟨none, none, none, [], [], [], 6, true⟩,
  ⟨none, none, none, [], [], [], 3, true⟩]

theorem composeAll_step {h h1 : Heap} {x : Nat} {l g g1 : List Nat} (he : compose h x g = some (h1, g1)) :
    composeAll h (x :: l) g = composeAll h1 l g1 := by
  rw [composeAll, he]; rfl

theorem compose_step {h h1 h2 : Heap} {x y : Nat} {g g1 g2 : List Nat}
    (hd : deref h x g = some (some y, g1)) (hn : (look h y).final = none)
    (hc : composeAll h ((look h y).items.toList ++ (look h y).props.map (·.2) ++ (look h y).allOf) g1 =
      some (h1, g2)) (hf : finish h1 y = some h2) : compose h x g = some (h2, g2) := by
  rw [compose, hd]
  simp only [hn, hc, hf, Option.isSome_none, Bool.false_eq_true, if_false, Option.bind_eq_bind,
    Option.bind_some]

theorem run_world : aggregate world [6, 3, 5, 2, 0] = some world3 := by
  have h1 : compose world 6 [] = some (worldA, [6]) := by unfold world worldA; run
  have h2 : compose worldA 3 [] = some (worldB, [3]) := by unfold worldA worldB; run
  have h3 : compose worldB 5 [] = some (world1, [5, 6]) := by unfold worldB world1; run
  have h4 : compose world1 2 [] = some (world2, [2, 3, 4, 5]) := by
    have s1 : compose world1 3 [2] = some (world1, [2, 3]) := by unfold world1; run
    have s2 : compose world1 4 [2, 3] = some (world1, [2, 3, 4, 5]) := by unfold world1; run
    have s3 : composeAll world1 [3, 4] [2] = some (world1, [2, 3, 4, 5]) := by
      rw [composeAll_step s1, composeAll_step s2, composeAll]
    exact compose_step (y := 2) (g1 := [2]) (h1 := world1) (by unfold world1; run) rfl s3 (by unfold world1 world2; run)
  have h5 : compose world2 0 [] = some (world3, [0, 1, 2]) := by
    have s1 : compose world2 1 [0] = some (world2, [0, 1, 2]) := by unfold world2; run
    have s2 : composeAll world2 [1] [0] = some (world2, [0, 1, 2]) := by
      rw [composeAll_step s1, composeAll]
    exact compose_step (y := 0) (g1 := [0]) (h1 := world2) (by unfold world2; run) rfl s2 (by unfold world2 world3; run)
  simp only [aggregate, h1, h2, h3, h4, h5, Option.bind_eq_bind, Option.bind_some]

/-- A part that redefines a property of its own base loses it: `A` has the part `B`, and the base `C`
of `B` also defines `x`. The composed `B` has `B`'s definition (6 is `C`'s, 3 is `B`'s), the composed
`A` has `C`'s. -/
theorem C53_override_false : ∃ h', aggregate world [6, 3, 5, 2, 0] = some h' ∧
    Part world 0 2 ∧ Dict.get? (look world 2).props c!"x" = some 3 ∧
    (∃ f p, (look h' 2).final = some f ∧ Dict.get? (look h' f).props c!"x" = some p ∧
      (look h' p).origin = 3) ∧
    (∃ f p, (look h' 0).final = some f ∧ Dict.get? (look h' f).props c!"x" = some p ∧
      (look h' p).origin = 6) := by
  refine ⟨world3, run_world, .direct (a := 1) (by decide) (.step rfl (.here rfl)), rfl, ?_, ?_⟩
  · exact ⟨13, 11, rfl, rfl, rfl⟩
  · exact ⟨15, 9, rfl, rfl, rfl⟩

/-- schemas that are parts of each other -/
def loop : Heap := [⟨none, none, none, [(c!"a", 4)], [1], [], 0, false⟩, ⟨some 2, none, none, [], [], [], 1, false⟩,
  ⟨none, none, none, [(c!"b", 5)], [3], [], 2, false⟩, ⟨some 0, none, none, [], [], [], 3, false⟩,
  ⟨none, none, none, [], [], [], 4, false⟩, ⟨some 2, none, none, [], [], [], 5, false⟩,
  ⟨none, none, none, [], [], [], 6, false⟩]

theorem loop_loaded : Loaded loop := by
  refine ⟨?_, ?_, ?_, ?_, ?_, ?_, ?_, ⟨fun x => if x = 0 ∨ x = 2 then 1 else 0, ?_⟩⟩ <;>
  · intro x hx
    rcases small hx rfl with rfl | rfl | rfl | rfl | rfl | rfl | rfl <;>
      simp [loop, look, Dict.WF, Dict.keys]

example : ∃ h' f, aggregate loop [0, 2, 5] = some h' ∧ (look h' 2).final = some f ∧
    c!"a" ∈ Dict.keys (look h' f).props ∧ c!"b" ∈ Dict.keys (look h' f).props := by
  have hxs : ∀ x ∈ [0, 2, 5], x < loop.length := by decide
  obtain ⟨h', he⟩ := C53_terminates (xs := [0, 2, 5]) loop_loaded hxs
  obtain ⟨f, hf⟩ := Option.isSome_iff_exists.1
    (C53_composed loop_loaded hxs he (x := 2) (y := 2) (by decide) (.here rfl))
  refine ⟨h', f, he, hf, ?_, ?_⟩
  · exact (C53_union loop_loaded hxs he (by decide) hf _).2
      (Or.inr ⟨0, .direct (a := 3) (by decide) (.step rfl (.here rfl)), by decide⟩)
  · exact (C53_union loop_loaded hxs he (by decide) hf _).2 (Or.inl (by decide))

/-! ## values

A schema (0) with one part (1). -/

def pair (d e : Dict Str Value) : Heap := [⟨none, none, none, [], [1], d, 0, false⟩,
  ⟨none, none, none, [], [], e, 1, false⟩]

theorem pair_part {d e : Dict Str Value} : Part (pair d e) 0 1 :=
  .direct (a := 1) (List.mem_singleton.2 rfl) (.here rfl)

theorem pair_parts {d e : Dict Str Value} {z : Nat} (p : Part (pair d e) 0 z) : z = 1 := by
  have he : ∀ {a z}, a = 1 → Ends (pair d e) a z → z = 1 := by
    rintro a z rfl h
    cases h with
    | here _ => rfl
    | step hr _ => cases hr
  induction p with
  | direct ha h => exact he (List.mem_singleton.1 ha) h
  | next _ ha _ ih => subst ih; cases ha

def Fine (d : Dict Str Value) : Prop := Dict.WF d ∧ ∀ n v, Dict.get? d n = some v → ∃ t, v = some t ∧
    (∀ c fs, t ≠ .obj c fs) ∧ ∀ d, t = .dict d → Dict.WF d

theorem pair_loaded {d e : Dict Str Value} (hd : Fine d) (he : Fine e) : Loaded (pair d e) := by
  refine ⟨?_, ?_, ?_, ?_, ?_, ?_, ?_, ⟨fun x => 1 - x, ?_⟩⟩ <;>
  · intro x hx
    have : x = 0 ∨ x = 1 := by have : x < 2 := hx; omega
    rcases this with rfl | rfl <;> first
      | exact hd.2
      | exact he.2
      | exact ⟨Dict.WF_nil, hd.1⟩
      | exact ⟨Dict.WF_nil, he.1⟩
      | simp [pair, look]

theorem fine_one (n : Str) (t : Tree.Tree) (h : ∀ c fs, t ≠ .obj c fs) (h' : ∀ d, t = .dict d → Dict.WF d) :
    Fine [(n, some t)] := by
  refine ⟨by simp [Dict.WF, Dict.keys], fun m v hv => ?_⟩
  simp only [Dict.get?] at hv
  split at hv
  · cases hv; exact ⟨t, rfl, h, h'⟩
  · cases hv

/-- the names required by the schema and by its part are required of the whole -/
example : ∃ h' f m, aggregate (pair [(c!"required", some (.list [.atom (.str c!"a")]))]
      [(c!"required", some (.list [.atom (.str c!"b")]))]) [0] = some h' ∧ (look h' 0).final = some f ∧
    Dict.get? (look h' f).values c!"required" = some (some (.list m)) ∧
    In (.atom (.str c!"a")) m ∧ In (.atom (.str c!"b")) m ∧ ¬ In (.atom (.str c!"c")) m := by
  have ld := pair_loaded (fine_one c!"required" (.list [.atom (.str c!"a")]) nofun nofun)
    (fine_one c!"required" (.list [.atom (.str c!"b")]) nofun nofun)
  have hxs : ∀ x ∈ [0], x < (pair [(c!"required", some (.list [.atom (.str c!"a")]))]
      [(c!"required", some (.list [.atom (.str c!"b")]))]).length := by decide
  obtain ⟨h', he⟩ := C53_terminates ld hxs
  obtain ⟨f, hf⟩ := Option.isSome_iff_exists.1
    (C53_composed ld hxs he (x := 0) (y := 0) (List.mem_singleton.2 rfl) (.here rfl))
  have hhas : ∀ t, Has (pair [(c!"required", some (.list [.atom (.str c!"a")]))]
      [(c!"required", some (.list [.atom (.str c!"b")]))]) 0 c!"required" t →
      t = .list [.atom (.str c!"a")] ∨ t = .list [.atom (.str c!"b")] := by
    rintro t ⟨z, rfl | hz, hg⟩
    · cases hg; exact Or.inl rfl
    · cases pair_parts hz; cases hg; exact Or.inr rfl
  obtain ⟨m, hm, hin⟩ := C53_lists ld hxs he (by decide) hf (n := c!"required")
    (fun t ht => by rcases hhas t ht with rfl | rfl <;> exact ⟨_, rfl⟩) ⟨_, 0, Or.inl rfl, rfl⟩
  refine ⟨h', f, m, he, hf, hm, (hin _).2 ⟨_, ⟨0, Or.inl rfl, rfl⟩, _, List.mem_singleton.2 rfl, Or.inl rfl⟩,
    (hin _).2 ⟨_, ⟨1, Or.inr pair_part, rfl⟩, _, List.mem_singleton.2 rfl, Or.inl rfl⟩, fun hc => ?_⟩
  obtain ⟨l, hl, u, hu, heq⟩ := (hin _).1 hc
  rcases hhas _ hl with h | h <;> cases h <;> cases List.mem_singleton.1 hu <;>
    · rcases heq with h | ⟨a, b, q, h1, h2, h3, _⟩
      · simp at h
      · cases h1; cases h3

/-- `default` is a number in the schema and a dict in its part -/
def kinds : Heap := pair [(c!"default", some (.atom (.int 5)))] [(c!"default", some (.dict []))]

def kinds1 : Heap := [⟨none, some 4, none, [], [1], [(c!"default", some (.atom (.int 5)))], 0, false⟩,
  ⟨none, some 2, none, [], [], [(c!"default", some (.dict []))], 1, false⟩,
  ⟨none, none, none, [], [], [(c!"default", some (.dict []))], 1, true⟩,
  ⟨none, some 2, none, [], [], [(c!"default", some (.dict []))], 1, false⟩,
  ⟨none, none, none, [], [3], [(c!"default", none)], 0, true⟩]

theorem run_kinds : aggregate kinds [0, 1] = some kinds1 := by
  have h1 : compose kinds 1 [0] =
      some ([⟨none, none, none, [], [1], [(c!"default", some (.atom (.int 5)))], 0, false⟩,
        ⟨none, some 2, none, [], [], [(c!"default", some (.dict []))], 1, false⟩,
        ⟨none, none, none, [], [], [(c!"default", some (.dict []))], 1, true⟩], [0, 1]) := by
    unfold kinds pair; run; simp [fresh]
  have h2 : compose kinds 0 [] = some (kinds1, [0, 1]) := by
    unfold kinds1
    refine compose_step (y := 0) (g1 := [0]) (by unfold kinds pair; run) rfl
      (show composeAll _ [1] [0] = _ by rw [composeAll_step h1, composeAll]) ?_
    run
    simp only [fresh]
    exact ⟨trivial, rfl⟩
  have h3 : compose kinds1 1 [] = some (kinds1, [1]) := by unfold kinds1; run
  simp only [aggregate, h2, h3, Option.bind_eq_bind, Option.bind_some]

/-- `default` is a number in the schema and a dict in its part: the value is lost, that is, composing
the schema raises. -/
theorem C53_kinds_false : ∃ h h' f, Loaded h ∧ aggregate h [0, 1] = some h' ∧ (look h' 0).final = some f ∧
    Part h 0 1 ∧ Dict.get? (look h 0).values c!"default" = some (some (.atom (.int 5))) ∧
    Dict.get? (look h 1).values c!"default" = some (some (.dict [])) ∧
    Dict.get? (look h' f).values c!"default" = some none :=
  ⟨kinds, kinds1, 4,
    pair_loaded (fine_one _ _ nofun nofun) (fine_one _ _ nofun (by rintro d ⟨⟩; exact Dict.WF_nil)),
    run_kinds, rfl, pair_part, rfl, rfl, rfl⟩

end Props.C53
