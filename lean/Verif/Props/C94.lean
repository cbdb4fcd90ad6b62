import Verif.Proofs.Composed
import Verif.Props.C53
/-!
# C94: what the schemas of a document are composed of

The schemas of the document `D` at the URL `p`, after references were made absolute (`R`) and `Aggregate` has run (`h'`). A schema
is said by its place in the document (`ts`); `schemaIndex R ts` is its position in the heap, and `final` the schema composed from it.
Parts, properties and values are said about the document (Spec/Composed.lean): parts are the elements of `allOf`, followed along
references, and their parts. The proof goes through C53, whose heap is shown to be that of the document (`Proofs.Composed.loaded`).
-/

namespace Props.C94
open Py Utils Tree _root_.Doc Spec.Pointed Spec.Composed _root_.Loaded Proofs.Origin Proofs.Composed
open Spec.Merge (In)
open Spec.Aggregate (Like)
open _root_.Create (schemaHeap schemaIndex composeSchemas visited)
open _root_.Aggregate (look Heap Value)

variable {D T R : Tree} {p : Url} {o : Loaded.Outside} {sq : Dict Str Tree} {h' : Heap} {ts : List Str} {q : Dict Str Tree} {f : Nat}

theorem order : ∀ x ∈ List.range (visited R cSchema).length, x < (schemaHeap o (urlunparse p) R).length := by
  intro x hx
  unfold schemaHeap
  rw [List.length_map]
  exact List.mem_range.1 hx

/-- Composition comes to an end for every document, whatever cycles its references form. -/
theorem C94_terminates (hl : Loads D p T R) (hD : D = .dict sq) : ∃ h', composeSchemas o (urlunparse p) R = some h' :=
  C53.C53_terminates (loaded hl hD) order

/-- Every schema that is no mere reference is composed. -/
theorem C94_composed (hl : Loads D p T R) (hD : D = .dict sq) (hc : composeSchemas o (urlunparse p) R = some h')
    (hw : Written D ts cSchema q) (hr : Dict.get? q c!"$ref" = none) : ∃ f, (look h' (schemaIndex R ts)).final = some f := by
  refine Option.isSome_iff_exists.1 (C53.C53_composed (loaded hl hD) order hc (x := schemaIndex R ts) ?_ (.here (ref_none hl hD hw hr)))
  have := index_lt (o := o) hl hD hw
  unfold schemaHeap at this
  rw [List.length_map] at this
  exact List.mem_range.2 this

/-- The composed schema has the properties of the schema and of all its parts, and no others. -/
theorem C94_properties (hl : Loads D p T R) (hD : D = .dict sq) (hc : composeSchemas o (urlunparse p) R = some h')
    (hw : Written D ts cSchema q) (hf : (look h' (schemaIndex R ts)).final = some f) (n : Str) :
    n ∈ Dict.keys (look h' f).props ↔ ∃ us, Within D (urlunparse p) ts us ∧ Defines D us n := by
  rw [C53.C53_union (loaded hl hD) order hc (index_lt hl hD hw) hf, defines_iff hl hD hw]
  constructor
  · rintro (h | ⟨z, hz, hn⟩)
    · exact ⟨ts, .inl rfl, h⟩
    · obtain ⟨us, rfl, hu⟩ := (part_iff hl hD hw).1 hz
      obtain ⟨q', hw', -⟩ := part_written hu
      exact ⟨us, .inr hu, (defines_iff hl hD hw').1 hn⟩
  · rintro ⟨us, rfl | hu, hn⟩
    · exact .inl hn
    · obtain ⟨q', hw', -⟩ := part_written hu
      exact .inr ⟨_, (part_iff hl hD hw).2 ⟨us, rfl, hu⟩, (defines_iff hl hD hw').2 hn⟩

/-- Each of them is a copy of what is written: in the schema itself if it has the property, and else in a part. The copy has the
properties and the plain values written there. -/
theorem C94_definition (hl : Loads D p T R) (hD : D = .dict sq) (hc : composeSchemas o (urlunparse p) R = some h')
    (hw : Written D ts cSchema q) (hf : (look h' (schemaIndex R ts)).final = some f) {n : Str} {i : Nat}
    (hi : Dict.get? (look h' f).props n = some i) : ∃ us, Within D (urlunparse p) ts us ∧ Defines D us n ∧
      (Defines D ts n → us = ts) ∧ (look h' i).origin = schemaIndex R (us ++ [c!"properties", n]) ∧
      (∀ m, m ∈ Dict.keys (look h' i).props ↔ Defines D (us ++ [c!"properties", n]) m) ∧
      (∀ m, m ∈ Dict.keys (look h' i).values ↔ ∃ t, Says D (us ++ [c!"properties", n]) m t) ∧
      ∀ m t v, Says D (us ++ [c!"properties", n]) m t → Dict.get? (look h' i).values m = some v → Like (some t) v := by
  have ld := loaded (o := o) hl hD
  have hy := index_lt (o := o) hl hD hw
  have key : ∃ us q', Within D (urlunparse p) ts us ∧ Written D us cSchema q' ∧ Defines D us n ∧ (Defines D ts n → us = ts) ∧
      (look h' i).origin = schemaIndex R (us ++ [c!"properties", n]) := by
    by_cases hn : Defines D ts n
    · obtain ⟨i', h1, h2⟩ := C53.C53_own ld order hc hy hf ((props_get hl hD hw).2 ⟨hn, rfl⟩)
      rw [hi] at h1; cases h1
      exact ⟨ts, q, .inl rfl, hw, hn, fun _ => rfl, h2⟩
    · obtain ⟨z, hz, h1⟩ := C53.C53_inherited ld order hc hy hf (by rw [defines_iff hl hD hw]; exact hn) hi
      obtain ⟨us, rfl, hu⟩ := (part_iff hl hD hw).1 hz
      obtain ⟨q', hw', -⟩ := part_written hu
      obtain ⟨h2, h3⟩ := (props_get hl hD hw').1 h1
      exact ⟨us, q', .inr hu, hw', h2, fun h => absurd h hn, h3⟩
  obtain ⟨us, q', h1, hw', h2, h3, h4⟩ := key
  refine ⟨us, h1, h2, h3, h4, ?_⟩
  obtain ⟨v, hv⟩ : ∃ v, Written D (us ++ [c!"properties", n]) cSchema v := by
    obtain ⟨q2, d, g1, g2, g3⟩ := h2
    exact props_child hl g1 (by unfold namesIn; rw [g2]; exact g3)
  obtain ⟨hcomp, hcopy⟩ := C53.C53_copies ld order hc hy hf hi
  have hlt : i < h'.length := ((C53.finalFacts ld order hc hy hf).1.propsLt n i (Dict.mem_of_get? hi)).1
  obtain ⟨-, g1, g2, -, g3, -⟩ := hcopy i hlt hcomp
  rw [h4] at g1 g2 g3
  refine ⟨fun m => ?_, fun m => ?_, fun m t w ht hw2 => ?_⟩
  · rw [← defines_iff (o := o) hl hD hv, ← g3]
    unfold Dict.keys
    rw [List.map_map]
    rfl
  · rw [g1 m, ← Dict.get?_isSome_iff, Option.isSome_iff_exists]
    constructor
    · rintro ⟨w, h⟩
      obtain ⟨t, -, ht⟩ := (value_iff hl hD hv m w).1 h
      exact ⟨t, ht⟩
    · rintro ⟨t, ht⟩
      exact ⟨_, (value_iff hl hD hv m _).2 ⟨t, rfl, ht⟩⟩
  · exact g2 m _ _ ((value_iff hl hD hv m _).2 ⟨t, rfl, ht⟩) hw2

/-- The composed schema has items if the schema or a part has. They are a copy of what is written: in the schema itself if it has
items, and else in a part. -/
theorem C94_items (hl : Loads D p T R) (hD : D = .dict sq) (hc : composeSchemas o (urlunparse p) R = some h')
    (hw : Written D ts cSchema q) (hf : (look h' (schemaIndex R ts)).final = some f) :
    ((∃ us, Within D (urlunparse p) ts us ∧ HasItems D us) → (look h' f).items.isSome) ∧
    ∀ j, (look h' f).items = some j → ∃ us, Within D (urlunparse p) ts us ∧ HasItems D us ∧ (HasItems D ts → us = ts) ∧
      (look h' j).origin = schemaIndex R (us ++ [c!"items"]) := by
  have ld := loaded (o := o) hl hD
  have hy := index_lt (o := o) hl hD hw
  obtain ⟨h1, h2⟩ := C53.C53_items_inherited ld order hc hy hf
  refine ⟨?_, fun j hj => ?_⟩
  · rintro ⟨us, rfl | hu, hi⟩
    · exact h1 ⟨_, .inl rfl, by rw [(items_get hl hD hw).2 ⟨hi, rfl⟩]; rfl⟩
    · obtain ⟨q', hw', -⟩ := part_written hu
      exact h1 ⟨_, .inr ((part_iff hl hD hw).2 ⟨us, rfl, hu⟩), by rw [(items_get hl hD hw').2 ⟨hi, rfl⟩]; rfl⟩
  · by_cases hi : HasItems D ts
    · obtain ⟨j', h3, h4⟩ := C53.C53_items ld order hc hy hf ((items_get hl hD hw).2 ⟨hi, rfl⟩)
      rw [hj] at h3; cases h3
      exact ⟨ts, .inl rfl, hi, fun _ => rfl, h4⟩
    · obtain ⟨z, hz, h3⟩ := h2 j hj
      rcases hz with rfl | hz
      · exact absurd ((items_get hl hD hw).1 h3).1 hi
      · obtain ⟨us, rfl, hu⟩ := (part_iff hl hD hw).1 hz
        obtain ⟨q', hw', -⟩ := part_written hu
        obtain ⟨h4, h5⟩ := (items_get hl hD hw').1 h3
        exact ⟨us, .inr hu, h4, fun h => absurd h hi, h5⟩

/-- The plain fields of the composed schema are those of the schema and its parts. -/
theorem C94_fields (hl : Loads D p T R) (hD : D = .dict sq) (hc : composeSchemas o (urlunparse p) R = some h')
    (hw : Written D ts cSchema q) (hf : (look h' (schemaIndex R ts)).final = some f) (n : Str) :
    n ∈ Dict.keys (look h' f).values ↔ ∃ us t, Within D (urlunparse p) ts us ∧ Says D us n t := by
  rw [(C53.C53_values (loaded hl hD) order hc (index_lt hl hD hw) hf n).1]
  constructor
  · rintro ⟨t, h⟩
    obtain ⟨us, h⟩ := (has_iff hl hD hw).1 h
    exact ⟨us, t, h⟩
  · rintro ⟨us, t, h⟩
    exact ⟨t, (has_iff hl hD hw).2 ⟨us, h⟩⟩

/-- A field with scalars (`type`, `format`, `maximum`, ...): what the schema itself says, or else what one of its parts says. -/
theorem C94_scalars (hl : Loads D p T R) (hD : D = .dict sq) (hc : composeSchemas o (urlunparse p) R = some h')
    (hw : Written D ts cSchema q) (hf : (look h' (schemaIndex R ts)).final = some f) {n : Str}
    (ha : ∀ us t, Within D (urlunparse p) ts us → Says D us n t → ∃ a, t = .atom a) :
    (∀ t, Says D ts n t → Dict.get? (look h' f).values n = some (some t)) ∧
    ((∀ t, ¬ Says D ts n t) → ∀ v, Dict.get? (look h' f).values n = some v → ∃ us t, Part D (urlunparse p) ts us ∧ Says D us n t ∧
      v = some t) := by
  obtain ⟨h1, h2⟩ := C53.C53_scalars (loaded (o := o) hl hD) order hc (index_lt hl hD hw) hf (n := n) (by
    intro t ht
    obtain ⟨us, h1, h2⟩ := (has_iff hl hD hw).1 ht
    exact ha us t h1 h2)
  refine ⟨fun t ht => h1 t ((value_iff hl hD hw n _).2 ⟨t, rfl, ht⟩), fun hn v hv => ?_⟩
  obtain ⟨z, hz, hg⟩ := h2 (by
    rw [← Dict.get?_isSome_iff, Option.isSome_iff_exists]
    rintro ⟨w, h⟩
    obtain ⟨t, -, ht⟩ := (value_iff hl hD hw n w).1 h
    exact hn t ht) v hv
  obtain ⟨us, rfl, hu⟩ := (part_iff hl hD hw).1 hz
  obtain ⟨q', hw', -⟩ := part_written hu
  obtain ⟨t, rfl, ht⟩ := (value_iff hl hD hw' n v).1 hg
  exact ⟨us, t, hu, ht, rfl⟩

/-- A field with lists (`required`, `enum`): the elements of all of them, and no others. -/
theorem C94_lists (hl : Loads D p T R) (hD : D = .dict sq) (hc : composeSchemas o (urlunparse p) R = some h')
    (hw : Written D ts cSchema q) (hf : (look h' (schemaIndex R ts)).final = some f) {n : Str}
    (ha : ∀ us t, Within D (urlunparse p) ts us → Says D us n t → ∃ l, t = .list l) (e : Tree) :
    (∃ m, Dict.get? (look h' f).values n = some (some (.list m)) ∧ In e m) ↔
      ∃ us l, Within D (urlunparse p) ts us ∧ Says D us n (.list l) ∧ In e l := by
  have ha' : ∀ t, Spec.Aggregate.Has (schemaHeap o (urlunparse p) R) (schemaIndex R ts) n t → ∃ l, t = .list l := by
    intro t ht
    obtain ⟨us, h1, h2⟩ := (has_iff hl hD hw).1 ht
    exact ha us t h1 h2
  have main := C53.C53_lists (loaded (o := o) hl hD) order hc (index_lt hl hD hw) hf ha'
  constructor
  · rintro ⟨m, hm, he⟩
    have hk := ((C53.C53_values (loaded (o := o) hl hD) order hc (index_lt hl hD hw) hf n).1).1
      ((Dict.get?_isSome_iff _ _).1 (by rw [hm]; rfl))
    obtain ⟨m', h1, h2⟩ := main hk
    rw [hm] at h1; cases h1
    obtain ⟨l, h3, h4⟩ := (h2 e).1 he
    obtain ⟨us, h5, h6⟩ := (has_iff hl hD hw).1 h3
    exact ⟨us, l, h5, h6, h4⟩
  · rintro ⟨us, l, h1, h2, h3⟩
    have hh := (has_iff (o := o) hl hD hw).2 ⟨us, h1, h2⟩
    obtain ⟨m, h4, h5⟩ := main ⟨_, hh⟩
    exact ⟨m, h4, (h5 e).2 ⟨l, hh, h3⟩⟩

/-- Where the values of every schema and its parts are alike (scalars, lists or dicts throughout a field), no value is lost: composition
raises nothing. -/
theorem C94_whole (hl : Loads D p T R) (hD : D = .dict sq) (hc : composeSchemas o (urlunparse p) R = some h')
    (ha : Matching D (urlunparse p)) {x : Nat} (hx : x < h'.length) {n : Str} {v : Value} (hv : Dict.get? (look h' x).values n = some v) :
    ∃ t, v = some t := by
  refine C53.C53_whole (loaded (o := o) hl hD) order hc (fun y hy n t u ht hu => ?_) hx hv
  obtain ⟨ts, q, hw, rfl⟩ := of_index hl hD hy
  obtain ⟨us, h1, h2⟩ := (has_iff hl hD hw).1 ht
  obtain ⟨vs, h3, h4⟩ := (has_iff hl hD hw).1 hu
  exact ha ts us vs n t u h1 h3 h2 h4

end Props.C94
