import Verif.Model.Rendering
import Verif.Spec.Generated
import Verif.Props.C94
import Verif.Props.C58
import Verif.Proofs.Schemas
/-! # Helper lemmas for C95 -/

namespace Proofs.Generated
open Py Utils Tree _root_.Doc Spec.Pointed Spec.Composed Spec.Generated _root_.Loaded Proofs.Origin Proofs.Composed
open Spec.Merge (In)
open Spec.Aggregate (Like)
open _root_.Create (schemaHeap schemaIndex composeSchemas visited fieldsOf renderTarget renderNode)
open _root_.Aggregate (look Heap Value finalOr)
open _root_.Effective (attr)

variable {D T R : Tree} {p : Url} {o : Loaded.Outside} {sq : Dict Str Tree} {h' : Heap} {ts us : List Str} {q : Dict Str Tree} {f : Nat}

/-- the object `i` of the heap is the schema at `ts` or a copy of it -/
structure At (D : Tree) (url : Str) (R : Tree) (h' : Heap) (i : Nat) (ts : List Str) : Prop where
  lt : i < h'.length
  plain : (look h' i).composed = false
  origin : (look h' i).origin = schemaIndex R ts
  written : ∃ q, Written D ts cSchema q
  same : i = schemaIndex R ts ∨ ∀ us, ¬ Lists D url ts us

/-- the object `t` of the heap has what the schema at `us` and its parts say -/
structure Means (D : Tree) (url : Str) (R : Tree) (h' : Heap) (t : Nat) (us : List Str) : Prop where
  props : ∀ n i, Dict.get? (look h' t).props n = some i → ∃ vs, Within D url us vs ∧ Defines D vs n ∧ (Defines D us n → vs = us) ∧
    At D url R h' i (vs ++ [c!"properties", n])
  all : ∀ n vs, Within D url us vs → Defines D vs n → n ∈ Dict.keys (look h' t).props
  items : ∀ j, (look h' t).items = some j → ∃ vs, Within D url us vs ∧ HasItems D vs ∧ (HasItems D us → vs = us) ∧
    At D url R h' j (vs ++ [c!"items"])
  some : ∀ vs, Within D url us vs → HasItems D vs → (look h' t).items.isSome
  wf : Dict.WF (look h' t).props
  combined : Combined D url us (fieldsOf (look h' t))
  required : ∀ n, .atom (.str n) ∈ _root_.Effective.listed (attr (fieldsOf (look h' t)) c!"required") ↔ Requires D url us n

/-! ## fields -/

theorem get_fields {o : _root_.Aggregate.Obj} (hw : Dict.WF o.values) (n : Str) :
    Dict.get? (fieldsOf o) n = (Dict.get? o.values n).join := by
  unfold fieldsOf
  generalize o.values = d at hw
  induction d with
  | nil => rfl
  | cons e d ih =>
    obtain ⟨m, v⟩ := e
    unfold Dict.WF Dict.keys at hw
    rw [List.map_cons, List.nodup_cons] at hw
    have ih := ih hw.2
    cases v with
    | none =>
      rw [List.filterMap_cons_none (by rfl), ih]
      simp only [Dict.get?]
      split
      · next h =>
        subst h
        rw [(Dict.get?_eq_none_iff d m).2 hw.1]; rfl
      · rfl
    | some t =>
      rw [List.filterMap_cons_some (b := (m, t)) (by rfl)]
      simp only [Dict.get?]
      split
      · rfl
      · exact ih

theorem in_text {s : Str} {l : List Tree} : In (.atom (.str s)) l ↔ .atom (.str s) ∈ l := by
  constructor
  · rintro ⟨u, hu, rfl | ⟨a, b, q, ha, hb, h1, -⟩⟩
    · exact hu
    · cases ha; cases h1
  · exact fun h => ⟨_, h, .inl rfl⟩

theorem facets_plain : ∀ n ∈ facets, n ∈ plainFields := by decide

/-- from the values of an object to its fields -/
theorem fields_of_values {url : Str} {x : _root_.Aggregate.Obj} (hwf : Dict.WF x.values)
    (v1 : ∀ n ∈ facets, ∀ t, Says D us n t → Dict.get? x.values n = some (some t))
    (v2 : ∀ n ∈ facets, (∀ t, ¬ Says D us n t) → ∀ v, Dict.get? x.values n = some v →
      ∃ vs t, Part D url us vs ∧ Says D vs n t ∧ v = some t)
    (v3 : ∀ n vs t, Within D url us vs → Says D vs n t → n ∈ Dict.keys x.values)
    (v4 : ∀ n, n = c!"required" ∨ n = c!"enum" → ∀ e, (∃ m, Dict.get? x.values n = some (some (.list m)) ∧ In e m) ↔
      ∃ vs l, Within D url us vs ∧ Says D vs n (.list l) ∧ In e l) :
    Combined D url us (fieldsOf x) ∧
    ∀ n, .atom (.str n) ∈ _root_.Effective.listed (attr (fieldsOf x) c!"required") ↔ Requires D url us n := by
  have hj : ∀ n t, Dict.get? (fieldsOf x) n = some t ↔ Dict.get? x.values n = some (some t) := by
    intro n t
    rw [get_fields hwf, Option.join_eq_some_iff]
  refine ⟨⟨fun n hn t ht => (hj n t).2 (v1 n hn t ht), fun n hn hno t ht => ?_, fun n hn hnone vs t hvs hs => ?_, fun e => ?_⟩, fun n => ?_⟩
  · obtain ⟨vs, t', h1, h2, h3⟩ := v2 n hn hno _ ((hj n t).1 ht)
    cases h3
    exact ⟨vs, h1, h2⟩
  · obtain ⟨v, hv⟩ := Option.isSome_iff_exists.1 ((Dict.get?_isSome_iff _ _).2 (v3 n vs t hvs hs))
    have : ∃ t, v = some t := by
      by_cases ho : ∃ t, Says D us n t
      · obtain ⟨t', ht'⟩ := ho
        have := v1 n hn t' ht'
        rw [hv] at this
        exact ⟨t', Option.some.inj this⟩
      · obtain ⟨_, t', _, _, h⟩ := v2 n hn (fun t ht => ho ⟨t, ht⟩) v hv
        exact ⟨t', h⟩
    obtain ⟨t', rfl⟩ := this
    rw [(hj n t').2 hv] at hnone
    cases hnone
  · rw [← v4 _ (.inr rfl) e]
    simp only [hj]
  · unfold Requires
    have h4 := v4 c!"required" (.inl rfl) (.atom (.str n))
    simp only [in_text] at h4
    rw [← h4]
    simp only [← hj]
    unfold attr
    cases hg : Dict.get? (fieldsOf x) c!"required" with
    | none => simp [_root_.Effective.listed]
    | some t => cases t <;> simp [_root_.Effective.listed]

/-! ## composed schemas -/

theorem defines_written (hl : Loads D p T R) {vs : List Str} {n : Str} (h : Defines D vs n) :
    ∃ v, Written D (vs ++ [c!"properties", n]) cSchema v := by
  obtain ⟨q2, d, g1, g2, g3⟩ := h
  exact props_child hl g1 (by unfold namesIn; rw [g2]; exact g3)

theorem facts (hl : Loads D p T R) (hD : D = .dict sq) (hc : composeSchemas o (urlunparse p) R = some h') :
    Proofs.Aggregate.Valid (schemaHeap o (urlunparse p) R) h' :=
  (Props.C53.facts (loaded (o := o) hl hD) Props.C94.order hc).1

theorem means_final (hl : Loads D p T R) (hD : D = .dict sq) (hc : composeSchemas o (urlunparse p) R = some h') (ht : Typed D)
    (hfl : Flat D) (hw : Written D us cSchema q) (hf : (look h' (schemaIndex R us)).final = some f) :
    Means D (urlunparse p) R h' f us := by
  have ld := loaded (o := o) hl hD
  have hy := index_lt (o := o) hl hD hw
  obtain ⟨ok, ho, hcomp⟩ := Props.C53.finalFacts ld Props.C94.order hc hy hf
  have hv := fields_of_values (D := D) (us := us) (url := urlunparse p) ok.wfs
    (fun n hn t h => (Props.C94.C94_scalars hl hD hc hw hf (fun vs t _ hs => (ht vs n t hs).1 hn)).1 t h)
    (fun n hn h v hv => (Props.C94.C94_scalars hl hD hc hw hf (fun vs t _ hs => (ht vs n t hs).1 hn)).2 h v hv)
    (fun n vs t h1 h2 => (Props.C94.C94_fields hl hD hc hw hf n).2 ⟨vs, t, h1, h2⟩)
    (fun n hn e => Props.C94.C94_lists hl hD hc hw hf (fun vs t _ hs => (ht vs n t hs).2 hn) e)
  refine ⟨fun n i hi => ?_, fun n vs h1 h2 => (Props.C94.C94_properties hl hD hc hw hf n).2 ⟨vs, h1, h2⟩, fun j hj => ?_,
    fun vs h1 h2 => (Props.C94.C94_items hl hD hc hw hf).1 ⟨vs, h1, h2⟩, ok.wf, hv.1, hv.2⟩
  · obtain ⟨vs, h1, h2, h3, h4, -⟩ := Props.C94.C94_definition hl hD hc hw hf hi
    obtain ⟨h5, h6⟩ := ok.propsLt n i (Dict.mem_of_get? hi)
    obtain ⟨q', hq'⟩ := defines_written hl h2
    refine ⟨vs, h1, h2, h3, h5, h6, h4, ⟨q', hq'⟩, .inr fun us => ?_⟩
    obtain ⟨q2, d, g1, g2, g3⟩ := h2
    exact hfl vs q2 _ q' us g1 (.inl ⟨n, rfl⟩) hq' _
  · obtain ⟨vs, h1, h2, h3, h4⟩ := (Props.C94.C94_items hl hD hc hw hf).2 j hj
    obtain ⟨h5, h6⟩ := ok.itemsLt j hj
    obtain ⟨q', hq'⟩ := h2
    have hwv : ∃ q2, Written D vs cSchema q2 := by
      rcases h1 with rfl | h1
      · exact ⟨q, hw⟩
      · obtain ⟨q2, h, -⟩ := part_written h1
        exact ⟨q2, h⟩
    obtain ⟨q2, hq2⟩ := hwv
    exact ⟨vs, h1, ⟨q', hq'⟩, h3, h5, h6, h4, ⟨q', hq'⟩, .inr fun us => hfl vs q2 _ q' us hq2 (.inr rfl) hq' _⟩

theorem no_parts {url : Str} (h : ∀ vs, ¬ Lists D url us vs) {vs : List Str} : Within D url us vs ↔ vs = us := by
  constructor
  · rintro (h1 | h1)
    · exact h1
    · exfalso
      induction h1 with
      | direct h2 => exact h _ h2
      | next _ _ ih => exact ih
  · exact .inl

theorem like_some {t : Tree} {v : Value} (h : Like (some t) v) : (∀ a, t = .atom a → v = some t) ∧
    (∀ l, t = .list l → ∃ m, v = some (.list m) ∧ ∀ e, In e l ↔ In e m) := by
  rcases h with rfl | ⟨l, m, h1, rfl, h2⟩
  · exact ⟨fun _ _ => rfl, fun l hl => ⟨l, by rw [hl], fun _ => Iff.rfl⟩⟩
  · cases h1
    refine ⟨fun a h => (by cases h), fun l' hl => ?_⟩
    cases hl
    exact ⟨m, rfl, h2⟩

theorem means_copy (hl : Loads D p T R) (hD : D = .dict sq) (hc : composeSchemas o (urlunparse p) R = some h') (ht : Typed D)
    (hfl : Flat D) {z : Nat} (hat : At D (urlunparse p) R h' z us) (hno : ∀ vs, ¬ Lists D (urlunparse p) us vs) :
    Means D (urlunparse p) R h' z us := by
  have v := facts hl hD hc
  have ok := v.ok z hat.lt
  obtain ⟨q, hw⟩ := hat.written
  obtain ⟨g1, g2, g3⟩ := ok.plain hat.plain
  rw [hat.origin] at g1 g2 g3
  have spoken : ∀ n t, Says D us n t → ∃ w, Dict.get? (look h' z).values n = some w ∧ Like (some t) w := fun n t hs =>
    g3.1 n _ ((value_iff hl hD hw n _).2 ⟨t, rfl, hs⟩)
  have said : ∀ n w, Dict.get? (look h' z).values n = some w → ∃ t, Says D us n t ∧ Like (some t) w := by
    intro n w h
    obtain ⟨v0, h1, h2⟩ := g3.2 n w h
    obtain ⟨t, rfl, h3⟩ := (value_iff hl hD hw n v0).1 h1
    exact ⟨t, h3, h2⟩
  have hv := fields_of_values (D := D) (us := us) (url := urlunparse p) ok.wfs
    (fun n hn t h => by
      obtain ⟨w, h1, h2⟩ := spoken n t h
      obtain ⟨a, ha⟩ := (ht us n t h).1 hn
      rw [h1, (like_some h2).1 a ha])
    (fun n hn h w hw => by
      obtain ⟨t, h1, -⟩ := said n w hw
      exact absurd h1 (h t))
    (fun n vs t h1 h2 => by
      obtain rfl := (no_parts hno).1 h1
      obtain ⟨w, h3, -⟩ := spoken n t h2
      exact (Dict.get?_isSome_iff _ _).1 (by rw [h3]; rfl))
    (fun n hn e => by
      constructor
      · rintro ⟨m, h1, h2⟩
        obtain ⟨t, h3, h4⟩ := said n _ h1
        obtain ⟨l, rfl⟩ := (ht us n t h3).2 hn
        obtain ⟨m', h5, h6⟩ := (like_some h4).2 l rfl
        cases h5
        exact ⟨us, l, .inl rfl, h3, (h6 e).2 h2⟩
      · rintro ⟨vs, l, h1, h2, h3⟩
        obtain rfl := (no_parts hno).1 h1
        obtain ⟨w, h4, h5⟩ := spoken n _ h2
        obtain ⟨m, rfl, h6⟩ := (like_some h5).2 l rfl
        exact ⟨m, h4, (h6 e).1 h3⟩)
  have hget : ∀ n, Dict.get? (look (schemaHeap o (urlunparse p) R) (schemaIndex R us)).props n =
      (Dict.get? (look h' z).props n).map fun i => (look h' i).origin := fun n => by
    rw [← g2, Proofs.Aggregate.get?_map_origin (g := fun a => (look h' a).origin)]
  refine ⟨fun n i hi => ?_, fun n vs h1 h2 => ?_, fun j hj => ?_, fun vs h1 h2 => ?_, ok.wf, hv.1, hv.2⟩
  · have h1 := hget n
    rw [hi] at h1
    obtain ⟨h2, h3⟩ := (props_get hl hD hw).1 h1
    obtain ⟨h5, h6⟩ := ok.propsLt n i (Dict.mem_of_get? hi)
    obtain ⟨q', hq'⟩ := defines_written hl h2
    exact ⟨us, .inl rfl, h2, fun _ => rfl, h5, h6, h3, ⟨q', hq'⟩, .inr fun vs => hfl us q _ q' vs hw (.inl ⟨n, rfl⟩) hq' _⟩
  · obtain rfl := (no_parts hno).1 h1
    have h3 := hget n
    rw [(props_get hl hD hw).2 ⟨h2, rfl⟩] at h3
    cases hg : Dict.get? (look h' z).props n with
    | none => rw [hg] at h3; cases h3
    | some i => exact (Dict.get?_isSome_iff _ _).1 (by rw [hg]; rfl)
  · have h1 := g1
    rw [hj] at h1
    obtain ⟨h2, h3⟩ := (items_get hl hD hw).1 h1.symm
    obtain ⟨h5, h6⟩ := ok.itemsLt j hj
    obtain ⟨q', hq'⟩ := h2
    exact ⟨us, .inl rfl, ⟨q', hq'⟩, fun _ => rfl, h5, h6, h3, ⟨q', hq'⟩, .inr fun vs => hfl us q _ q' vs hw (.inr rfl) hq' _⟩
  · obtain rfl := (no_parts hno).1 h1
    rw [(items_get hl hD hw).2 ⟨h2, rfl⟩] at g1
    cases hg : (look h' z).items with
    | none => rw [hg] at g1; cases g1
    | some i => rfl

/-! ## targets -/

theorem target (hl : Loads D p T R) (hD : D = .dict sq) (hc : composeSchemas o (urlunparse p) R = some h') (ht : Typed D)
    (hfl : Flat D) {i : Nat} (hat : At D (urlunparse p) R h' i ts) :
    (∃ t us, renderTarget h' i = .ok t ∧ Leads D (urlunparse p) ts us ∧ Means D (urlunparse p) R h' t us) ∨
    (renderTarget h' i = .error .CycleDetectionError ∧ ∀ us, ¬ Leads D (urlunparse p) ts us) := by
  have ld := loaded (o := o) hl hD
  have v := facts hl hD hc
  obtain ⟨q, hw⟩ := hat.written
  obtain ⟨z, g, he, d⟩ := Proofs.Aggregate.deref_ok ld v v.len (Nat.le_refl _) _ i [] rfl hat.lt
  unfold renderTarget
  rw [he]
  cases z with
  | none =>
    refine .inr ⟨rfl, fun us hus => ?_⟩
    have h1 := (ends_iff (o := o) hl hD hw).2 ⟨us, rfl, hus⟩
    have h2 : ∃ t, Spec.Aggregate.Ends h' i t := by
      rw [← hat.origin] at h1
      generalize schemaIndex R us = y at h1
      generalize hx : (look h' i).origin = x at h1
      cases h1 with
      | here hr => exact ⟨_, (Proofs.Aggregate.ends_iff ld v hat.lt).2 (.inl ⟨by rw [hx]; exact hr, rfl⟩)⟩
      | step hr h => exact ⟨_, (Proofs.Aggregate.ends_iff ld v hat.lt).2 (.inr ⟨_, by rw [hx]; exact hr, h⟩)⟩
    obtain ⟨t, h2⟩ := h2
    obtain ⟨w, hw, _⟩ := d.none rfl t h2
    cases hw
  | some z =>
    refine .inl ?_
    obtain ⟨h1, -, -, -, -⟩ := d.some z rfl
    rcases (Proofs.Aggregate.ends_iff ld v hat.lt).1 h1 with ⟨hr, rfl⟩ | ⟨r, hr, h2⟩
    · rw [hat.origin] at hr
      obtain ⟨us, h3, h4⟩ := (ends_iff (o := o) hl hD hw).1 (.here hr)
      obtain rfl := index_inj hl hD hw h3
      obtain ⟨q', hw', href⟩ := leads_written h4
      refine ⟨_, ts, rfl, h4, ?_⟩
      unfold finalOr
      cases hf : (look h' z).final with
      | some f =>
        have := v.shared z hat.lt f hf
        rw [hat.origin] at this
        exact means_final hl hD hc ht hfl hw this
      | none =>
        refine means_copy hl hD hc ht hfl hat ?_
        rcases hat.same with e | e
        · obtain ⟨f, h⟩ := Props.C94.C94_composed hl hD hc hw' href
          rw [← e, hf] at h; cases h
        · exact e
    · rw [hat.origin] at hr
      obtain ⟨us, rfl, h4⟩ := (ends_iff (o := o) hl hD hw).1 (.step hr h2)
      obtain ⟨q', hw', href⟩ := leads_written h4
      refine ⟨_, us, rfl, h4, ?_⟩
      obtain ⟨f, h⟩ := Props.C94.C94_composed hl hD hc hw' href
      unfold finalOr
      rw [h]
      exact means_final hl hD hc ht hfl hw' h

theorem at_place (hl : Loads D p T R) (hD : D = .dict sq) (hc : composeSchemas o (urlunparse p) R = some h') (hw : Written D ts cSchema q) :
    At D (urlunparse p) R h' (schemaIndex R ts) ts := by
  have ld := loaded (o := o) hl hD
  have v := facts hl hD hc
  have hy := index_lt (o := o) hl hD hw
  obtain ⟨-, h1, h2, -⟩ := v.orig' ld hy
  exact ⟨Nat.lt_of_lt_of_le hy v.len, h2, h1, ⟨q, hw⟩, .inl rfl⟩

/-! ## the limits -/

theorem facets_of (h : Heap) (x : Nat) : Facets (fieldsOf (look h x)) (renderNode h x) := by
  have lk : ∀ t, Proofs.Schemas.Like t t := fun _ => .inl rfl
  refine ⟨Proofs.Schemas.text_of (lk _), Proofs.Schemas.text_of (lk _), Proofs.Schemas.number_of (lk _), Proofs.Schemas.switch_of (lk _),
    Proofs.Schemas.number_of (lk _), Proofs.Schemas.switch_of (lk _), Proofs.Schemas.length_of (lk _), Proofs.Schemas.length_of (lk _),
    Proofs.Schemas.length_of (lk _), Proofs.Schemas.length_of (lk _), ⟨_, Proofs.Schemas.number_of (lk _), rfl⟩, ?_, ?_⟩
  · show _root_.Create.isWhole (attr (fieldsOf (look h x)) c!"multipleOf") = true ↔ _
    unfold attr
    cases Dict.get? (fieldsOf (look h x)) c!"multipleOf" with
    | none => simp [_root_.Create.isWhole]
    | some t =>
      cases t with
      | atom a => cases a <;> simp [_root_.Create.isWhole]
      | _ => simp [_root_.Create.isWhole]
  · have e : (renderNode h x).enum = _root_.Effective.toVals (_root_.Effective.listed (attr (fieldsOf (look h x)) c!"enum")) := rfl
    unfold attr at e
    split
    · next l hl =>
      rw [e, hl]
      exact Proofs.Effective.values_toVals l
    · next hn =>
      rw [e]
      cases hg : Dict.get? (fieldsOf (look h x)) c!"enum" with
      | none => rfl
      | some t =>
        cases t with
        | list l => exact absurd hg (hn l)
        | _ => rfl

/-! ## leaves -/

section
open Prim Render Spec.Rendered
open Props.C57 (mem_of_get)

theorem truth_iff {v : Val} : truth v = false ↔ Empty v := by
  unfold Spec.Generated.Empty
  cases v with
  | bool b => cases b <;> simp [truth]
  | list l => cases l <;> simp [truth]
  | dict l => cases l <;> simp [truth]
  | _ => simp [truth]

theorem maker_cases {type : Str} {f : Option Str} {m : Maker} (h : maker type f = some m) :
    (type = c!"integer" ∧ f ∈ [none, some c!"", some c!"int32", some c!"int64"] ∧ m = .int) ∨
    (type = c!"number" ∧ f ∈ [none, some c!"", some c!"float", some c!"double"] ∧ m = .float) ∨
    (type = c!"string" ∧ f ∈ [none, some c!"", some c!"password"] ∧ m = .str) ∨
    (type = c!"string" ∧ f = some c!"email" ∧ m = .email) ∨
    (type = c!"boolean" ∧ f ∈ [none, some c!""] ∧ m = .bool) ∨ (Open type f ∧ ∃ s, m = .special s) := by
  unfold maker at h
  cases hg : Dict.get? makers type with
  | none => rw [hg] at h; cases h
  | some row =>
    rw [hg] at h
    have hm := Dict.mem_of_get? hg
    have hf := Dict.mem_of_get? h
    simp only [makers, List.mem_cons, Prod.mk.injEq, List.not_mem_nil, or_false] at hm
    unfold Open
    rcases hm with ⟨rfl, rfl⟩ | ⟨rfl, rfl⟩ | ⟨rfl, rfl⟩ | ⟨rfl, rfl⟩ | ⟨rfl, rfl⟩ <;>
      simp only [List.mem_cons, Prod.mk.injEq, List.not_mem_nil, or_false] at hf
    · rcases hf with ⟨rfl, rfl⟩ | ⟨rfl, rfl⟩ | ⟨rfl, rfl⟩ | ⟨rfl, rfl⟩ <;> simp
    · rcases hf with ⟨rfl, rfl⟩ | ⟨rfl, rfl⟩ | ⟨rfl, rfl⟩ | ⟨rfl, rfl⟩ <;> simp
    · rcases hf with ⟨rfl, rfl⟩ | ⟨rfl, rfl⟩ | ⟨rfl, rfl⟩ | ⟨rfl, rfl⟩ | ⟨rfl, rfl⟩ | ⟨rfl, rfl⟩ | ⟨rfl, rfl⟩ | ⟨rfl, rfl⟩ <;> simp
    · rcases hf with ⟨rfl, rfl⟩ | ⟨rfl, rfl⟩ <;> simp
    · rcases hf with ⟨rfl, rfl⟩ | ⟨rfl, rfl⟩ <;> simp

theorem maker_known {type : Str} {f : Option Str} {m : Maker} (h : maker type f = some m) : Known type f := by
  unfold Known
  rcases maker_cases h with ⟨h1, h2, -⟩ | ⟨h1, h2, -⟩ | ⟨h1, h2, -⟩ | ⟨h1, h2, -⟩ | ⟨h1, h2, -⟩ | ⟨⟨h1, h2⟩ | ⟨h1, h2⟩, -⟩
  · exact .inl ⟨h1, h2⟩
  · exact .inr (.inl ⟨h1, h2⟩)
  · refine .inr (.inr (.inl ⟨h1, ?_⟩))
    simp only [List.mem_cons, List.not_mem_nil, or_false] at h2 ⊢
    rcases h2 with h | h | h <;> simp [h]
  · exact .inr (.inr (.inl ⟨h1, by rw [h2]; simp⟩))
  · exact .inr (.inr (.inr (.inl ⟨h1, h2⟩)))
  · refine .inr (.inr (.inl ⟨h1, ?_⟩))
    simp only [List.mem_cons, List.not_mem_nil, or_false] at h2 ⊢
    rcases h2 with h | h | h | h <;> simp [h]
  · exact .inr (.inr (.inr (.inr ⟨h1, h2⟩)))

theorem maker_unknown {type : Str} {f : Option Str} (h : maker type f = none) : ¬ Known type f := by
  intro hk
  simp only [Known, List.mem_cons, List.not_mem_nil, or_false] at hk
  revert h
  rcases hk with ⟨rfl, h⟩ | ⟨rfl, h⟩ | ⟨rfl, h⟩ | ⟨rfl, h⟩ | ⟨rfl, h⟩
  · rcases h with h | h | h | h <;> rw [h] <;> decide
  · rcases h with h | h | h | h <;> rw [h] <;> decide
  · rcases h with h | h | h | h | h | h | h | h <;> rw [h] <;> decide
  · rcases h with h | h <;> rw [h] <;> decide
  · rcases h with h | h <;> rw [h] <;> decide

theorem run_float {rounds : Nat} {a : Render.Node} {r : Ends Val} (h : Run (makeFloat rounds a .none) r) :
    (∃ x, r = .value (.float (.fin x)) ∧ Spec.Generated.Float a x) ∨ r = .running := by
  unfold makeFloat at h
  rw [if_neg (by simp [truth]), run_floatLoop] at h
  rcases h with ⟨-, k, hk, h1, rfl⟩ | ⟨rfl, -⟩
  · refine .inl ⟨_, rfl, _, _, k, (orElse_iff _ _ _).1 rfl, (orElse_iff _ _ _).1 rfl, hk, fun h0 => ?_, fun h0 => ?_, fun hx => ?_⟩
    · unfold floatMultiple; rw [if_neg (by simp [h0])]; rfl
    · refine ⟨_, (Props.C57.trunc_iff _ _).1 rfl, ?_⟩
      unfold floatMultiple; rw [if_pos h0]; rfl
    · exact Rat.not_le.1 fun hy => h1 ⟨hy, hx⟩
  · exact .inr rfl

theorem run_bool {w : Val} {r : Ends Val} (h : Run (makeBool w) r) : ∃ b, r = .value (.bool b) ∧ (truth w = true → b = true) := by
  unfold makeBool at h
  split at h
  · exact ⟨true, run_ret.1 h, fun _ => rfl⟩
  · next hn =>
    rw [run_bind] at h
    rcases h with ⟨n, h1, h2⟩ | ⟨e, h1, -⟩ | ⟨h1, -⟩
    · exact ⟨_, run_ret.1 h2, fun ht => absurd ht hn⟩
    · rcases run_randint.1 h1 with ⟨_, _, _, h⟩ | ⟨h, _⟩
      · cases h
      · omega
    · rcases run_randint.1 h1 with ⟨_, _, _, h⟩ | ⟨h, _⟩
      · cases h
      · omega

/-- a value that is not empty is taken, and else the value does not matter -/
theorem make_empty (env : Render.Env) (opt : Opt) (rounds t : Nat) {m : Maker} (hm : m ∈ [Maker.int, .float, .str, .email]) (w : Val) :
    (¬ Empty w → make env opt rounds t w m = .ret w) ∧ (Empty w → make env opt rounds t w m = make env opt rounds t .none m) := by
  rw [← truth_iff]
  simp only [List.mem_cons, List.not_mem_nil, or_false] at hm
  constructor
  · intro h
    have h : truth w = true := by simpa using h
    rcases hm with rfl | rfl | rfl | rfl <;> exact if_pos h
  · intro h
    have h' : ¬ truth w = true := by simp [h]
    have h0 : ¬ truth .none = true := by simp [truth]
    rcases hm with rfl | rfl | rfl | rfl
    · simp only [make, makeInt, if_neg h', if_neg h0]
    · simp only [make, makeFloat, if_neg h', if_neg h0]
    · simp only [make, makeStr, if_neg h', if_neg h0]
    · simp only [make, makeEmail, if_neg h', if_neg h0]

/-- what a leaf ends in -/
theorem leaf_ends {env : Render.Env} {opt : Opt} {rounds t : Nat} {type : Str} {r : Ends Val}
    (hden : (env.node t).multipleInt = true → (env.node t).multipleOf.den = 1) (h : Run (leaf env opt rounds t type) r) :
    (∀ v, r = .value v → Leaf opt (env.node t) type v) ∧
    ∀ e, r = .raises e → (e = .Exception ∧ ¬ Known type (env.node t).format) ∨
      (e = .ValueError ∧ type = c!"integer" ∧ ∀ d, ¬ Drawn (env.node t) d) ∨
      (e = .ValueError ∧ type = c!"string" ∧ Crossed (env.node t).minLength (env.node t).maxLength opt.maxStrLength) ∨
      Open type (env.node t).format := by
  rw [run_leaf] at h
  obtain ⟨w, hw, ⟨hn, rfl⟩ | ⟨m, hm, hr⟩⟩ := h
  · refine ⟨fun v h => (by cases h), fun e h => ?_⟩
    cases h
    exact .inl ⟨rfl, maker_unknown hn⟩
  have hk := maker_known hm
  have hmem : ¬ Empty w → w ∈ (env.node t).enum := by
    intro h
    rcases hw with ⟨-, rfl⟩ | hw
    · exact absurd (.inl rfl) h
    · exact hw
  have hfree : Empty w → (env.node t).enum = [] ∨ ∃ w ∈ (env.node t).enum, Empty w := fun h => hw.imp (·.1) fun hw => ⟨w, hw, h⟩
  have hfour : m ∈ [Maker.int, .float, .str, .email] → type ∈ [c!"integer", c!"number", c!"string"] → ¬ Empty w → 
      (∀ v, r = .value v → Leaf opt (env.node t) type v) ∧ ∀ e, r ≠ .raises e := by
    intro hin hty he
    rw [(make_empty env opt rounds t hin w).1 he, run_ret] at hr
    subst hr
    refine ⟨fun v h => ?_, fun e h => by cases h⟩
    cases h
    exact ⟨hk, .inl ⟨hty, hmem he, he⟩⟩
  rcases maker_cases hm with ⟨rfl, hf, rfl⟩ | ⟨rfl, hf, rfl⟩ | ⟨rfl, hf, rfl⟩ | ⟨rfl, hf, rfl⟩ | ⟨rfl, hf, rfl⟩ | ⟨ho, s, rfl⟩
  · by_cases he : Empty w
    · rw [(make_empty env opt rounds t (by simp) w).2 he] at hr
      rcases (run_makeInt (o := env.node t)).1 hr with ⟨d, h1, rfl⟩ | ⟨h1, rfl⟩
      · refine ⟨fun v h => ?_, fun e h => by cases h⟩
        cases h
        exact ⟨hk, .inr (.inr (.inl ⟨hfree he, .integer hf h1 ((roundedTo_iff _ hden _ _).2 rfl)⟩))⟩
      · refine ⟨fun v h => (by cases h), fun e h => ?_⟩
        cases h
        exact .inr (.inl ⟨rfl, rfl, fun d hd => h1 ⟨d, hd⟩⟩)
    · obtain ⟨h1, h2⟩ := hfour (by simp) (by simp) he
      exact ⟨h1, fun e h => absurd h (h2 e)⟩
  · by_cases he : Empty w
    · rw [(make_empty env opt rounds t (by simp) w).2 he] at hr
      rcases run_float hr with ⟨x, rfl, h1⟩ | rfl
      · refine ⟨fun v h => ?_, fun e h => by cases h⟩
        cases h
        exact ⟨hk, .inr (.inr (.inl ⟨hfree he, .number hf h1⟩))⟩
      · exact ⟨fun v h => (by cases h), fun e h => by cases h⟩
    · obtain ⟨h1, h2⟩ := hfour (by simp) (by simp) he
      exact ⟨h1, fun e h => absurd h (h2 e)⟩
  · by_cases he : Empty w
    · rw [(make_empty env opt rounds t (by simp) w).2 he] at hr
      rcases (run_makeStr (opt := opt) (o := env.node t)).1 hr with ⟨s, rfl, h1, h2⟩ | ⟨h1, rfl⟩
      · refine ⟨fun v h => ?_, fun e h => by cases h⟩
        cases h
        exact ⟨hk, .inr (.inr (.inl ⟨hfree he, .string hf h1 h2⟩))⟩
      · refine ⟨fun v h => (by cases h), fun e h => ?_⟩
        cases h
        exact .inr (.inr (.inl ⟨rfl, rfl, h1⟩))
    · obtain ⟨h1, h2⟩ := hfour (by simp) (by simp) he
      exact ⟨h1, fun e h => absurd h (h2 e)⟩
  · by_cases he : Empty w
    · rw [(make_empty env opt rounds t (by simp) w).2 he] at hr
      have hr : Run (makeEmail .none) r := hr
      refine ⟨fun v h => ?_, fun e h => ?_⟩
      · subst h
        obtain ⟨s, rfl, h1⟩ := run_makeEmail.1 hr
        exact ⟨hk, .inr (.inr (.inl ⟨hfree he, by rw [hf]; exact .email h1⟩))⟩
      · rcases Props.C58.good_email (loops := False) _ r hr with ⟨v, h'⟩ | ⟨h', -⟩
        · rw [h] at h'; cases h'
        · exact h'.elim
    · obtain ⟨h1, h2⟩ := hfour (by simp) (by simp) he
      exact ⟨h1, fun e h => absurd h (h2 e)⟩
  · obtain ⟨b, rfl, h1⟩ := run_bool (show Run (makeBool w) r from hr)
    refine ⟨fun v h => ?_, fun e h => by cases h⟩
    cases h
    by_cases he : Empty w
    · exact ⟨hk, .inr (.inr (.inl ⟨hfree he, .boolean hf⟩))⟩
    · refine ⟨hk, .inr (.inl ⟨rfl, ?_, w, hmem he, he⟩)⟩
      rw [h1 (by rw [← truth_iff] at he; simpa using he)]
  · exact ⟨fun v _ => ⟨hk, .inr (.inr (.inr ho))⟩, fun e _ => .inr (.inr (.inr ho))⟩

theorem whole_den (h : Heap) (x : Nat) : (renderNode h x).multipleInt = true → (renderNode h x).multipleOf.den = 1 := by
  intro hi
  obtain ⟨k, hk⟩ := (facets_of h x).multipleInt.1 hi
  obtain ⟨y, h1, h2⟩ := (facets_of h x).multipleOf
  unfold Spec.Described.Number at h1
  rw [hk] at h1
  rw [h2, h1]
  rfl

end

end Proofs.Generated
