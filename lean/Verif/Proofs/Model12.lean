import Verif.Spec.Model12
import Verif.Proofs.Data12
import Verif.Proofs.Checked
import Verif.Props.C87
/-!
# The schemas of an upgraded document ask for what the 1.2 document asks for
-/

namespace Proofs.Model12
open Py Tree Upgrade Spec.Conform Spec.Upgrade12 Spec.Document20 Spec.Data12 Spec.SchemaDoc Spec.Model12 Spec.Pointed _root_.Doc
open Spec (rfcEscape)
open Spec.Service (text Maybe)
open Spec.Listing12 (Value)
open Proofs.Closed12 (PlainQ Closed Refers Resolves Named)
open Proofs.Data12 (maybe_text missing value_tree)
open Props.C56 (HasModel name)
open Props.C87 (under_get)
open Proofs.Checked (lookIn)

/-! ## dicts written for data types -/

def keys : List Str :=
  [c!"type", c!"$ref", c!"format", c!"default", c!"minimum", c!"maximum", c!"uniqueItems", c!"enum", c!"items", c!"description"]

/-- the dict is written for the data type of the resource `n` -/
structure Typed (env : Env) (n : Str) (q : Dict Str Tree) (d : DataType) : Prop where
  type : ∃ t r, TypeOf env (rfcEscape n) d.type d.ref t r ∧ Maybe q c!"type" t ∧ Maybe q c!"$ref" r
  format : Maybe q c!"format" d.format
  enum : Value q c!"enum" d.enum
  minimum : ∃ x, Value q c!"minimum" x ∧ LimitOf env d.type d.minimum x
  maximum : ∃ x, Value q c!"maximum" x ∧ LimitOf env d.type d.maximum x
  unique : Value q c!"uniqueItems" d.uniqueItems
  items : ∀ i, d.items = some i → ∃ iq j, Dict.get? q c!"items" = some (.dict iq) ∧ SchemaItemsIn iq j ∧
    TypeOf env (rfcEscape n) i.type i.ref j.type j.ref ∧ j.format = i.format
  noItems : d.items = none → Dict.get? q c!"items" = none
  default : ∃ x, Value q c!"default" x ∧ DefaultOf d.defaultValue x
  only : Only q keys

variable {env : Env} {str : Nat → Str} {l : ResourceList} {s : Swagger} {sq : Dict Str Tree} {u : Py.Url} {N : Prop} {form : Str → Str → Prop}

theorem value_none {q : Dict Str Tree} {n : Str} (h : Dict.get? q n = none) : Value q n .none := by
  unfold Value Spec.Listing12.under
  rw [h, Option.getD_none, Spec.Swagger12.null, Spec.Described.Value]

theorem maybe_none {q : Dict Str Tree} {n : Str} (h : Dict.get? q n = none) : Maybe q n none := .inl h

theorem typed_schema {n : Str} {d : DataType} {v : Val} {q : Dict Str Tree} {sc : Schema} (h : SchemaIn q sc)
    (hs : SchemaOf env (rfcEscape n) d v sc) : Typed env n q d := by
  refine ⟨⟨_, _, hs.type, h.type, h.ref⟩, hs.format ▸ h.format, hs.enum ▸ h.enum, ⟨_, h.minimum, hs.minimum⟩, ⟨_, h.maximum, hs.maximum⟩,
    hs.unique ▸ h.unique, ?_, ?_, ⟨_, h.default, hs.default⟩, h.only⟩
  · intro i hi
    have h1 := h.items
    have h2 := hs.items
    rw [hi] at h2
    generalize sc.items = x at h1 h2
    cases h2 with
    | some _ j a b =>
      obtain ⟨iq, e, g⟩ := h1
      exact ⟨iq, j, e, g, a, b⟩
  · intro hi
    have h1 := h.items
    have h2 := hs.items
    rw [hi] at h2
    generalize sc.items = x at h1 h2
    cases h2
    exact h1

theorem falsy_none : Falsy .none := .inl rfl

theorem typed_items {n : Str} {i : Items} {q : Dict Str Tree} {j : SchemaItems} (h : SchemaItemsIn q j)
    (ht : TypeOf env (rfcEscape n) i.type i.ref j.type j.ref) (hf : j.format = i.format) : Typed env n q (ofItems i) := by
  refine ⟨⟨_, _, ht, h.type, h.ref⟩, (show Maybe q c!"format" i.format from hf ▸ h.format), value_none (missing h.only (by decide)),
    ⟨_, value_none (missing h.only (by decide)), .absent _ _ falsy_none⟩, ⟨_, value_none (missing h.only (by decide)), .absent _ _ falsy_none⟩,
    value_none (missing h.only (by decide)), ?_, fun _ => missing h.only (by decide), ⟨_, value_none (missing h.only (by decide)), .unset⟩, ?_⟩
  · intro i hi; cases hi
  · intro k hk
    have : ∀ k ∈ [c!"type", c!"$ref", c!"format"], k ∈ keys := by decide
    exact this k (h.only k hk)

theorem typed_ref {n i : Str} {q : Dict Str Tree} (hi : i ≠ []) (h : RefIn q (point env.sep (rfcEscape n) i)) : Typed env n q { ref := some i } := by
  refine ⟨⟨_, _, .ref none i (fun _ h => by cases h) hi, maybe_none (missing h.2 (by decide)), h.1⟩, maybe_none (missing h.2 (by decide)),
    value_none (missing h.2 (by decide)),
    ⟨_, value_none (missing h.2 (by decide)), .absent _ _ falsy_none⟩, ⟨_, value_none (missing h.2 (by decide)), .absent _ _ falsy_none⟩,
    value_none (missing h.2 (by decide)), ?_, fun _ => missing h.2 (by decide), ⟨_, value_none (missing h.2 (by decide)), .unset⟩, ?_⟩
  · intro i hi; cases hi
  · intro k hk
    have : ∀ k ∈ [c!"$ref"], k ∈ keys := by decide
    exact this k (h.2 k hk)

theorem ref_none {q : Dict Str Tree} (h : Maybe q c!"$ref" none) : refAt q = none := by
  unfold refAt
  rcases h with h | h <;> rw [h]

theorem ref_some {q : Dict Str Tree} {a : Str} (ha : a ≠ []) (h : Maybe q c!"$ref" (some a)) : refAt q = some a := by
  unfold refAt
  rw [show Dict.get? q c!"$ref" = some (text a) from h]
  cases a with
  | nil => exact absurd rfl ha
  | cons => rfl

theorem point_ne (sep a b : Str) : point sep a b ≠ [] := by unfold point; simp

/-- a data type of a primitive type -/
theorem primitive {n ty : Str} {d : DataType} {q : Dict Str Tree} (h : Typed env n q d) (hty : d.type = some ty) (hp : env.prim ty = true)
    (hr : Absent d.ref) : refAt q = none ∧ textAt q c!"type" = some (env.lower ty) := by
  obtain ⟨t, r, h1, h2, h3⟩ := h.type
  rw [hty] at h1
  generalize d.ref = x at h1 hr
  cases h1 with
  | primitive => exact ⟨ref_none h3, maybe_text h2⟩
  | primitive_ref _ x _ hx => rcases hr with hr | hr <;> cases hr; exact absurd rfl hx
  | model _ _ hp' => rw [hp] at hp'; cases hp'
  | ref _ _ h => rw [(h ty rfl).2] at hp; cases hp
  | nothing _ _ h => rw [(h ty rfl).2] at hp; cases hp

/-- a data type that is a model -/
theorem referring {n i : Str} {d : DataType} {q : Dict Str Tree} (h : Typed env n q d) (hi : Is env d i) :
    refAt q = some (point env.sep (rfcEscape n) i) := by
  obtain ⟨t, r, h1, h2, h3⟩ := h.type
  obtain ⟨hne, hi⟩ := hi
  rcases hi with ⟨e, hp⟩ | ⟨he, e⟩
  · rw [e] at h1
    have := (Props.C56.model_ref hp hne h1).2
    rw [this] at h3
    exact ref_some (point_ne _ _ _) h3
  · rw [e] at h1
    generalize d.type = y at h1 he
    generalize hx : some i = x at h1
    cases h1 with
    | primitive t _ hp => rw [(he t rfl).2] at hp; cases hp
    | primitive_ref t _ hp => rw [(he t rfl).2] at hp; cases hp
    | model t _ _ ht => exact absurd (he t rfl).1 ht
    | ref _ x _ hx' => cases hx; exact ref_some (point_ne _ _ _) h3
    | nothing _ _ _ ha => subst hx; rcases ha with ha | ha <;> cases ha; exact absurd rfl hne

theorem is_named {n i : Str} {d : DataType} (hr : Resolves env l n d.type d.ref) (hi : Is env d i) : Named l n i := by
  obtain ⟨hne, hi⟩ := hi
  rcases hi with ⟨e, hp⟩ | ⟨-, e⟩
  · exact hr.1 i e hne hp
  · exact hr.2 i e hne

/-! ## definitions -/

/-- the definition of a model -/
structure Def (env : Env) (l : ResourceList) (sq : Dict Str Tree) (n : Str) (m : Model) (q : Dict Str Tree) (d : Definition) : Prop where
  model : HasModel l n m
  plain : PlainQ q
  place : ∃ ds, Dict.get? sq c!"definitions" = some (.dict ds) ∧ Dict.get? ds (name env n m) = some (.dict q)
  written : DefinitionIn q d
  made : ModelOf env (rfcEscape n) m d
  allOf : ∀ x, x ∈ d.allOf ↔ ∃ n' m', Base env l n m n' m' ∧ x = c!"#/definitions/" ++ name env n' m'

/-- the document, and what is known -/
structure Doc12 (env : Env) (str : Nat → Str) (l : ResourceList) (s : Swagger) (sq : Dict Str Tree) (u : Py.Url) (N : Prop) : Prop where
  plain : PlainQ sq
  url : '#' ∉ urlunparse u ∧ urlunparse u ≠ []
  closed : Closed env l
  upgraded : upgrade env str l = .ok s
  written : DocumentIn sq s
  all : All env l N
  python : Python env

abbrev look (sq : Dict Str Tree) (u : Py.Url) : Str → Option (Dict Str Tree) := lookIn (.dict sq) (urlunparse u)

theorem looked (h : Doc12 env str l s sq u N) {n : Str} {m : Model} (hm : HasModel l n m) :
    ∃ q d, look sq u (c!"#/definitions/" ++ name env n m) = some q ∧ Def env l sq n m q d := by
  obtain ⟨ds, q, d, h1, h2, h3, h4, h5⟩ := Props.C87.C87_models h.upgraded h.written hm (h.all n m hm).alone
  refine ⟨q, d, ?_, hm, Proofs.Closed12.plain_get (Proofs.Closed12.plain_get h.plain h1) h2, ⟨ds, h1, h2⟩, h3, h4, fun x => ?_⟩
  · refine Proofs.Checked.looks h.plain h.url.1 h.url.2 _ [c!"definitions", name env n m] q ⟨by simp, .inl ?_⟩
      ⟨.one cSchema, .inl rfl, .field (.inl rfl) h1 (by decide : _ = some (.dict cSchema)) (.key h2 .here)⟩
    exact (Proofs.Closed12.pointer_plain (Proofs.Closed12.name_plain h.closed hm)).symm
  · rw [h5]
    constructor
    · rintro ⟨n', m', a, t, b, c, e⟩; exact ⟨n', m', ⟨a, t, b, c⟩, e⟩
    · rintro ⟨n', m', ⟨a, t, b, c⟩, e⟩; exact ⟨n', m', a, t, b, c, e⟩

theorem name_id {n i : Str} {m : Model} (h : m.id = some i) : c!"#/definitions/" ++ name env n m = point env.sep (rfcEscape n) i := by
  unfold name keyOf point; rw [h]

theorem def_ref {n : Str} {m : Model} {q : Dict Str Tree} {d : Definition} (h : Def env l sq n m q d) : refAt q = none :=
  ref_none (maybe_none (missing h.written.only (by decide)))

theorem def_type {n : Str} {m : Model} {q : Dict Str Tree} {d : Definition} (h : Def env l sq n m q d) : textAt q c!"type" = none := by
  unfold textAt; rw [missing h.written.only (by decide)]

/-- a data type that is a model leads to its definition -/
theorem leads_model (h : Doc12 env str l s sq u N) {n i : Str} {d : DataType} {q e : Dict Str Tree} (hq : Typed env n q d) (hi : Is env d i)
    (hr : Resolves env l n d.type d.ref) (hl : Leads (look sq u) q e) : ∃ m df, m.id = some i ∧ Def env l sq n m e df := by
  obtain ⟨m, hm, hid⟩ := is_named hr hi
  obtain ⟨q', df, h1, h2⟩ := looked h hm
  have h3 := referring hq hi
  rw [← name_id hid] at h3
  cases hl with
  | stop h => rw [h] at h3; cases h3
  | go h4 h5 h6 =>
    rw [h3] at h4
    cases h4
    rw [h1] at h5
    cases h5
    rw [Proofs.Data12.leads (def_ref h2) h6]
    exact ⟨m, df, hid, h2⟩

theorem properties_get {ps : Dict Str Property} {ss : Dict Str Schema} {n : Str} (h : PropertiesOf env (rfcEscape n) ps ss) (k : Str) :
    (∀ p, Dict.get? ps k = some p → ∃ sc, Dict.get? ss k = some sc ∧ SchemaOf env (rfcEscape n) p.toDataType p.description sc) ∧
    ∀ sc, Dict.get? ss k = some sc → ∃ p, Dict.get? ps k = some p ∧ SchemaOf env (rfcEscape n) p.toDataType p.description sc := by
  induction h with
  | nil => constructor <;> intro _ h <;> cases h
  | cons n' p sc ps ss hs _ ih =>
    simp only [Dict.get?]
    by_cases e : n' = k
    · simp only [e, if_true]
      constructor <;> intro _ h <;> cases h
      · exact ⟨_, rfl, hs⟩
      · exact ⟨_, rfl, hs⟩
    · simp only [e, if_false]
      exact ih

theorem property_of {n : Str} {m : Model} {q : Dict Str Tree} {df : Definition} (h : Def env l sq n m q df) {k : Str} {p : Property}
    (hp : Dict.get? m.properties k = some p) : ∃ x, propertyAt q k = some (.dict x) ∧ PlainQ x ∧ Typed env n x p.toDataType := by
  obtain ⟨sc, h1, h2⟩ := (properties_get h.made.properties k).1 p hp
  obtain ⟨ts, x, h3, h4, h5⟩ := under_get h.written.properties h1
  refine ⟨x, ?_, Proofs.Closed12.plain_get (Proofs.Closed12.plain_get h.plain h3) h4, typed_schema h5 h2⟩
  unfold propertyAt; rw [h3]; exact h4

theorem of_property {n : Str} {m : Model} {q : Dict Str Tree} {df : Definition} (h : Def env l sq n m q df) {k : Str} {t : Tree}
    (hp : propertyAt q k = some t) : ∃ p x, Dict.get? m.properties k = some p ∧ t = .dict x ∧ PlainQ x ∧ Typed env n x p.toDataType := by
  unfold propertyAt at hp
  split at hp
  · rename_i ps e
    obtain ⟨x, sc, e', h1, h2⟩ := Props.C87.under_back h.written.properties e hp
    obtain ⟨p, h3, h4⟩ := (properties_get h.made.properties k).2 sc h1
    subst e'
    exact ⟨p, x, h3, rfl, Proofs.Closed12.plain_get (Proofs.Closed12.plain_get h.plain e) hp, typed_schema h2 h4⟩
  · cases hp

theorem parts {n : Str} {m : Model} {q : Dict Str Tree} {df : Definition} (h : Def env l sq n m q df) :
    List.Forall₂ (fun t x => ∃ e, t = Tree.dict e ∧ RefIn e x) (listAt q c!"allOf") df.allOf := by
  obtain ⟨ts, h1, h2⟩ := h.written.allOf
  unfold listAt
  cases hg : Dict.get? q c!"allOf" with
  | none => rw [hg] at h1; cases h1; exact h2
  | some t => rw [hg] at h1; rw [Option.getD_some] at h1; subst h1; exact h2

/-- a part is written for the base -/
theorem part_of (h : Doc12 env str l s sq u N) {n : Str} {m : Model} {q : Dict Str Tree} {df : Definition} (hd : Def env l sq n m q df) {t : Tree}
    (ht : t ∈ listAt q c!"allOf") : ∃ e n' b j, t = .dict e ∧ PlainQ e ∧ Base env l n m n' b ∧ b.id = some j ∧ j ≠ [] ∧
      Typed env n' e { ref := some j } := by
  obtain ⟨x, hx, e, rfl, hr⟩ := Props.C55.forall₂_left (parts hd) t ht
  obtain ⟨n', b, hb, rfl⟩ := (hd.allOf x).1 hx
  obtain ⟨j, hj, hne⟩ := (h.all n' b hb.1).id
  refine ⟨e, n', b, j, rfl, ?_, hb, hj, hne, typed_ref hne ?_⟩
  · unfold listAt at ht
    split at ht
    · rename_i ts hg
      have := Proofs.Closed12.plain_get hd.plain hg
      rw [Spec.Pointed.Plain] at this
      exact Proofs.Placed.plainList_iff.1 this _ ht
    · cases ht
  · rw [← name_id hj]; exact hr

theorem of_base (h : Doc12 env str l s sq u N) {n : Str} {m : Model} {q : Dict Str Tree} {df : Definition} (hd : Def env l sq n m q df)
    {n' j : Str} {b : Model} (hb : Base env l n m n' b) (hj : b.id = some j) :
    ∃ e, .dict e ∈ listAt q c!"allOf" ∧ PlainQ e ∧ Typed env n' e { ref := some j } := by
  obtain ⟨t, ht, e, rfl, hr⟩ := Props.C55.forall₂_right (parts hd) _ ((hd.allOf _).2 ⟨n', b, hb, rfl⟩)
  obtain ⟨j', hj', hne⟩ := (h.all n' b hb.1).id
  rw [hj] at hj'
  cases hj'
  refine ⟨e, ht, ?_, typed_ref hne (name_id hj ▸ hr)⟩
  unfold listAt at ht
  split at ht
  · rename_i ts hg
    have := Proofs.Closed12.plain_get hd.plain hg
    rw [Spec.Pointed.Plain] at this
    exact Proofs.Placed.plainList_iff.1 this _ ht
  · cases ht

theorem values_of {ts : List Tree} {vs : List Val} (h : Spec.Described.Values ts vs) {v : Val} (hv : v ∈ vs) : ∃ t ∈ ts, Spec.Described.Value t v := by
  induction ts generalizing vs with
  | nil => rw [Spec.Described.Values] at h; subst h; cases hv
  | cons a ts ih =>
    rw [Spec.Described.Values] at h
    obtain ⟨v', vs', rfl, h1, h2⟩ := h
    rcases List.mem_cons.1 hv with rfl | hv
    · exact ⟨a, by simp, h1⟩
    · obtain ⟨t, ht, h3⟩ := ih h2 hv
      exact ⟨t, by simp [ht], h3⟩

theorem required_of {n : Str} {m : Model} {q : Dict Str Tree} {df : Definition} (hd : Def env l sq n m q df) {k : Str} (h : Requires m k) :
    Required q k := by
  obtain ⟨vs, e, hk⟩ := h
  have h1 := hd.written.required
  rw [hd.made.required, e] at h1
  unfold Required listAt
  cases hg : Dict.get? q c!"required" with
  | none =>
    rw [hg, Option.getD_none, Spec.Described.Value] at h1
    obtain ⟨vs', e', h1⟩ := h1
    cases e'
    rw [Spec.Described.Values] at h1
    rw [h1] at hk; cases hk
  | some t =>
    rw [hg, Option.getD_some] at h1
    have hp := Proofs.Closed12.plain_get hd.plain hg
    have e := Proofs.Closed12.ofVal_value t _ hp h1
    subst e
    rw [_root_.Upgraded.ofVal] at hp h1 ⊢
    rw [Spec.Described.Value] at h1
    obtain ⟨vs', e', h1⟩ := h1
    cases e'
    obtain ⟨t, ht, h2⟩ := values_of h1 hk
    rw [Spec.Pointed.Plain] at hp
    have := Proofs.Closed12.ofVal_value t _ (Proofs.Placed.plainList_iff.1 hp _ ht) h2
    rw [show (Tree.atom (.str k)) = t from this]
    exact ht

/-! ## the schemas within reach -/

/-- a dict for a data type within reach, or the definition of a model -/
inductive Known (env : Env) (l : ResourceList) (sq : Dict Str Tree) (N : Prop) (q : Dict Str Tree) : Prop
  | typed {n d} : Reach env N d → Refers env l n d → Typed env n q d → PlainQ q → Known env l sq N q
  | model {n m df} : Def env l sq n m q df → Known env l sq N q

theorem known_plain {q : Dict Str Tree} (h : Known env l sq N q) : PlainQ q := by
  cases h with
  | typed _ _ _ h => exact h
  | model h => exact h.plain

theorem is_ref {j : Str} (hne : j ≠ []) : Is env { ref := some j } j := ⟨hne, .inr ⟨fun _ h => (by cases h), rfl⟩⟩

theorem refers_ref {n j : Str} {b : Model} (hb : HasModel l n b) (hj : b.id = some j) : Refers env l n { ref := some j } := by
  refine ⟨⟨fun _ h => (by cases h), fun x hx _ => ?_⟩, fun _ h => (by cases h)⟩
  cases hx
  exact ⟨b, hb, hj⟩

theorem known_ref {n j : Str} {b : Model} {e : Dict Str Tree} (hb : HasModel l n b) (hj : b.id = some j) (hne : j ≠ []) (hp : PlainQ e)
    (ht : Typed env n e { ref := some j }) : Known env l sq N e := by
  exact .typed (.model j (is_ref hne) fun _ h => (by cases h)) (refers_ref hb hj) ht hp

/-- what a dict for a primitive type says -/
theorem says_basic (hpy : Python env) {n ty : Str} {d : DataType} {q : Dict Str Tree} (hq : PlainQ q) (h : Typed env n q d)
    (hty : d.type = some ty) (hp : env.prim ty = true) (hr : Absent d.ref) (hlo : Limited env (env.lower ty) d.minimum)
    (hhi : Limited env (env.lower ty) d.maximum) : Proofs.Data12.Says env q (env.lower ty) d.format d.enum d.minimum d.maximum := by
  obtain ⟨h1, h2⟩ := primitive h hty hp hr
  obtain ⟨mn, v1, l1⟩ := h.minimum
  obtain ⟨mx, v2, l2⟩ := h.maximum
  refine ⟨h1, h2, maybe_text h.format, h.enum, fun _ r hf => ⟨fun m hm => ?_, fun m hm => ?_⟩⟩
  · exact (hf.max m (Proofs.Data12.limit hpy hq hty v2 l2 hhi m hm)).1
  · exact (hf.min m (Proofs.Data12.limit hpy hq hty v1 l1 hlo m hm)).1

theorem typed_items_of {n : Str} {d : DataType} {i : Items} {q : Dict Str Tree} (hq : PlainQ q) (h : Typed env n q d) (hi : d.items = some i) :
    ∃ iq, Dict.get? q c!"items" = some (.dict iq) ∧ PlainQ iq ∧ Typed env n iq (ofItems i) := by
  obtain ⟨iq, j, h1, h2, h3, h4⟩ := h.items i hi
  exact ⟨iq, h1, Proofs.Closed12.plain_get hq h1, typed_items h2 h3 h4⟩

/-- the items of an array within reach -/
theorem reach_items {i : Items}
    (h : (∃ tj, i.type = some tj ∧ env.prim tj = true ∧ Absent i.ref ∧ Basic (env.lower tj) i.format .none) ∨ ∃ x, Is env (ofItems i) x) :
    Reach env N (ofItems i) := by
  rcases h with ⟨tj, h1, h2, h3, h4⟩ | ⟨x, h⟩
  · exact .basic tj h1 h2 h3 rfl h4 (.inl rfl) (.inl rfl) fun _ h => by cases h
  · exact .model x h fun _ h => by cases h

theorem refers_items {n : Str} {d : DataType} {i : Items} (h : Refers env l n d) (hi : d.items = some i) : Refers env l n (ofItems i) :=
  ⟨h.items i hi, fun _ h => by cases h⟩

theorem list_missing {q : Dict Str Tree} {k : Str} {ks : List Str} (h : Only q ks) (hk : k ∉ ks) : listAt q k = [] := by
  unfold listAt; rw [missing h hk]

/-- the cases of a data type within reach -/
theorem typed_simple (hpy : Python env) {n : Str} {d : DataType} {q : Dict Str Tree} (hq : PlainQ q) (hr : Reach env N d) (h : Typed env n q d)
    (href : refAt q = none) : Simple q := by
  refine Proofs.Data12.simple h.only (by decide) (by decide) (by decide) ?_
  cases hr with
  | basic ty e hp ha _ hb hlo hhi _ =>
    exact Proofs.Data12.plainly hq (says_basic hpy hq h e hp ha hlo hhi) hb (missing h.only (by decide)) (missing h.only (by decide))
      (missing h.only (by decide))
  | array ty i e hp hl ha hi _ hen hu _ =>
    obtain ⟨iq, h1, -, -⟩ := typed_items_of hq h hi
    refine .array (by rw [(primitive h e hp ha).2, hl]) h1 (Proofs.Data12.noEnum hq h.enum hen) (Proofs.Data12.off hq h.unique hu) ?_
    unfold lengthAt; rw [missing h.only (by decide)]; simp
  | model i hi => rw [referring h hi] at href; cases href

theorem def_simple {n : Str} {m : Model} {q : Dict Str Tree} {df : Definition} (h : Def env l sq n m q df) : Simple q := by
  refine ⟨.inr (.inl (def_type h)), ⟨.inr (.inl (missing h.written.only (by decide))), .inr (.inl (missing h.written.only (by decide)))⟩, ?_⟩
  refine .object (.inr ⟨def_type h, .inl ?_⟩) (fun k t hk => ?_) (.nothing (missing h.written.only (by decide))) (list_missing h.written.only (by decide))
  · rw [missing h.written.only (by decide)]; simp
  · obtain ⟨p, x, -, e, -⟩ := of_property h hk
    exact ⟨x, e⟩

/-- two dicts for a property of the same model -/
theorem def_unique {n : Str} {m : Model} {q q' : Dict Str Tree} {df df' : Definition} (h : Def env l sq n m q df) (h' : Def env l sq n m q' df') :
    q' = q := by
  obtain ⟨ds, h1, h2⟩ := h.place
  obtain ⟨ds', h3, h4⟩ := h'.place
  rw [h1] at h3
  cases h3
  rw [h2] at h4
  cases h4
  rfl

theorem closed (h : Doc12 env str l s sq u N) : Spec.Conform.Closed (look sq u) (Known env l sq N) := by
  constructor
  · rintro q hq href
    cases hq with
    | typed hr _ ht hp => exact typed_simple h.python hp hr ht href
    | model hd => exact def_simple hd
  · rintro q r d hq href hlk
    cases hq with
    | @typed n d' hr hf ht hp =>
      cases hr with
      | basic ty e hp ha => rw [(primitive ht e hp ha).1] at href; cases href
      | array ty i e hp _ ha => rw [(primitive ht e hp ha).1] at href; cases href
      | model i hi =>
        obtain ⟨m, hm, hid⟩ := is_named hf.own hi
        obtain ⟨q', df, h1, h2⟩ := looked h hm
        rw [referring ht hi] at href
        cases href
        rw [name_id hid, hlk] at h1
        cases h1
        exact .model h2
    | model hd => rw [def_ref hd] at href; cases href
  · rintro q d hq href hit
    cases hq with
    | @typed n d' hr hf ht hp =>
      cases hi : d'.items with
      | none => rw [ht.noItems hi] at hit; cases hit
      | some i =>
        obtain ⟨iq, h1, h2, h3⟩ := typed_items_of hp ht hi
        rw [hit] at h1
        cases h1
        cases hr with
        | basic _ _ _ _ e => rw [hi] at e; cases e
        | array ty j _ _ _ _ e hj => rw [hi] at e; cases e; exact .typed (reach_items hj) (refers_items hf hi) h3 h2
        | model i hi => rw [referring ht hi] at href; cases href
    | model hd => rw [missing hd.written.only (by decide)] at hit; cases hit
  · rintro q k d hq href hk
    cases hq with
    | typed _ _ ht _ => unfold propertyAt at hk; rw [missing ht.only (by decide)] at hk; cases hk
    | @model n m df hd =>
      obtain ⟨p, x, h1, e, h2, h3⟩ := of_property hd hk
      cases e
      have hm := Dict.mem_of_get? h1
      exact .typed ((h.all n m hd.model).properties _ hm) (h.closed.properties n m hd.model _ hm) h3 h2
  · rintro q d hq href hk
    cases hq with
    | typed _ _ ht _ => rw [missing ht.only (by decide)] at hk; cases hk
    | model hd => rw [missing hd.written.only (by decide)] at hk; cases hk
  · rintro q d hq href hk
    cases hq with
    | typed _ _ ht _ => rw [list_missing ht.only (by decide)] at hk; cases hk
    | model hd =>
      obtain ⟨e, n', b, j, h1, h2, h3, h4, h5, h6⟩ := part_of h hd hk
      cases h1
      exact known_ref h3.1 h4 h5 h2 h6
  · rintro q hq href hne
    cases hq with
    | typed _ _ ht _ => exact absurd (list_missing ht.only (by decide)) hne
    | @model n m df hd =>
      have mem : ∀ x, Member (look sq u) q x → x = q ∨ ∃ n' b df', Base env l n m n' b ∧ Def env l sq n' b x df' := by
        intro x hx
        cases hx with
        | self => exact .inl rfl
        | part h1 h2 =>
          obtain ⟨e, n', b, j, h3, h4, h5, h6, h7, h8⟩ := part_of h hd h1
          cases h3
          obtain ⟨b', df', h9, h10⟩ := leads_model (i := j) h h8 (is_ref h7) (refers_ref h5.1 h6).own h2
          have : b' = b := ((h.all n' b h5.1).alone n' b' h10.model (by unfold keyOf; rw [h9, h6])).2
          subst this
          exact .inr ⟨n', b', df', h5, h10⟩
      have own := h.all n m hd.model
      refine ⟨?_, ?_, ?_, ?_, ?_⟩
      · intro t ht
        obtain ⟨e, _, _, _, h1, -⟩ := part_of h hd ht
        exact ⟨e, h1⟩
      · intro x e h1 h2
        obtain ⟨y, n', b, j, h3, h4, h5, h6, h7, h8⟩ := part_of h hd h1
        cases h3
        obtain ⟨b', df', h9, h10⟩ := leads_model (i := j) h h8 (is_ref h7) (refers_ref h5.1 h6).own h2
        have : b' = b := ((h.all n' b h5.1).alone n' b' h10.model (by unfold keyOf; rw [h9, h6])).2
        subst this
        refine ⟨?_, .inl (def_type h10)⟩
        cases hl : listAt e c!"allOf" with
        | nil => rfl
        | cons t ts =>
          obtain ⟨_, n'', c, _, _, _, hc, _⟩ := part_of h h10 (t := t) (by rw [hl]; simp)
          exact absurd hc (own.flat n' b' h5 n'' c)
      · intro e he
        rcases mem e he with rfl | ⟨n', b, df', -, hb⟩
        · exact .inl (missing hd.written.only (by decide))
        · exact .inl (missing hb.written.only (by decide))
      · intro e e' k t t' he he' hk hk'
        rcases mem e he with rfl | ⟨n', b, df', hb, hdb⟩ <;> rcases mem e' he' with rfl | ⟨n'', c, df'', hc, hdc⟩
        · rw [hk] at hk'; exact Option.some.inj hk'
        · obtain ⟨p, _, h1, -⟩ := of_property hd hk
          obtain ⟨p', _, h2, -⟩ := of_property hdc hk'
          rw [own.apart n'' c hc k p h1] at h2; cases h2
        · obtain ⟨p, _, h1, -⟩ := of_property hd hk'
          obtain ⟨p', _, h2, -⟩ := of_property hdb hk
          rw [own.apart n' b hb k p h1] at h2; cases h2
        · rcases own.apart' n' b n'' c hb hc with ⟨rfl, rfl⟩ | ha
          · rw [def_unique hdb hdc, hk] at hk'; exact Option.some.inj hk'
          · obtain ⟨p, _, h1, -⟩ := of_property hdb hk
            obtain ⟨p', _, h2, -⟩ := of_property hdc hk'
            rw [ha k p h1] at h2; cases h2
      · obtain ⟨t, ht⟩ := List.exists_mem_of_ne_nil _ hne
        obtain ⟨_, n', b, _, _, _, hb, _⟩ := part_of h hd ht
        obtain ⟨k, p, h1, h2⟩ := own.kept ⟨n', b, hb⟩
        obtain ⟨x, h3, -⟩ := property_of hd h2
        exact .inl ⟨k, x, required_of hd h1, h3⟩
  · rintro q k hq href hk
    cases hq with
    | typed _ _ ht _ => unfold textAt at hk; rw [missing ht.only (by decide)] at hk; cases hk
    | @model n m df hd =>
      have hdis : m.discriminator = .str k := by
        have hv := hd.written.discriminator
        rw [hd.made.discriminator] at hv
        unfold textAt at hk
        unfold Value Spec.Listing12.under at hv
        split at hk
        · rename_i x e
          cases hk
          rw [e, Option.getD_some, Spec.Described.Value] at hv
          exact hv
        · cases hk
      obtain ⟨p, ty, h1, h2, h3, h4, h5, h6, h7⟩ := (h.all n m hd.model).discriminator k hdis
      obtain ⟨x, h8, h9, h10⟩ := property_of hd h1
      have hpr := primitive h10 h2 h3 h5
      refine ⟨x, x, h8, .stop hpr.1, by rw [hpr.2, h4], ?_, Proofs.Data12.noEnum h9 h10.enum h7, ?_, ?_⟩
      · rw [maybe_text h10.format]; exact h6
      · unfold lengthAt; rw [missing h10.only (by decide)]
      · unfold lengthAt; rw [missing h10.only (by decide)]

theorem enums {q : Dict Str Tree} (h : Known env l sq N q) : ∀ t ∈ listAt q c!"enum", ∀ c fs, t ≠ .obj c fs :=
  Proofs.Data12.no_objects (known_plain h) _

/-! ## defaults -/

mutual
theorem proper_tree : ∀ (t : Tree) (v : Val), Spec.Pointed.Plain t → Spec.Described.Value t v → Proper N v → ProperTree N t
  | .atom a, v, _, h, hv => by
    cases a <;> (rw [Spec.Described.Value] at h; subst h; first | exact hv | trivial)
  | .list ts, v, hp, h, hv => by
    rw [Spec.Described.Value] at h
    obtain ⟨vs, rfl, h⟩ := h
    rw [Spec.Pointed.Plain] at hp
    rw [Proper] at hv
    rw [ProperTree]
    exact proper_trees ts vs hp h hv
  | .dict d, v, hp, h, hv => by
    rw [Spec.Described.Value] at h
    obtain ⟨vs, rfl, h⟩ := h
    rw [Spec.Pointed.Plain] at hp
    rw [Proper] at hv
    rw [ProperTree]
    exact ⟨hp.1, proper_fields d vs hp.2 h hv.2⟩
  | .obj _ _, _, hp, _, _ => by rw [Spec.Pointed.Plain] at hp; exact hp.elim
theorem proper_trees : ∀ (ts : List Tree) (vs : List Val), Spec.Pointed.PlainList ts → Spec.Described.Values ts vs → Propers N vs → ProperTrees N ts
  | [], _, _, _, _ => by rw [ProperTrees]; trivial
  | t :: ts, vs, hp, h, hv => by
    rw [Spec.Described.Values] at h
    obtain ⟨v, vs', rfl, h1, h2⟩ := h
    rw [Spec.Pointed.PlainList] at hp
    rw [Propers] at hv
    rw [ProperTrees]
    exact ⟨proper_tree t v hp.1 h1 hv.1, proper_trees ts vs' hp.2 h2 hv.2⟩
theorem proper_fields : ∀ (d : List (Str × Tree)) (es : List (Str × Val)), Spec.Pointed.PlainDict d → Spec.Described.Pairs d es → ProperPairs N es →
    ProperFields N d
  | [], _, _, _, _ => by rw [ProperFields]; trivial
  | (n, t) :: d, es, hp, h, hv => by
    rw [Spec.Described.Pairs] at h
    obtain ⟨v, es', rfl, h1, h2⟩ := h
    rw [Spec.Pointed.PlainDict] at hp
    rw [ProperPairs] at hv
    rw [ProperFields]
    exact ⟨proper_tree t v hp.1 h1 hv.1, proper_fields d es' hp.2 h2 hv.2⟩
end

theorem reach_default {d : DataType} (h : Reach env N d) : ∀ v, d.defaultValue = some v → v = .none ∨ Proper N v := by
  cases h <;> assumption

theorem defaults {q : Dict Str Tree} (h : Known env l sq N q) : Defaults N q := by
  intro t ht
  cases h with
  | @typed n d hr _ hq hp =>
    obtain ⟨x, h1, h2⟩ := hq.default
    unfold Value Spec.Listing12.under at h1
    rw [ht, Option.getD_some] at h1
    have hpt := Proofs.Closed12.plain_get hp ht
    have hx : x = .none ∨ Proper N x := by
      have := reach_default hr
      generalize d.defaultValue = y at this h2
      cases h2 with
      | unset => exact .inl rfl
      | set => exact this x rfl
    rcases hx with rfl | hx
    · exact .inl (Proofs.Closed12.ofVal_value t _ hpt h1).symm
    · exact .inr (proper_tree t x hpt h1 hx)
  | model hd => rw [missing hd.written.only (by decide)] at ht; cases ht

/-! ## where there are discriminators -/

/-- no schema below has a discriminator or parts -/
def Low (k : Kind) (t : Tree) : Prop := ∀ ts k' q, Place k t ts k' (.dict q) → Takes k' cSchema → Dict.get? q c!"discriminator" = none ∧
  Dict.get? q c!"allOf" = none

/-- what a dict for an object needs -/
theorem low_one {c : Nat} {q : Dict Str Tree} (h0 : c = cSchema → Dict.get? q c!"discriminator" = none ∧ Dict.get? q c!"allOf" = none)
    (h : ∀ n v k, Dict.get? q n = some v → Dict.get? (v20 c).child n = some k → Low k v) : Low (.one c) (.dict q) := by
  intro ts k' x hp ht
  generalize hk : Kind.one c = k at hp
  generalize hd : Tree.dict q = d at hp
  generalize hx : Tree.dict x = y at hp
  cases hp with
  | here =>
    subst hk
    rw [← hd] at hx
    cases hx
    refine h0 ?_
    rcases ht with e | e <;> cases e
    rfl
  | @field _ c' _ _ _ _ _ _ _ h1 h2 h3 h4 =>
    subst hk
    cases hd
    subst hx
    have : c' = c := by rcases h1 with e | e <;> cases e; rfl
    subst this
    exact h _ _ _ h2 h3 _ _ _ h4 ht
  | item => cases hk
  | key => cases hk

theorem low_list {c : Nat} {ts : List Tree} (h : ∀ t ∈ ts, Low (.one c) t) : Low (.list c) (.list ts) := by
  intro us k' x hp ht
  generalize hk : Kind.list c = k at hp
  generalize hd : Tree.list ts = d at hp
  generalize hx : Tree.dict x = y at hp
  cases hp with
  | here => rw [← hd] at hx; cases hx
  | field h1 => subst hk; rcases h1 with e | e <;> cases e
  | item h1 h2 => cases hk; cases hd; subst hx; exact h _ (List.mem_of_getElem? h1) _ _ _ h2 ht
  | key => cases hk

theorem low_list_dict {c : Nat} {q : Dict Str Tree} : Low (.list c) (.dict q) := by
  intro us k' x hp ht
  generalize hk : Kind.list c = k at hp
  generalize hd : Tree.dict q = d at hp
  cases hp with
  | here => subst hk; rcases ht with e | e <;> cases e
  | field h1 => subst hk; rcases h1 with e | e <;> cases e
  | item h1 h2 => cases hd
  | key => cases hk

theorem low_dict {c : Nat} {q : Dict Str Tree} (h : ∀ n t, Dict.get? q n = some t → Low (.one c) t) : Low (.dict c) (.dict q) := by
  intro us k' x hp ht
  generalize hk : Kind.dict c = k at hp
  generalize hd : Tree.dict q = d at hp
  generalize hx : Tree.dict x = y at hp
  cases hp with
  | here => subst hk; rcases ht with e | e <;> cases e
  | field h1 => subst hk; rcases h1 with e | e <;> cases e
  | item => cases hk
  | key h1 h2 => cases hk; cases hd; subst hx; exact h _ _ h1 _ _ _ h2 ht

theorem only_mem {q : Dict Str Tree} {ks : List Str} {n : Str} {v : Tree} (h : Only q ks) (hn : Dict.get? q n = some v) : n ∈ ks :=
  h n (by rw [hn]; simp)

theorem low_items {q : Dict Str Tree} {i : SchemaItems} (h : SchemaItemsIn q i) : Low (.one cSchema) (.dict q) := by
  refine low_one (fun _ => ⟨missing h.only (by decide), missing h.only (by decide)⟩) fun n v k h1 h2 => ?_
  have : ∀ n ∈ [c!"type", c!"$ref", c!"format"], Dict.get? (v20 cSchema).child n = none := by decide
  rw [this n (only_mem h.only h1)] at h2; cases h2

theorem low_ref {q : Dict Str Tree} {r : Str} (h : RefIn q r) : Low (.one cSchema) (.dict q) := by
  refine low_one (fun _ => ⟨missing h.2 (by decide), missing h.2 (by decide)⟩) fun n v k h1 h2 => ?_
  have : ∀ n ∈ [c!"$ref"], Dict.get? (v20 cSchema).child n = none := by decide
  rw [this n (only_mem h.2 h1)] at h2; cases h2

theorem low_schema {q : Dict Str Tree} {sc : Schema} (h : SchemaIn q sc) : Low (.one cSchema) (.dict q) := by
  refine low_one (fun _ => ⟨missing h.only (by decide), missing h.only (by decide)⟩) fun n v k h1 h2 => ?_
  have : ∀ n ∈ keys, n = c!"items" ∧ Dict.get? (v20 cSchema).child n = some (.one cSchema) ∨ Dict.get? (v20 cSchema).child n = none := by decide
  rcases this n (only_mem h.only h1) with ⟨rfl, e⟩ | e
  · rw [e] at h2
    cases h2
    have hi := h.items
    cases hs : sc.items with
    | none => rw [hs] at hi; rw [show Dict.get? q c!"items" = none from hi] at h1; cases h1
    | some i =>
      rw [hs] at hi
      obtain ⟨d, e1, e2⟩ := hi
      rw [h1] at e1
      cases e1
      exact low_items e2
  · rw [e] at h2; cases h2

theorem low_items20 {q : Dict Str Tree} {i : Items20} (h : Items20In q i) : Low (.one cItems) (.dict q) := by
  refine low_one (fun h => absurd h (by decide)) fun n v k h1 h2 => ?_
  have : ∀ n ∈ [c!"type", c!"format", c!"enum"], Dict.get? (v20 cItems).child n = none := by decide
  rw [this n (only_mem h.only h1)] at h2; cases h2

theorem one_get {α : Type} {P : Dict Str Tree → α → Prop} {q : Dict Str Tree} {n : Str} {o : Option α} {v : Tree} (h : One P q n o)
    (hv : Dict.get? q n = some v) : ∃ d a, v = .dict d ∧ P d a := by
  cases o with
  | none => rw [show Dict.get? q n = none from h] at hv; cases hv
  | some a =>
    obtain ⟨d, e, h⟩ := h
    rw [hv] at e
    cases e
    exact ⟨d, a, rfl, h⟩

theorem low_param {q : Dict Str Tree} {p : Param20} (h : Param20In q p) : Low (.one cParameter) (.dict q) := by
  refine low_one (fun h => absurd h (by decide)) fun n v k h1 h2 => ?_
  have : ∀ n ∈ [c!"name", c!"required", c!"description", c!"in", c!"schema", c!"type", c!"format", c!"default", c!"minimum",
      c!"maximum", c!"enum", c!"uniqueItems", c!"collectionFormat", c!"items"],
      n = c!"schema" ∧ Dict.get? (v20 cParameter).child n = some (.one cSchema) ∨
      n = c!"items" ∧ Dict.get? (v20 cParameter).child n = some (.one cItems) ∨ Dict.get? (v20 cParameter).child n = none := by decide
  rcases this n (only_mem h.only h1) with ⟨rfl, e⟩ | ⟨rfl, e⟩ | e
  · rw [e] at h2
    cases h2
    obtain ⟨d, a, rfl, h3⟩ := one_get h.schema h1
    exact low_schema h3
  · rw [e] at h2
    cases h2
    obtain ⟨d, a, rfl, h3⟩ := one_get h.items h1
    exact low_items20 h3
  · rw [e] at h2; cases h2

theorem low_response {q : Dict Str Tree} {o : Option Schema} (h : One SchemaIn q c!"schema" o) (ho : Only q [c!"schema"]) :
    Low (.one cResponse) (.dict q) := by
  refine low_one (fun h => absurd h (by decide)) fun n v k h1 h2 => ?_
  have : ∀ n ∈ [c!"schema"], n = c!"schema" ∧ Dict.get? (v20 cResponse).child n = some (.one cSchema) := by decide
  obtain ⟨rfl, e⟩ := this n (only_mem ho h1)
  rw [e] at h2
  cases h2
  obtain ⟨d, a, rfl, h3⟩ := one_get h h1
  exact low_schema h3

theorem low_operation {q : Dict Str Tree} {o : Op20} (h : OperationIn q o) : Low (.one cOperation) (.dict q) := by
  refine low_one (fun h => absurd h (by decide)) fun n v k h1 h2 => ?_
  have : ∀ n ∈ [c!"tags", c!"operationId", c!"summary", c!"description", c!"deprecated", c!"consumes", c!"produces", c!"parameters",
      c!"security", c!"responses"],
      n = c!"parameters" ∧ Dict.get? (v20 cOperation).child n = some (.list cParameter) ∨
      n = c!"responses" ∧ Dict.get? (v20 cOperation).child n = some (.dict cResponse) ∨ Dict.get? (v20 cOperation).child n = none := by decide
  rcases this n (only_mem h.only h1) with ⟨rfl, e⟩ | ⟨rfl, e⟩ | e
  · rw [e] at h2
    cases h2
    obtain ⟨ts, e, h3⟩ := h.parameters
    rw [h1, Option.getD_some] at e
    subst e
    refine low_list fun t ht => ?_
    obtain ⟨a, -, d, rfl, h4⟩ := Props.C55.forall₂_left h3 t ht
    exact low_param h4
  · rw [e] at h2
    cases h2
    obtain ⟨rq, e, h3, h4⟩ := h.responses
    rw [h1] at e
    cases e
    refine low_dict fun n t hn => ?_
    simp only [Dict.get?] at hn
    split at hn
    · cases hn; exact low_response h3 h4
    · cases hn
  · rw [e] at h2; cases h2

theorem low_path {q : Dict Str Tree} {ops : Dict Str Op20} (h : PathIn q ops) : Low (.one cPathItem) (.dict q) := by
  refine low_one (fun h => absurd h (by decide)) fun n v k h1 h2 => ?_
  obtain ⟨d, a, rfl, h3⟩ := one_get (h n) h1
  have : ∀ e ∈ (v20 cPathItem).child, e.2 = .one cOperation ∨ e.2 = .list cParameter := by decide
  rcases this _ (Dict.mem_of_get? h2) with e | e
  · cases e; exact low_operation h3
  · cases e; exact low_list_dict

theorem under_mem {α : Type} {P : Dict Str Tree → α → Prop} {q : Dict Str Tree} {n : Str} {d : Dict Str α} {t : Tree} (h : Under P q n d)
    (hq : Dict.get? q n = some t) : ∃ ts, t = .dict ts ∧ ∀ k v, Dict.get? ts k = some v → ∃ x a, v = .dict x ∧ P x a := by
  obtain ⟨ts, e, h1⟩ := h
  rw [hq, Option.getD_some] at e
  refine ⟨ts, e, fun k v hk => ?_⟩
  obtain ⟨a, -, -, x, e, h2⟩ := Props.C55.forall₂_left h1 _ (Dict.mem_of_get? hk)
  exact ⟨x, _, e, h2⟩

theorem low_leaf {c : Nat} (hc : c ≠ cSchema) (h0 : (v20 c).child = []) {q : Dict Str Tree} : Low (.one c) (.dict q) := by
  refine low_one (fun h => absurd h hc) fun n v k h1 h2 => ?_
  rw [h0] at h2; cases h2

/-- **schemas of an upgraded document**: those with a discriminator or parts are definitions -/
theorem written_low (h : DocumentIn sq s) {ts : List Str} {q : Dict Str Tree} (hw : Written (.dict sq) ts cSchema q) :
    (Dict.get? q c!"discriminator" = none ∧ Dict.get? q c!"allOf" = none) ∨ ∃ ds k, ts = [c!"definitions", k] ∧
      Dict.get? sq c!"definitions" = some (.dict ds) ∧ Dict.get? ds k = some (.dict q) := by
  obtain ⟨k, hk, hp⟩ := hw
  generalize hd : Tree.dict sq = d at hp
  generalize hx : Tree.dict q = y at hp
  generalize hk0 : Kind.one cSwagger = k0 at hp
  cases hp with
  | here => subst hk0; rcases hk with e | e <;> exact absurd (by injection e) (by decide : cSwagger ≠ cSchema)
  | item => cases hk0
  | key => cases hk0
  | @field _ c d n v k' us _ _ h1 h2 h3 h4 =>
    subst hk0
    have : c = cSwagger := by rcases h1 with e | e <;> cases e; rfl
    subst this
    cases hd
    subst hx
    have hw := h
    have : ∀ n ∈ [c!"info", c!"swagger", c!"schemes", c!"host", c!"basePath", c!"tags", c!"definitions", c!"parameters",
        c!"responses", c!"paths", c!"security", c!"securityDefinitions"],
        n = c!"info" ∧ Dict.get? (v20 cSwagger).child n = some (.one cInfo) ∨
        n = c!"tags" ∧ Dict.get? (v20 cSwagger).child n = some (.list cTag) ∨
        n = c!"definitions" ∧ Dict.get? (v20 cSwagger).child n = some (.dict cSchema) ∨
        n = c!"parameters" ∧ Dict.get? (v20 cSwagger).child n = some (.dict cParameter) ∨
        n = c!"responses" ∧ Dict.get? (v20 cSwagger).child n = some (.dict cResponse) ∨
        n = c!"paths" ∧ Dict.get? (v20 cSwagger).child n = some (.dict cPathItem) ∨
        n = c!"securityDefinitions" ∧ Dict.get? (v20 cSwagger).child n = some (.dict cSecurityScheme) ∨
        Dict.get? (v20 cSwagger).child n = none := by decide
    have low : Low k' v → (Dict.get? q c!"discriminator" = none ∧ Dict.get? q c!"allOf" = none) := fun h => h _ _ _ h4 hk
    rcases this n (only_mem hw.only h2) with ⟨rfl, e⟩ | ⟨rfl, e⟩ | ⟨rfl, e⟩ | ⟨rfl, e⟩ | ⟨rfl, e⟩ | ⟨rfl, e⟩ | ⟨rfl, e⟩ | e <;>
      (rw [e] at h3; cases h3)
    · refine .inl (low ?_)
      obtain ⟨d, a, rfl, h5⟩ := one_get hw.info h2
      refine low_one (fun h => absurd h (by decide)) fun n v k h6 h7 => ?_
      have : ∀ n ∈ [c!"version", c!"title", c!"description", c!"termsOfService", c!"contact", c!"license"],
          n = c!"contact" ∧ Dict.get? (v20 cInfo).child n = some (.one cContact) ∨
          n = c!"license" ∧ Dict.get? (v20 cInfo).child n = some (.one cLicense) ∨ Dict.get? (v20 cInfo).child n = none := by decide
      rcases this n (only_mem h5.only h6) with ⟨rfl, e⟩ | ⟨rfl, e⟩ | e <;> (rw [e] at h7; cases h7)
      · obtain ⟨d, a, rfl, -⟩ := one_get h5.contact h6
        exact low_leaf (by decide) rfl
      · obtain ⟨d, a, rfl, -⟩ := one_get h5.license h6
        exact low_leaf (by decide) rfl
    · refine .inl (low ?_)
      obtain ⟨ts, e, h5⟩ := hw.tags
      rw [h2, Option.getD_some] at e
      subst e
      refine low_list fun t ht => ?_
      obtain ⟨a, -, d, rfl, h6, h7⟩ := Props.C55.forall₂_left h5 t ht
      refine low_one (fun h => absurd h (by decide)) fun n v k h8 h9 => ?_
      have : ∀ n ∈ [c!"name"], Dict.get? (v20 cTag).child n = none := by decide
      rw [this n (only_mem h7 h8)] at h9; cases h9
    · obtain ⟨ds, rfl, h5⟩ := under_mem hw.definitions h2
      generalize hk1 : Kind.dict cSchema = k1 at h4
      generalize hd1 : Tree.dict ds = d1 at h4
      generalize hx1 : Tree.dict q = x1 at h4
      cases h4 with
      | here => subst hk1; rcases hk with e | e <;> cases e
      | field h1 => subst hk1; rcases h1 with e | e <;> cases e
      | item => cases hk1
      | @key _ _ n v us _ _ h6 h7 =>
        cases hk1
        cases hd1
        obtain ⟨x, a, rfl, h8⟩ := h5 _ _ h6
        have hsub : us = [] ∧ q = x ∨ (Dict.get? q c!"discriminator" = none ∧ Dict.get? q c!"allOf" = none) := by
          generalize hk2 : Kind.one cSchema = k2 at h7
          generalize hd2 : Tree.dict x = d2 at h7
          cases h7 with
          | here => rw [← hx1] at hd2; cases hd2; exact .inl ⟨rfl, rfl⟩
          | item => cases hk2
          | key => cases hk2
          | @field _ c _ n _ _ _ _ _ g1 g2 g3 g4 =>
            subst hk2
            have : c = cSchema := by rcases g1 with e | e <;> cases e; rfl
            subst this
            cases hd2
            subst hx1
            right
            have : ∀ n ∈ [c!"properties", c!"required", c!"discriminator", c!"description", c!"allOf"],
                n = c!"properties" ∧ Dict.get? (v20 cSchema).child n = some (.dict cSchema) ∨
                n = c!"allOf" ∧ Dict.get? (v20 cSchema).child n = some (.list cSchema) ∨ Dict.get? (v20 cSchema).child n = none := by decide
            rcases this n (only_mem h8.only g2) with ⟨rfl, e⟩ | ⟨rfl, e⟩ | e <;> (rw [e] at g3; cases g3)
            · obtain ⟨ps, rfl, g5⟩ := under_mem h8.properties g2
              refine low_dict (fun k v hv => ?_) _ _ _ g4 hk
              obtain ⟨y, b, rfl, g6⟩ := g5 k v hv
              exact low_schema g6
            · obtain ⟨rs, e, g5⟩ := h8.allOf
              rw [g2, Option.getD_some] at e
              subst e
              refine low_list (fun t ht => ?_) _ _ _ g4 hk
              obtain ⟨b, -, d, rfl, g6⟩ := Props.C55.forall₂_left g5 t ht
              exact low_ref g6
        rcases hsub with ⟨rfl, rfl⟩ | hl
        · subst hx1
          exact .inr ⟨ds, n, rfl, h2, h6⟩
        · exact .inl hl
    · refine .inl (low ?_)
      rw [hw.parameters] at h2
      cases h2
      exact low_dict fun n t h => by cases h
    · refine .inl (low ?_)
      rw [hw.responses] at h2
      cases h2
      exact low_dict fun n t h => by cases h
    · refine .inl (low ?_)
      obtain ⟨ds, rfl, h5⟩ := under_mem hw.paths h2
      refine low_dict fun k v hv => ?_
      obtain ⟨y, b, rfl, h6⟩ := h5 k v hv
      exact low_path h6
    · refine .inl (low ?_)
      obtain ⟨ds, rfl, h5⟩ := under_mem hw.securityDefinitions h2
      refine low_dict fun k v hv => ?_
      obtain ⟨y, b, rfl, h6⟩ := h5 k v hv
      exact low_leaf (by decide) rfl

theorem qualified_ne {sep a b : Str} (hb : b ≠ []) : qualified sep a b ≠ [] := by
  unfold qualified
  split
  · exact hb
  · simp [hb]

/-- definitions have names -/
theorem key_ne (h : Doc12 env str l s sq u N) {ds : Dict Str Tree} {k : Str} {t : Tree} (h1 : Dict.get? sq c!"definitions" = some (.dict ds))
    (h2 : Dict.get? ds k = some t) : k ≠ [] := by
  obtain ⟨x, a, -, h3, -⟩ := Props.C87.under_back h.written.definitions h1 h2
  obtain ⟨n, m, hm, hk | ⟨t, ht, hk⟩⟩ := (Props.C56.C56_definitions h.upgraded k).1 ⟨a, h3⟩
  · obtain ⟨i, hi, hne⟩ := (h.all n m hm).id
    rw [hk]
    unfold name keyOf
    rw [hi]
    exact qualified_ne hne
  · rw [hk]; exact qualified_ne ((h.all n m hm).subTypes t ht)

theorem tags (h : Doc12 env str l s sq u N) (ts : List Str) (q e : Dict Str Tree) (hw : Written (.dict sq) ts cSchema q)
    (hts : ts.head? ≠ some c!"definitions" ∨ ts.getLast? = some []) (he : Member (look sq u) q e) : textAt e c!"discriminator" = none := by
  rcases written_low h.written hw with ⟨h1, h2⟩ | ⟨ds, k, rfl, h1, h2⟩
  · cases he with
    | self => unfold textAt; rw [h1]
    | part hm => unfold listAt at hm; rw [h2] at hm; cases hm
  · rcases hts with hts | hts
    · exact absurd rfl hts
    · simp only [List.getLast?_cons_cons, List.getLast?_singleton, Option.some.injEq] at hts
      exact absurd hts (key_ne h h1 h2)

/-! ## what conforms -/

theorem basic_type {ty : Str} {format : Option Str} {enum : Val} (h : Basic ty format enum) :
    ty = c!"integer" ∨ ty = c!"number" ∨ ty = c!"boolean" ∨ ty = c!"string" := by
  cases h <;> simp [*]

theorem instance_of (h : Doc12 env str l s sq u N) {q : Dict Str Tree} {v : Val} (hc : Conforms (look sq u) form N q v) :
    ∀ {n : Str} {d : DataType}, Reach env N d → Refers env l n d → Typed env n q d → PlainQ q → Instance env l form N n d v := by
  -- what the type written tells
  have typed : ∀ {n : Str} {d : DataType} {q e : Dict Str Tree} {t : Str}, Reach env N d → Refers env l n d → Typed env n q d →
      Leads (look sq u) q e → textAt e c!"type" = some t → e = q ∧ ∃ ty, d.type = some ty ∧ env.lower ty = t ∧ env.prim ty = true ∧ Absent d.ref := by
    intro n d q e t hr hf ht hl he
    cases hr with
    | basic ty h1 h2 h3 =>
      obtain ⟨g1, g2⟩ := primitive ht h1 h2 h3
      have := Proofs.Data12.leads g1 hl
      subst this
      rw [g2] at he
      exact ⟨rfl, ty, h1, Option.some.inj he, h2, h3⟩
    | array ty i h1 h2 _ h3 =>
      obtain ⟨g1, g2⟩ := primitive ht h1 h2 h3
      have := Proofs.Data12.leads g1 hl
      subst this
      rw [g2] at he
      exact ⟨rfl, ty, h1, Option.some.inj he, h2, h3⟩
    | model i hi =>
      obtain ⟨m, df, -, hd⟩ := leads_model h ht hi hf.own hl
      rw [def_type hd] at he; cases he
  -- the limits
  have limited : ∀ {n : Str} {d : DataType} {q : Dict Str Tree} {ty : Str} {r : Rat}, Reach env N d → Typed env n q d → PlainQ q →
      d.type = some ty → env.prim ty = true → Absent d.ref → env.lower ty = c!"integer" ∨ env.lower ty = c!"number" → Fits q r → Between env d.minimum d.maximum r := by
    intro n d q ty r hr ht hp hty hpr hab he hf
    cases hr with
    | basic ty' h1 h2 h3 _ h4 h5 h6 =>
      rw [hty] at h1; cases h1
      exact (says_basic h.python hp ht hty h2 h3 h5 h6).limits he r hf
    | array ty' i h1 _ h2 =>
      rw [hty] at h1; cases h1
      rw [h2] at he
      rcases he with he | he <;> exact absurd he (by decide)
    | model i hi _ => have := referring ht hi; rw [(primitive ht hty hpr hab).1] at this; cases this
  induction hc with
  | null hn => intros; exact .null hn
  | integer hl hty hf _ =>
    intro n d hr hrf ht hp
    obtain ⟨rfl, ty, e1, e2, e3, e4⟩ := typed hr hrf ht hl hty
    exact .integer e1 e2 (limited hr ht hp e1 e3 e4 (.inl e2) hf)
  | number hl hty hn hf _ =>
    intro n d hr hrf ht hp
    obtain ⟨rfl, ty, e1, e2, e3, e4⟩ := typed hr hrf ht hl hty
    exact .number e1 e2 hn (limited hr ht hp e1 e3 e4 (.inr e2) hf)
  | boolean hl hty _ =>
    intro n d hr hrf ht hp
    obtain ⟨rfl, ty, e1, e2, -, -⟩ := typed hr hrf ht hl hty
    exact .boolean e1 e2
  | string hl hty ha _ hf =>
    intro n d hr hrf ht hp
    obtain ⟨rfl, ty, e1, e2, -, -⟩ := typed hr hrf ht hl hty
    refine .string e1 e2 ?_ fun f hf' => hf f (by rw [maybe_text ht.format]; exact hf')
    intro vs he hne
    have hv := ht.enum
    rw [he] at hv
    obtain ⟨ts, e, hvs⟩ := Proofs.Data12.listed hp hv
    unfold Allowed listAt at ha
    rw [e] at ha
    dsimp only at ha
    rcases ha with rfl | ⟨x, hx, -, hx'⟩
    · rw [Spec.Described.Values] at hvs; exact absurd hvs hne
    · obtain ⟨y, hy, hv'⟩ := Proofs.Data12.values_mem hvs hx
      have hpl := Proofs.Closed12.plain_get hp e
      rw [Spec.Pointed.Plain] at hpl
      have e1 := Proofs.Closed12.ofVal_value x _ (Proofs.Placed.plainList_iff.1 hpl x hx) hx'
      rw [← e1, _root_.Upgraded.ofVal, Spec.Described.Value] at hv'
      rw [← hv']; exact hy
  | array hl hty hit hvs _ hu _ ih =>
    intro n d hr hrf ht hp
    obtain ⟨rfl, ty, e1, e2, e3, e4⟩ := typed hr hrf ht hl hty
    cases hr with
    | basic ty' h1 _ _ _ hb =>
      rw [e1] at h1; cases h1
      rw [e2] at hb
      exact absurd rfl (Proofs.Data12.type_cases hb).2
    | array ty' i h1 _ _ _ hi hj _ huq _ =>
      obtain ⟨iq, g1, g2, g3⟩ := typed_items_of hp ht hi
      rw [hit] at g1
      cases g1
      refine .array e1 e2 hi (fun v hv => ih v hv (reach_items hj) (refers_items hrf hi) g3 g2) fun e => ?_
      rw [e] at huq
      rcases huq with huq | huq <;> cases huq
    | model i hi => have := referring ht hi; rw [(primitive ht e1 e3 e4).1] at this; cases this
  | object hl hty hwf hreq hprop _ _ _ hall ih1 _ ih3 =>
    intro n d hr hrf ht hp
    have no : ∀ {ty : Str}, d.type = some ty → env.prim ty = true → Absent d.ref → env.lower ty ≠ c!"object" → False := by
      intro ty h1 h2 h3 h4
      obtain ⟨g1, g2⟩ := primitive ht h1 h2 h3
      have := Proofs.Data12.leads g1 hl
      subst this
      rw [g2] at hty
      rcases hty with hty | hty
      · cases hty
      · exact h4 (Option.some.inj hty)
    cases hr with
    | basic ty h1 h2 h3 _ hb => exact (no h1 h2 h3 (Proofs.Data12.type_cases hb).1).elim
    | array ty i h1 h2 h4 h3 => exact (no h1 h2 h3 (by rw [h4]; decide)).elim
    | model i hi _ =>
      obtain ⟨m, df, hid, hd⟩ := leads_model h ht hi hrf.own hl
      refine .model hi hd.model hid hwf (fun k hk => hreq k (required_of hd hk)) ?_ ?_
      · intro k p v hk hv
        obtain ⟨x, g1, g2, g3⟩ := property_of hd hk
        have hm := Dict.mem_of_get? hk
        exact ih1 k v x hv g1 ((h.all n m hd.model).properties _ hm) (h.closed.properties n m hd.model _ hm) g3 g2
      · intro b j hb hj hi'
        obtain ⟨j', hj', hne⟩ := (h.all n b hb).id
        rw [hj] at hj'
        cases hj'
        obtain ⟨x, g1, g2, g3⟩ := of_base h hd (n' := n) (j := j) (b := b) ⟨hb, i, hi', by unfold keyOf; rw [hid]⟩ hj
        exact ih3 x g1 (.model j (is_ref hne) fun _ h => by cases h) (refers_ref hb hj) g3 g2

end Proofs.Model12
