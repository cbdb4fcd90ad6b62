import Verif.Spec.Refused12
import Verif.Spec.Refused
import Verif.Proofs.Model12
/-!
# The cycles of an upgraded document are those of the models
-/

namespace Proofs.Uses12
open Py Tree Upgrade Spec.Upgrade12 Spec.Document20 Spec.Model12 Spec.Pointed Spec.Refused12 _root_.Doc
open Spec (rfcEscape)
open Spec.Places (pointer)
open Spec.Service (text Maybe)
open Proofs.Closed12 (PlainQ Closed Resolves Named Points)
open Proofs.Data12 (missing)
open Proofs.Model12 (only_mem name_id properties_get)
open Props.C56 (HasModel name)
open Props.C87 (under_get under_back)

variable {env : Env} {str : Nat → Str} {l : ResourceList} {s : Swagger} {sq : Dict Str Tree} {url : Str}

/-! ## references below a place -/

/-- all references in schemas below have the property -/
def Below (X : Str → Prop) (k : Kind) (t : Tree) : Prop := ∀ ts k' q r, Place k t ts k' (.dict q) → Takes k' cSchema →
  Dict.get? q c!"$ref" = some (text r) → X r

variable {X : Str → Prop}

theorem below_one {q : Dict Str Tree} (h0 : ∀ r, Dict.get? q c!"$ref" = some (text r) → X r)
    (h : ∀ n v k, Dict.get? q n = some v → Dict.get? (v20 cSchema).child n = some k → Below X k v) : Below X (.one cSchema) (.dict q) := by
  intro ts k' x r hp ht hr
  generalize hk : Kind.one cSchema = k at hp
  generalize hd : Tree.dict q = d at hp
  generalize hx : Tree.dict x = y at hp
  cases hp with
  | here =>
    rw [← hd] at hx
    cases hx
    exact h0 r hr
  | @field _ c' _ _ _ _ _ _ _ h1 h2 h3 h4 =>
    subst hk
    cases hd
    subst hx
    have : c' = cSchema := by rcases h1 with e | e <;> cases e; rfl
    subst this
    exact h _ _ _ h2 h3 _ _ _ r h4 ht hr
  | item => cases hk
  | key => cases hk

theorem below_list {ts : List Tree} (h : ∀ t ∈ ts, Below X (.one cSchema) t) : Below X (.list cSchema) (.list ts) := by
  intro us k' x r hp ht
  generalize hk : Kind.list cSchema = k at hp
  generalize hd : Tree.list ts = d at hp
  generalize hx : Tree.dict x = y at hp
  cases hp with
  | here => rw [← hd] at hx; cases hx
  | field h1 => subst hk; rcases h1 with e | e <;> cases e
  | item h1 h2 => cases hk; cases hd; subst hx; exact h _ (List.mem_of_getElem? h1) _ _ _ r h2 ht
  | key => cases hk

theorem below_dict {q : Dict Str Tree} (h : ∀ n t, Dict.get? q n = some t → Below X (.one cSchema) t) : Below X (.dict cSchema) (.dict q) := by
  intro us k' x r hp ht
  generalize hk : Kind.dict cSchema = k at hp
  generalize hd : Tree.dict q = d at hp
  generalize hx : Tree.dict x = y at hp
  cases hp with
  | here => subst hk; rcases ht with e | e <;> cases e
  | field h1 => subst hk; rcases h1 with e | e <;> cases e
  | item => cases hk
  | key h1 h2 => cases hk; cases hd; subst hx; exact h _ _ h1 _ _ _ r h2 ht

theorem maybe_ref {q : Dict Str Tree} {o : Option Str} {r : Str} (h : Maybe q c!"$ref" o) (hr : Dict.get? q c!"$ref" = some (text r)) : o = some r := by
  cases o with
  | none =>
    rcases h with h | h <;> rw [hr] at h <;> cases h
  | some x =>
    have h : Dict.get? q c!"$ref" = some (text x) := h
    rw [hr] at h
    cases h
    rfl

theorem below_items {q : Dict Str Tree} {i : SchemaItems} (h : SchemaItemsIn q i) (hX : ∀ r, i.ref = some r → X r) : Below X (.one cSchema) (.dict q) := by
  refine below_one (fun r hr => hX r (maybe_ref h.ref hr)) fun n v k h1 h2 => ?_
  have : ∀ n ∈ [c!"type", c!"$ref", c!"format"], Dict.get? (v20 cSchema).child n = none := by decide
  rw [this n (only_mem h.only h1)] at h2; cases h2

theorem below_ref {q : Dict Str Tree} {r : Str} (h : RefIn q r) (hX : X r) : Below X (.one cSchema) (.dict q) := by
  refine below_one (fun r' hr => by rw [h.1] at hr; cases hr; exact hX) fun n v k h1 h2 => ?_
  have : ∀ n ∈ [c!"$ref"], Dict.get? (v20 cSchema).child n = none := by decide
  rw [this n (only_mem h.2 h1)] at h2; cases h2

theorem below_schema {q : Dict Str Tree} {sc : Schema} (h : SchemaIn q sc) (hX : ∀ r, sc.ref = some r → X r)
    (hI : ∀ i r, sc.items = some i → i.ref = some r → X r) : Below X (.one cSchema) (.dict q) := by
  refine below_one (fun r hr => hX r (maybe_ref h.ref hr)) fun n v k h1 h2 => ?_
  have : ∀ n ∈ Proofs.Model12.keys, n = c!"items" ∧ Dict.get? (v20 cSchema).child n = some (.one cSchema) ∨ Dict.get? (v20 cSchema).child n = none := by decide
  rcases this n (only_mem h.only h1) with ⟨rfl, e⟩ | e
  · rw [e] at h2
    cases h2
    have hi := h.items
    cases hs : sc.items with
    | none => rw [hs] at hi; rw [show Dict.get? q c!"items" = none from hi] at h1; cases h1
    | some i =>
      rw [hs] at hi
      obtain ⟨d, e1, e2⟩ := hi
      rw [h1] at e1
      cases e1
      exact below_items e2 (hI i · hs)
  · rw [e] at h2; cases h2

theorem below_definition {q : Dict Str Tree} {d : Definition} (h : DefinitionIn q d)
    (hX : ∀ k sc r, Dict.get? d.properties k = some sc → sc.ref = some r → X r)
    (hI : ∀ k sc i r, Dict.get? d.properties k = some sc → sc.items = some i → i.ref = some r → X r)
    (hA : ∀ r ∈ d.allOf, X r) : Below X (.one cSchema) (.dict q) := by
  refine below_one (fun r hr => by rw [missing h.only (by decide)] at hr; cases hr) fun n v k h1 h2 => ?_
  have : ∀ n ∈ [c!"properties", c!"required", c!"discriminator", c!"description", c!"allOf"],
      n = c!"properties" ∧ Dict.get? (v20 cSchema).child n = some (.dict cSchema) ∨
      n = c!"allOf" ∧ Dict.get? (v20 cSchema).child n = some (.list cSchema) ∨ Dict.get? (v20 cSchema).child n = none := by decide
  rcases this n (only_mem h.only h1) with ⟨rfl, e⟩ | ⟨rfl, e⟩ | e
  · rw [e] at h2
    cases h2
    obtain ⟨ps, e1, -⟩ := h.properties
    rw [h1, Option.getD_some] at e1
    subst e1
    refine below_dict fun k t ht => ?_
    obtain ⟨x, sc, rfl, h3, h4⟩ := under_back h.properties h1 ht
    exact below_schema h4 (hX k sc · h3) (hI k sc · · h3)
  · rw [e] at h2
    cases h2
    obtain ⟨ts, e1, e2⟩ := h.allOf
    rw [h1, Option.getD_some] at e1
    subst e1
    refine below_list fun t ht => ?_
    obtain ⟨r, hr, x, rfl, h3⟩ := Props.C55.forall₂_left e2 t ht
    exact below_ref h3 (hA r hr)
  · rw [e] at h2; cases h2

/-! ## the definitions and the models -/

theorem speaks_type {scope : Str} {d : DataType} {t r : Option Str} (h : TypeOf env scope d.type d.ref t r) (x : Str) :
    r = some x ↔ ∃ i, Speaks env d i ∧ x = point env.sep scope i := by
  unfold Speaks
  generalize d.type = dt at h
  generalize d.ref = dr at h
  cases h with
  | primitive t ref hp ha =>
    constructor
    · intro h; cases h
    · rintro ⟨i, ⟨hi, ⟨h1, h2⟩ | ⟨h1, h2⟩⟩, -⟩
      · cases h1; rw [hp] at h2; cases h2
      · subst h2; rcases ha with ha | ha <;> cases ha; exact absurd rfl hi
  | primitive_ref t y hp hy =>
    constructor
    · intro h; cases h
      exact ⟨y, ⟨hy, .inr ⟨fun t' ht => by cases ht; exact .inl hp, rfl⟩⟩, rfl⟩
    · rintro ⟨i, ⟨hi, ⟨h1, h2⟩ | ⟨h1, h2⟩⟩, rfl⟩
      · cases h1; rw [hp] at h2; cases h2
      · cases h2; rfl
  | model t ref hp ht =>
    constructor
    · intro h; cases h
      exact ⟨t, ⟨ht, .inl ⟨rfl, hp⟩⟩, rfl⟩
    · rintro ⟨i, ⟨hi, ⟨h1, h2⟩ | ⟨h1, h2⟩⟩, rfl⟩
      · cases h1; rfl
      · rcases h1 t rfl with h | h
        · rw [hp] at h; cases h
        · exact absurd h ht
  | ref t y hn hy =>
    constructor
    · intro h; cases h
      exact ⟨y, ⟨hy, .inr ⟨fun t' ht => .inr (hn t' ht).1, rfl⟩⟩, rfl⟩
    · rintro ⟨i, ⟨hi, ⟨h1, h2⟩ | ⟨h1, h2⟩⟩, rfl⟩
      · exact absurd (hn i h1).1 hi
      · cases h2; rfl
  | nothing t ref hn ha =>
    constructor
    · intro h; cases h
    · rintro ⟨i, ⟨hi, ⟨h1, h2⟩ | ⟨h1, h2⟩⟩, rfl⟩
      · exact absurd (hn i h1).1 hi
      · subst h2; rcases ha with ha | ha <;> cases ha; exact absurd rfl hi

theorem speaks_named {n i : Str} {d : DataType} (hr : Resolves env l n d.type d.ref) (hi : Speaks env d i) : Named l n i := by
  obtain ⟨hne, ⟨e, hp⟩ | ⟨-, e⟩⟩ := hi
  · exact hr.1 i e hne hp
  · exact hr.2 i e hne

/-- the upgraded document, with models of different names -/
structure Setting (env : Env) (str : Nat → Str) (l : ResourceList) (s : Swagger) (sq : Dict Str Tree) (url : Str) : Prop where
  url : '#' ∉ url ∧ url ≠ []
  closed : Closed env l
  upgraded : upgrade env str l = .ok s
  written : DocumentIn sq s
  alone : ∀ n m n' m', Has l n m → Has l n' m' → name env n' m' = name env n m → n' = n ∧ m' = m
  refs : Props.C87.RefsOf (.dict sq) s

def at_ (env : Env) (x : Str × Model) : List Str := [c!"definitions", name env x.1 x.2]

theorem definition_written {ds : Dict Str Tree} {key : Str} {q : Dict Str Tree} (h1 : Dict.get? sq c!"definitions" = some (.dict ds))
    (h2 : Dict.get? ds key = some (.dict q)) : Written (.dict sq) [c!"definitions", key] cSchema q :=
  ⟨.one cSchema, .inl rfl, .field (.inl rfl) h1 (by decide : _ = some (.dict cSchema)) (.key h2 .here)⟩

/-- what is written below a definition -/
theorem place_definition {key : Str} {vs : List Str} {k : Kind} {t : Tree} (h : Place (.one cSwagger) (.dict sq) (c!"definitions" :: key :: vs) k t) :
    ∃ ds v, Dict.get? sq c!"definitions" = some (.dict ds) ∧ Dict.get? ds key = some v ∧ Place (.one cSchema) v vs k t := by
  cases h with
  | @field _ c _ _ _ k' _ _ _ h1 h2 h3 h4 =>
    have : c = cSwagger := by rcases h1 with e | e <;> cases e; rfl
    subst this
    have e : Dict.get? (v20 cSwagger).child c!"definitions" = some (.dict cSchema) := by decide
    rw [e] at h3
    cases h3
    cases h4 with
    | field h => rcases h with h | h <;> cases h
    | key h5 h6 => exact ⟨_, _, h2, h5, h6⟩

theorem names_at (h : Setting env str l s sq url) {x : Str × Model} (hx : HasModel l x.1 x.2) {us : List Str}
    (hn : Names url (c!"#/definitions/" ++ name env x.1 x.2) us) : us = at_ env x := by
  refine Proofs.Checked.names_unique h.url.1 h.url.2 hn ⟨by simp [at_], .inl ?_⟩
  exact (Proofs.Closed12.pointer_plain (Proofs.Closed12.name_plain h.closed hx)).symm

theorem at_names (h : Setting env str l s sq url) {x : Str × Model} (hx : HasModel l x.1 x.2) :
    Names url (c!"#/definitions/" ++ name env x.1 x.2) (at_ env x) :=
  ⟨by simp [at_], .inl (Proofs.Closed12.pointer_plain (Proofs.Closed12.name_plain h.closed hx)).symm⟩

/-- a model refers to those it uses -/
theorem refers_iff (h : Setting env str l s sq url) {x : Str × Model} (hx : HasModel l x.1 x.2) (us : List Str) :
    Spec.Refused.Refers (.dict sq) url (at_ env x) us ↔ ∃ y, Uses env l x y ∧ us = at_ env y := by
  obtain ⟨n, m⟩ := x
  obtain ⟨ds, q, d, h1, h2, h3, h4, h5⟩ := Props.C87.C87_models h.upgraded h.written hx fun n' m' => h.alone n m n' m' hx
  have hw := definition_written h1 h2
  have hid : ∀ {i : Str} {m' : Model}, m'.id = some i → point env.sep (rfcEscape n) i = c!"#/definitions/" ++ name env n m' :=
    fun e => (name_id e).symm
  constructor
  · rintro ⟨-, vs, e, r, ⟨k', hk, hp⟩, hr, hn⟩
    obtain ⟨ds', v, e1, e2, e3⟩ := place_definition hp
    rw [h1] at e1
    cases e1
    rw [h2] at e2
    cases e2
    have hb : Below (fun r => ∃ y, Uses env l (n, m) y ∧ r = c!"#/definitions/" ++ name env y.1 y.2) (.one cSchema) (.dict q) := by
      refine below_definition h3 (fun k sc r hsc hr => ?_) (fun k sc i r hsc hi hr => ?_) fun r hr => ?_
      · obtain ⟨p, hp, hs⟩ := (properties_get h4.properties k).2 sc hsc
        obtain ⟨i, hi, rfl⟩ := (speaks_type hs.type r).1 hr
        obtain ⟨m', hm', e⟩ := speaks_named (h.closed.properties n m hx _ (Dict.mem_of_get? hp)).own hi
        exact ⟨(n, m'), .property hx hm' e hp hi, hid e⟩
      · obtain ⟨p, hp, hs⟩ := (properties_get h4.properties k).2 sc hsc
        have hit := hs.items
        rw [hi] at hit
        generalize hpi : p.toDataType.items = pi at hit
        cases hit with
        | some it _ ht _ =>
          obtain ⟨j, hj, rfl⟩ := (speaks_type (d := ofItems it) ht r).1 hr
          obtain ⟨m', hm', e⟩ := speaks_named (d := ofItems it) ((h.closed.properties n m hx _ (Dict.mem_of_get? hp)).items it hpi) hj
          exact ⟨(n, m'), .items hx hm' e hp hpi hj, hid e⟩
      · obtain ⟨n', m', hm', t, ht, hk, rfl⟩ := (h5 r).1 hr
        exact ⟨(n', m'), .base hx ⟨hm', t, ht, hk⟩, rfl⟩
    obtain ⟨y, hy, rfl⟩ := hb _ _ _ _ e3 hk hr
    refine ⟨y, hy, names_at h ?_ hn⟩
    cases hy with
    | property _ h => exact h
    | items _ h => exact h
    | base _ h => exact h.1
  · rintro ⟨y, hy, rfl⟩
    refine ⟨⟨q, hw⟩, ?_⟩
    cases hy with
    | @property _ _ m' k p i _ hm' e hp hi =>
      obtain ⟨sc, hsc, hs⟩ := (properties_get h4.properties k).1 p hp
      obtain ⟨ps, x, g1, g2, g3⟩ := under_get h3.properties hsc
      have := (speaks_type hs.type _).2 ⟨i, hi, rfl⟩
      have href := g3.ref
      rw [this] at href
      refine ⟨[c!"properties", k], x, _, ⟨.one cSchema, .inl rfl, .field (.inl rfl) h1 (by decide : _ = some (.dict cSchema))
        (.key h2 (.field (.inl rfl) g1 (by decide : _ = some (.dict cSchema)) (.key g2 .here)))⟩, href, ?_⟩
      rw [hid e]
      exact at_names h (x := (n, m')) hm'
    | @items _ _ m' k p it i _ hm' e hp hit hi =>
      obtain ⟨sc, hsc, hs⟩ := (properties_get h4.properties k).1 p hp
      obtain ⟨ps, x, g1, g2, g3⟩ := under_get h3.properties hsc
      have hio := hs.items
      rw [hit] at hio
      have hxi := g3.items
      generalize sc.items = so at hio hxi
      cases hio with
      | some _ j ht _ =>
        obtain ⟨iq, g4, g5⟩ := hxi
        have := (speaks_type (d := ofItems it) ht _).2 ⟨i, hi, rfl⟩
        have href := g5.ref
        rw [this] at href
        refine ⟨[c!"properties", k, c!"items"], iq, _, ⟨.one cSchema, .inl rfl, .field (.inl rfl) h1 (by decide : _ = some (.dict cSchema))
          (.key h2 (.field (.inl rfl) g1 (by decide : _ = some (.dict cSchema)) (.key g2
            (.field (.inl rfl) g4 (by decide : _ = some (.one cSchema)) .here))))⟩, href, ?_⟩
        rw [hid e]
        exact at_names h (x := (n, m')) hm'
    | @base _ _ n' m' _ hb =>
      have hr := (h5 (c!"#/definitions/" ++ name env n' m')).2 ⟨n', m', hb.1, by obtain ⟨-, t, ht, hk⟩ := hb; exact ⟨t, ht, hk, rfl⟩⟩
      obtain ⟨ts, g1, g2⟩ := h3.allOf
      obtain ⟨t, ht, x, rfl, g3⟩ := Props.C55.forall₂_right g2 _ hr
      obtain ⟨i, hi⟩ := List.mem_iff_getElem?.1 ht
      have g1 : Dict.get? q c!"allOf" = some (.list ts) := by
        cases hg : Dict.get? q c!"allOf" with
        | none => rw [hg] at g1; cases g1; cases ht
        | some v => rw [hg] at g1; rw [← g1]; rfl
      exact ⟨[c!"allOf", natStr i], x, _, ⟨.one cSchema, .inl rfl, .field (.inl rfl) h1 (by decide : _ = some (.dict cSchema))
        (.key h2 (.field (.inl rfl) g1 (by decide : _ = some (.list cSchema)) (.item hi .here)))⟩, g3.1, at_names h (x := (n', m')) hb.1⟩

/-- references name definitions -/
theorem refers_target (h : Setting env str l s sq url) {ts us : List Str} (hr : Spec.Refused.Refers (.dict sq) url ts us) :
    ∃ key d, us = [c!"definitions", key] ∧ Dict.get? s.definitions key = some d := by
  obtain ⟨-, vs, d, r, hw, hv, hn⟩ := hr
  obtain ⟨-, r', e, key, rfl, hk⟩ := h.refs _ _ _ _ hw (by decide) hv
  cases e
  obtain ⟨d, hd⟩ := Option.isSome_iff_exists.1 ((Dict.get?_isSome_iff _ _).2 hk)
  exact ⟨key, d, Proofs.Checked.names_unique h.url.1 h.url.2 hn ⟨by simp, .inl rfl⟩, hd⟩

/-- references in definitions name models -/
theorem refers_model (h : Setting env str l s sq url) {key : Str} {d : Definition} (hd : Dict.get? s.definitions key = some d) {us : List Str}
    (hr : Spec.Refused.Refers (.dict sq) url [c!"definitions", key] us) : ∃ y, HasModel l y.1 y.2 ∧ us = at_ env y := by
  obtain ⟨i, s0, s1, made, -, -, -, -, -, hs, -⟩ := Props.C56.scanned h.upgraded
  have hat : Upgrade.defAt s.definitions key = d := by unfold Upgrade.defAt; rw [hd]; rfl
  rcases Upgrade.defSteps_body hs key with ⟨e, he, hk, -⟩ | ⟨-, hbody⟩
  · obtain ⟨n, m, hm, rfl⟩ := (Props.C56.mem_steps e).1 he
    have : [c!"definitions", key] = at_ env (n, m) := by rw [hk]; rfl
    rw [this] at hr
    obtain ⟨y, hy, rfl⟩ := (refers_iff h hm us).1 hr
    refine ⟨y, ?_, rfl⟩
    cases hy with
    | property _ h => exact h
    | items _ h => exact h
    | base _ h => exact h.1
  · obtain ⟨-, vs, x, r, ⟨k', hk, hp⟩, hr, hn⟩ := hr
    obtain ⟨ds, v, e1, e2, e3⟩ := place_definition hp
    obtain ⟨q, d', rfl, e4, h3⟩ := under_back h.written.definitions e1 e2
    rw [hd] at e4
    cases e4
    have hprops : d.properties = [] := by
      rw [hat] at hbody
      rw [hbody]
      rfl
    have hb : Below (fun r => ∃ y : Str × Model, HasModel l y.1 y.2 ∧ r = c!"#/definitions/" ++ name env y.1 y.2) (.one cSchema) (.dict q) := by
      refine below_definition h3 (fun k sc r hsc hr => ?_) (fun k sc i r hsc hi hr => ?_) fun r hr => ?_
      · rw [hprops] at hsc; cases hsc
      · rw [hprops] at hsc; cases hsc
      · rw [← hat, Upgrade.defSteps_allOf hs] at hr
        rcases hr with hr | ⟨e, he, t, ht, -, rfl⟩
        · cases hr
        · obtain ⟨n, m, hm, rfl⟩ := (Props.C56.mem_steps e).1 he
          exact ⟨(n, m), hm, rfl⟩
    obtain ⟨y, hy, rfl⟩ := hb _ _ _ _ e3 hk hr
    exact ⟨y, hy, names_at h hy hn⟩

/-- The document leads back to itself where the models do. -/
theorem circular_iff (h : Setting env str l s sq url) : Spec.Refused.Circular (.dict sq) url ↔ Circular env l := by
  have has : ∀ {x y}, Uses env l x y → HasModel l x.1 x.2 ∧ HasModel l y.1 y.2 := by
    intro x y hu
    cases hu with
    | property h1 h2 => exact ⟨h1, h2⟩
    | items h1 h2 => exact ⟨h1, h2⟩
    | base h1 h2 => exact ⟨h1, h2.1⟩
  constructor
  · rintro ⟨ts, ht⟩
    have target : ∀ {a b}, Relation.TransGen (Spec.Refused.Refers (.dict sq) url) a b →
        ∃ key d, b = [c!"definitions", key] ∧ Dict.get? s.definitions key = some d := by
      intro a b hab
      obtain ⟨c, -, hc⟩ := Relation.TransGen.tail'_iff.1 hab
      exact refers_target h hc
    have start : ∃ y, HasModel l y.1 y.2 ∧ ts = at_ env y := by
      obtain ⟨c, hac, hc⟩ := Relation.TransGen.tail'_iff.1 ht
      have : ∃ key d, c = [c!"definitions", key] ∧ Dict.get? s.definitions key = some d := by
        rcases Relation.reflTransGen_iff_eq_or_transGen.1 hac with rfl | hac
        · exact target ht
        · exact target hac
      obtain ⟨key, d, rfl, hd⟩ := this
      exact refers_model h hd hc
    obtain ⟨y, hy, rfl⟩ := start
    have walk : ∀ {a b}, Relation.TransGen (Spec.Refused.Refers (.dict sq) url) a b → ∀ x, HasModel l x.1 x.2 → a = at_ env x →
        ∃ z, Relation.TransGen (Uses env l) x z ∧ HasModel l z.1 z.2 ∧ b = at_ env z := by
      intro a b hab x hx ha
      subst ha
      induction hab with
      | single hr =>
        obtain ⟨z, hz, e⟩ := (refers_iff h hx _).1 hr
        exact ⟨z, .single hz, (has hz).2, e⟩
      | tail _ hr ih =>
        obtain ⟨z, hz, hm, rfl⟩ := ih
        obtain ⟨w, hw, e⟩ := (refers_iff h hm _).1 hr
        exact ⟨w, .tail hz hw, (has hw).2, e⟩
    obtain ⟨z, hz, hm, e⟩ := walk ht y hy rfl
    have e : name env z.1 z.2 = name env y.1 y.2 := by
      unfold at_ at e
      injection e with _ e
      injection e with e
      exact e.symm
    obtain ⟨e1, e2⟩ := h.alone y.1 y.2 z.1 z.2 hy hm e
    have : z = y := Prod.ext e1 e2
    subst this
    exact ⟨z, hz⟩
  · rintro ⟨x, hx⟩
    refine ⟨at_ env x, Relation.TransGen.lift (at_ env) (fun a b hab => (refers_iff h (has hab).1 _).2 ⟨b, hab, rfl⟩) _ _ hx⟩

end Proofs.Uses12
