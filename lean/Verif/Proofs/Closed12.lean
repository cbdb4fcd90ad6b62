import Verif.Proofs.Listing12
import Verif.Proofs.Upgraded
import Verif.Proofs.Origin
import Verif.Props.C56
/-! # Lemmas for C87: an upgraded document is one of Swagger 2.0 -/

namespace Proofs.Closed12
open Py Tree Upgrade _root_.Upgraded Spec Spec.Upgrade12 Spec.Listing12 Proofs.Upgraded Props.C55 Props.C56
open Spec.Swagger12 (null)
open Spec.Service (Maybe text)

/-! ## plain values -/

mutual
theorem ofVal_value : ∀ (t : Tree) (v : Val), Spec.Pointed.Plain t → Spec.Described.Value t v → ofVal v = t
  | .atom a, v, _, h => by
    cases a <;> (rw [Spec.Described.Value] at h; subst h; rfl)
  | .list l, v, hp, h => by
    rw [Spec.Described.Value] at h
    obtain ⟨vs, rfl, h⟩ := h
    rw [Spec.Pointed.Plain] at hp
    rw [ofVal, ofVals_value l vs hp h]
  | .dict d, v, hp, h => by
    rw [Spec.Described.Value] at h
    obtain ⟨vs, rfl, h⟩ := h
    rw [Spec.Pointed.Plain] at hp
    rw [ofVal, ofPairs_value d vs hp.2 h]
  | .obj _ _, _, hp, _ => by rw [Spec.Pointed.Plain] at hp; exact hp.elim
theorem ofVals_value : ∀ (l : List Tree) (vs : List Val), Spec.Pointed.PlainList l → Spec.Described.Values l vs → ofVals vs = l
  | [], vs, _, h => by rw [Spec.Described.Values] at h; subst h; rfl
  | t :: l, vs, hp, h => by
    rw [Spec.Described.Values] at h
    obtain ⟨v, vs', rfl, h1, h2⟩ := h
    rw [Spec.Pointed.PlainList] at hp
    rw [ofVals, ofVal_value t v hp.1 h1, ofVals_value l vs' hp.2 h2]
theorem ofPairs_value : ∀ (d : List (Str × Tree)) (es : List (Str × Val)), Spec.Pointed.PlainDict d → Spec.Described.Pairs d es → ofPairs es = d
  | [], es, _, h => by rw [Spec.Described.Pairs] at h; subst h; rfl
  | (n, t) :: d, es, hp, h => by
    rw [Spec.Described.Pairs] at h
    obtain ⟨v, es', rfl, h1, h2⟩ := h
    rw [Spec.Pointed.PlainDict] at hp
    rw [ofPairs, ofVal_value t v hp.1 h1, ofPairs_value d es' hp.2 h2]
end

theorem plain_of {t : Tree} {v : Val} (hp : Spec.Pointed.Plain t) (h : Spec.Described.Value t v) : PlainVal v := by
  unfold PlainVal; rw [ofVal_value t v hp h]; exact ⟨hp, h⟩

theorem plain_none : PlainVal .none := ⟨trivial, by rw [ofVal, Spec.Described.Value]⟩

theorem plain_nil : PlainVal (.list []) := ⟨trivial, by rw [ofVal, Spec.Described.Value]; exact ⟨[], rfl, rfl⟩⟩

/-- a dict of `json.loads` -/
def PlainQ (q : Dict Str Tree) : Prop := Spec.Pointed.Plain (.dict q)

theorem plain_get {q : Dict Str Tree} (hq : PlainQ q) {n : Str} {t : Tree} (h : Dict.get? q n = some t) : Spec.Pointed.Plain t := by
  unfold PlainQ at hq
  rw [Spec.Pointed.Plain] at hq
  exact Proofs.Placed.plainDict_iff.1 hq.2 _ (Dict.mem_of_get? h)

theorem plain_under {q : Dict Str Tree} (hq : PlainQ q) (n : Str) : Spec.Pointed.Plain (under q n) := by
  unfold under
  cases h : Dict.get? q n with
  | none => trivial
  | some t => exact plain_get hq h

theorem plain_value {q : Dict Str Tree} (hq : PlainQ q) {n : Str} {v : Val} (h : Value q n v) : PlainVal v :=
  plain_of (plain_under hq n) h

theorem plain_stands {t : Tree} {q : Dict Str Tree} (ht : Spec.Pointed.Plain t) (h : Stands t q) : PlainQ q := by
  rcases h with rfl | ⟨-, rfl⟩
  · exact ht
  · exact ⟨List.nodup_nil, trivial⟩

theorem plain_deep : ∀ (ns : List Str) (t : Tree), Spec.Pointed.Plain t → Spec.Pointed.Plain (deep ns t)
  | [], _, h => h
  | n :: ns, .dict d, h => plain_deep ns _ (plain_under h n)
  | _ :: _, .atom _, _ => trivial
  | _ :: _, .list _, _ => trivial
  | _ :: _, .obj _ _, _ => trivial

theorem many_plain {α : Type} {R : Dict Str Tree → α → Prop} {q : Dict Str Tree} (hq : PlainQ q) {n : Str} {l : List α}
    (h : Many R (Dict.get? q n) l) : ∀ a ∈ l, ∃ q', PlainQ q' ∧ R q' a := by
  rcases h with ⟨ts, hts, h⟩ | ⟨-, rfl⟩
  · have hp := plain_get hq hts
    rw [Spec.Pointed.Plain] at hp
    intro a ha
    obtain ⟨t, ht, q', h1, h2⟩ := forall₂_right h a ha
    exact ⟨q', plain_stands (Proofs.Placed.plainList_iff.1 hp t ht) h1, h2⟩
  · simp

theorem forall₂_keys' {α β : Type} {R : Str × α → Str × β → Prop} {l : List (Str × α)} {m : List (Str × β)}
    (h : List.Forall₂ (fun a b => b.1 = a.1 ∧ R a b) l m) (hn : (l.map Prod.fst).Nodup) : (Dict.keys m).Nodup := by
  rw [Proofs.Listing12.forall₂_keys h]; exact hn

theorem names_plain {α : Type} {R : Dict Str Tree → α → Prop} {q : Dict Str Tree} (hq : PlainQ q) {n : Str} {l : List (Str × α)}
    (h : ByName R (Dict.get? q n) l) : (Dict.keys l).Nodup ∧ ∀ e ∈ l, ∃ q', PlainQ q' ∧ R q' e.2 := by
  rcases h with ⟨ts, hts, h⟩ | ⟨-, rfl⟩
  · have hp := plain_get hq hts
    rw [Spec.Pointed.Plain] at hp
    refine ⟨forall₂_keys' h hp.1, fun e he => ?_⟩
    obtain ⟨t, ht, h0, q', h1, h2⟩ := forall₂_right h e he
    exact ⟨q', plain_stands (Proofs.Placed.plainDict_iff.1 hp.2 t ht) h1, h2⟩
  · exact ⟨List.nodup_nil, by simp⟩

/-! ## the records hold values of JSON -/

structure TypePlain (d : DataType) : Prop where
  default : PlainVal (d.defaultValue.getD .none)
  enum : PlainVal d.enum
  unique : PlainVal d.uniqueItems

structure ParamPlain (p : Param) : Prop where
  type : TypePlain p.toDataType
  required : PlainVal p.required
  description : PlainVal p.description

structure OpPlain (o : Operation) : Prop where
  type : TypePlain o.toDataType
  summary : PlainVal o.summary
  notes : PlainVal o.notes
  auths : ∀ e ∈ o.authorizations, ∀ v ∈ e.2, PlainVal v
  parameters : ∀ p ∈ o.parameters, ParamPlain p

structure ModelPlain (m : Model) : Prop where
  required : PlainVal m.required
  discriminator : PlainVal m.discriminator
  description : PlainVal m.description
  names : (Dict.keys m.properties).Nodup
  properties : ∀ e ∈ m.properties, TypePlain e.2.toDataType ∧ PlainVal e.2.description

structure AuthPlain (a : Auth) : Prop where
  passAs : PlainVal a.passAs
  keyname : PlainVal a.keyname
  scopes : ∀ e ∈ a.scopes, PlainVal e.2
  implicitUrl : PlainVal a.implicitUrl
  tokenUrl : PlainVal a.tokenUrl

structure ListPlain (l : ResourceList) : Prop where
  operations : ∀ n r p op, Declares l n r p op → OpPlain op
  models : ∀ n m, HasModel l n m → ModelPlain m
  auths : ∀ e ∈ l.authorizations, AuthPlain e.2
  names : (Dict.keys l.authorizations).Nodup
  version : PlainVal l.apiVersion
  info : ∀ i, l.info = some i → PlainVal i.title ∧ PlainVal i.description ∧ PlainVal i.termsOfServiceUrl ∧ PlainVal i.contact ∧
    PlainVal i.license ∧ PlainVal i.licenseUrl

section
variable {q : Dict Str Tree} (hq : PlainQ q)
include hq

theorem type_plain {d : DataType} (h : TypeIn q d) : TypePlain d := by
  refine ⟨?_, plain_value hq h.enum, plain_value hq h.unique⟩
  have := h.default
  generalize d.defaultValue = v at this
  cases this with
  | none => trivial
  | some h1 _ h2 => exact plain_of (plain_get hq h1) h2

theorem param_plain {p : Param} (h : ParamIn q p) : ParamPlain p :=
  ⟨type_plain hq h.type, plain_value hq h.required, plain_value hq h.description⟩

theorem op_plain {o : Operation} (h : OpIn q o) : OpPlain o := by
  refine ⟨type_plain hq h.type, plain_value hq h.summary, plain_value hq h.notes, ?_, ?_⟩
  · rcases h.authorizations with ⟨ts, hts, h⟩ | ⟨-, h⟩
    · intro e he v hv
      have hp := plain_get hq hts
      rw [Spec.Pointed.Plain] at hp
      obtain ⟨t, ht, -, -, h2⟩ := forall₂_right h e he
      have hpt := Proofs.Placed.plainDict_iff.1 hp.2 t ht
      have hq1 : PlainQ [t] := by
        unfold PlainQ
        rw [Spec.Pointed.Plain]
        exact ⟨by simp, Proofs.Placed.plainDict_iff.2 (by simpa using hpt)⟩
      have hg : Dict.get? [t] t.1 = some t.2 := by obtain ⟨a, b⟩ := t; simp [Dict.get?]
      rw [← hg] at h2
      obtain ⟨q', h3, h4⟩ := many_plain hq1 h2 v hv
      exact plain_value h3 h4
    · rw [h]; simp
  · intro p hp
    obtain ⟨q', h3, h4⟩ := many_plain hq h.parameters p hp
    exact param_plain h3 h4

theorem model_plain {m : Model} (h : ModelIn q m) : ModelPlain m := by
  obtain ⟨h1, h2⟩ := names_plain hq h.properties
  refine ⟨plain_of ?_ h.required, plain_value hq h.discriminator, plain_value hq h.description, h1, fun e he => ?_⟩
  · cases hg : Dict.get? q c!"required" with
    | none => trivial
    | some t => exact plain_get hq hg
  · obtain ⟨q', h3, h4⟩ := h2 e he
    exact ⟨type_plain h3 h4.type, plain_value h3 h4.description⟩

theorem auth_plain {a : Auth} (h : AuthIn q a) : AuthPlain a := by
  refine ⟨plain_value hq h.passAs, plain_value hq h.keyname, fun e he => ?_, plain_of (plain_deep _ _ hq) h.implicitUrl,
    plain_of (plain_deep _ _ hq) h.tokenUrl⟩
  obtain ⟨q', h3, h4⟩ := many_plain hq h.scopes e he
  exact plain_value h3 h4.2
end

theorem list_plain {q : Dict Str Tree} {declarations : Dict Str Tree} {l : ResourceList} (hq : PlainQ q) (hd : PlainQ declarations)
    (h : ListingIn q declarations l) : ListPlain l := by
  have res : ∀ e ∈ l.apis, ∃ d, PlainQ d ∧ DeclarationIn d e.2 := by
    intro e he
    obtain ⟨t, ht, -, d, h1, h2⟩ := forall₂_right h.apis e he
    unfold PlainQ at hd
    rw [Spec.Pointed.Plain] at hd
    have := Proofs.Placed.plainDict_iff.1 hd.2 t ht
    rw [h1] at this
    exact ⟨d, this, h2⟩
  obtain ⟨ha1, ha2⟩ := names_plain hq h.authorizations
  refine ⟨?_, ?_, fun e he => ?_, ha1, plain_value hq h.version, ?_⟩
  · rintro n r p op ⟨hn, nick, hop⟩
    obtain ⟨d, h1, h2⟩ := res _ hn
    obtain ⟨es, h3, h4⟩ := h2.apis
    rw [h4] at hop
    obtain ⟨es', h5, h6⟩ := List.mem_flatten.1 hop
    obtain ⟨q', h7, ops, h8, h9⟩ := many_plain h1 h3 es' h5
    obtain ⟨o, ho, -, -, e⟩ := forall₂_right h9 _ h6
    simp only at e
    subst e
    obtain ⟨q'', h10, h11⟩ := many_plain h7 h8 _ ho
    exact op_plain h10 h11
  · rintro n m ⟨r, k, hn, hm⟩
    obtain ⟨d, h1, h2⟩ := res _ hn
    obtain ⟨q', h3, h4⟩ := (names_plain h1 h2.models).2 _ hm
    exact model_plain h3 h4
  · obtain ⟨q', h3, h4⟩ := ha2 e he
    exact auth_plain h3 h4
  · intro i hi
    rcases h.info with ⟨-, h1⟩ | ⟨d, j, h1, h2, h3⟩
    · rw [h1] at hi; cases hi
    · rw [h2] at hi
      cases hi
      have hd := plain_get hq h1
      exact ⟨plain_value hd h3.title, plain_value hd h3.description, plain_value hd h3.terms, plain_value hd h3.contact,
        plain_value hd h3.license, plain_value hd h3.licenseUrl⟩

/-! ## references -/

/-- a model is declared under this id in the resource named `n` -/
def Named (l : ResourceList) (n i : Str) : Prop := ∃ m, HasModel l n m ∧ m.id = some i

/-- a type or reference: a primitive type, or the id of a model of the same resource -/
def Resolves (env : Env) (l : ResourceList) (n : Str) (type ref : Option Str) : Prop :=
  (∀ t, type = some t → t ≠ [] → env.prim t = false → Named l n t) ∧ ∀ x, ref = some x → x ≠ [] → Named l n x

/-- a data type of models of the same resource -/
structure Refers (env : Env) (l : ResourceList) (n : Str) (d : DataType) : Prop where
  own : Resolves env l n d.type d.ref
  items : ∀ i, d.items = some i → Resolves env l n i.type i.ref

/-- a 1.2 document that refers to its own models only, with names that need no escaping, and has methods of Swagger 2.0 only -/
structure Closed (env : Env) (l : ResourceList) : Prop where
  responses : ∀ n r p op, Declares l n r p op → op.type ≠ some c!"void" → Refers env l n op.toDataType
  bodies : ∀ n r p op, Declares l n r p op → ∀ x ∈ op.parameters, x.paramType = some c!"body" → Refers env l n x.toDataType
  properties : ∀ n m, HasModel l n m → ∀ e ∈ m.properties, Refers env l n e.2.toDataType
  resources : ∀ n r, (n, r) ∈ l.apis → Plain n
  ids : ∀ n m i, HasModel l n m → m.id = some i → Plain i
  sep : Plain env.sep
  methods : ∀ n r p op url m, Declares l n r p op → At env.lower r p op url m → m ∈ Proofs.Upgraded.verbs

variable {env : Env} {str : Nat → Str} {l : ResourceList} {s : Swagger}

/-- a reference to a definition of the new document -/
def Points (s : Swagger) (r : Str) : Prop := ∃ key, r = Spec.Places.pointer [c!"definitions", key] ∧ key ∈ Dict.keys s.definitions

theorem pointer_plain {key : Str} (h : Plain key) : Spec.Places.pointer [c!"definitions", key] = c!"#/definitions/" ++ key := by
  unfold Spec.Places.pointer
  simp only [List.flatMap_cons, List.flatMap_nil, List.append_nil]
  rw [escape_plain h, escape_plain (s := c!"definitions") ⟨by decide, by decide⟩]
  simp

theorem qualified_plain {sep a b : Str} (hs : Plain sep) (ha : Plain a) (hb : Plain b) : Plain (qualified sep a b) := by
  unfold qualified
  split
  · exact hb
  · split
    · exact ha
    · exact ⟨by simp [ha.1, hs.1, hb.1], by simp [ha.2, hs.2, hb.2]⟩

theorem name_plain (hc : Closed env l) {n : Str} {m : Model} (hm : HasModel l n m) : Plain (name env n m) := by
  obtain ⟨r, k, hn, hk⟩ := hm
  have hn' := hc.resources n r hn
  unfold name keyOf
  rw [escape_plain hn']
  cases hi : m.id with
  | none => exact hn'
  | some i => exact qualified_plain hc.sep hn' (hc.ids n m i ⟨r, k, hn, hk⟩ hi)

theorem name_key (h : upgrade env str l = .ok s) {n : Str} {m : Model} (hm : HasModel l n m) : name env n m ∈ Dict.keys s.definitions := by
  rw [← Dict.get?_isSome_iff, Option.isSome_iff_exists]
  exact (C56_definitions h _).2 ⟨n, m, hm, .inl rfl⟩

theorem points_name (h : upgrade env str l = .ok s) (hc : Closed env l) {n : Str} {m : Model} (hm : HasModel l n m) :
    Points s (c!"#/definitions/" ++ name env n m) :=
  ⟨_, (pointer_plain (name_plain hc hm)).symm, name_key h hm⟩

theorem points_id (h : upgrade env str l = .ok s) (hc : Closed env l) {n i : Str} (hi : Named l n i) :
    Points s (point env.sep (rfcEscape n) i) := by
  obtain ⟨m, hm, hid⟩ := hi
  have := points_name h hc hm
  unfold name keyOf at this
  rw [hid] at this
  exact this

theorem points_type (h : upgrade env str l = .ok s) (hc : Closed env l) {n : Str} {type ref t' r' : Option Str}
    (hr : Resolves env l n type ref) (ht : TypeOf env (rfcEscape n) type ref t' r') : ∀ x, r' = some x → Points s x := by
  intro x hx
  cases ht with
  | primitive => cases hx
  | primitive_ref t y _ hy => cases hx; exact points_id h hc (hr.2 y rfl hy)
  | model t _ hp ht => cases hx; exact points_id h hc (hr.1 t rfl ht hp)
  | ref _ y _ hy => cases hx; exact points_id h hc (hr.2 y rfl hy)
  | nothing => cases hx

theorem limit_plain {t : Option Str} {v w : Val} (h : LimitOf env t v w) : PlainVal w := by
  cases h <;> exact ⟨trivial, by rw [ofVal, Spec.Described.Value]⟩

theorem default_plain {d : Option Val} {v : Val} (h : DefaultOf d v) (hp : PlainVal (d.getD .none)) : PlainVal v := by
  cases h <;> exact hp

theorem schema_ok (h : upgrade env str l = .ok s) (hc : Closed env l) {n : Str} {d : DataType} {v : Val} {sc : Schema}
    (hr : Refers env l n d) (hp : TypePlain d) (hv : PlainVal v) (hs : SchemaOf env (rfcEscape n) d v sc) : SchemaOk (Points s) sc := by
  refine ⟨points_type h hc hr.own hs.type, ?_, default_plain hs.default hp.default, limit_plain hs.minimum, limit_plain hs.maximum,
    hs.unique ▸ hp.unique, hs.enum ▸ hp.enum, hs.description ▸ hv⟩
  intro i hi
  have := hs.items
  rw [hi] at this
  generalize hdi : d.items = di at this
  cases this with
  | some j _ h1 h2 => exact points_type h hc (hr.items j hdi) h1

theorem param_ok (h : upgrade env str l = .ok s) (hc : Closed env l) {n : Str} {p : Param} {q : Param20}
    (hr : p.paramType = some c!"body" → Refers env l n p.toDataType) (hp : ParamPlain p) (hq : ParamOf env (rfcEscape n) p q) :
    ParamOk (Points s) q := by
  cases hq with
  | body sc hb hs =>
    refine ⟨?_, by simp, hp.required, hp.description, plain_none, plain_none, plain_none, plain_none, plain_none⟩
    intro x hx
    cases hx
    exact schema_ok h hc (v := .none) (hr hb) hp.type plain_none hs
  | multiple loc i d hb hl hm hi hpi hd =>
    refine ⟨by simp, ?_, hp.required, hp.description, ?_, plain_none, plain_none, plain_none, hp.type.unique⟩
    · intro x hx
      cases hx
      rw [hpi.enum]; exact hp.type.enum
    · have := hp.type.default
      generalize p.defaultValue = dv at hd this
      cases hd with
      | unset => exact plain_none
      | set v =>
        exact ⟨⟨this.1, trivial⟩, by
          rw [ofVal, Spec.Described.Value]
          exact ⟨[v], rfl, v, [], rfl, this.2, rfl⟩⟩
  | single loc t d mn mx hb hl hm hi hre ht hd hmn hmx =>
    exact ⟨by simp, by simp, hp.required, hp.description, default_plain hd hp.type.default, limit_plain hmn, limit_plain hmx,
      hp.type.enum, plain_none⟩
  | array loc t d mn mx j i hb hl hre hi ht hd hmn hmx hpi =>
    refine ⟨by simp, ?_, hp.required, hp.description, default_plain hd hp.type.default, limit_plain hmn, limit_plain hmx,
      hp.type.enum, hp.type.unique⟩
    intro x hx
    cases hx
    rw [hpi.enum]; exact plain_none

theorem op_ok (h : upgrade env str l = .ok s) (hc : Closed env l) (hl : ListPlain l) {n : Str} {r : Resource} {p : Option Str} {op : Operation}
    {o : Op20} (hd : Declares l n r p op) (ho : OpOf env (rfcEscape n) r op o) : OpOk (Points s) o := by
  have hpl := hl.operations n r p op hd
  refine ⟨?_, ?_, ?_, ho.summary ▸ hpl.summary, ho.notes ▸ hpl.notes⟩
  · intro q hq
    obtain ⟨x, hx, hxq⟩ := forall₂_right ho.parameters q hq
    rw [List.mem_reverse] at hx
    exact param_ok h hc (hc.bodies n r p op hd x hx) (hpl.parameters x hx) hxq
  · intro sc hsc
    have := ho.response
    rw [hsc] at this
    cases this with
    | value _ hv hs => exact schema_ok h hc (v := .none) (hc.responses n r p op hd hv) hpl.type plain_none hs
  · intro e he v hv
    have := ho.security
    generalize o.security = se at this he
    cases this with
    | own _ => exact hpl.auths e he v hv
    | inherited _ hn => rw [hn e he] at hv; cases hv

theorem properties_ok (h : upgrade env str l = .ok s) (hc : Closed env l) {n : Str} {ps : Dict Str Property} {ss : Dict Str Schema}
    (hp : PropertiesOf env (rfcEscape n) ps ss) : Dict.keys ss = Dict.keys ps ∧
      ((∀ e ∈ ps, Refers env l n e.2.toDataType ∧ TypePlain e.2.toDataType ∧ PlainVal e.2.description) → ∀ e ∈ ss, SchemaOk (Points s) e.2) := by
  induction hp with
  | nil => exact ⟨rfl, by simp⟩
  | cons k p sc ps ss hs hps ih =>
    refine ⟨?_, fun hall e he => ?_⟩
    · unfold Dict.keys at ih ⊢
      simp only [List.map_cons, ih.1]
    · rcases List.mem_cons.1 he with rfl | he
      · obtain ⟨h1, h2, h3⟩ := hall (k, p) (by simp)
        exact schema_ok h hc h1 h2 h3 hs
      · exact ih.2 (fun e he => hall e (List.mem_cons_of_mem _ he)) e he

theorem subTypes_wf (scope key : Str) (ts : List Str) (defs : Dict Str Definition) (h : Dict.WF defs) : Dict.WF (subTypes env scope key ts defs) := by
  induction ts generalizing defs with
  | nil => exact h
  | cons t ts ih => rw [subTypes_cons]; exact ih _ (Dict.WF_set h _ _)

theorem defSteps_wf {d d' : Dict Str Definition} {steps : List (Str × Model)} (h : DefSteps env d steps d') (hw : Dict.WF d) : Dict.WF d' := by
  induction h with
  | nil d => exact hw
  | cons d sc m props rest d' hp hs ih => exact ih (subTypes_wf _ _ _ _ (Dict.WF_set hw _ _))

theorem definition_ok (h : upgrade env str l = .ok s) (hc : Closed env l) (hl : ListPlain l) {k : Str} {d : Definition}
    (hd : Dict.get? s.definitions k = some d) : DefinitionOk (Points s) d := by
  obtain ⟨i, s0, s1, made, -, -, -, -, -, hsteps, -⟩ := Props.C56.scanned h
  have hat : defAt s.definitions k = d := by unfold defAt; rw [hd]; rfl
  have hall : ∀ r ∈ d.allOf, Points s r := by
    intro r hr
    rw [← hat] at hr
    rcases (defSteps_allOf hsteps k r).1 hr with hn | ⟨e, he, t, ht, -, rfl⟩
    · simp [defAt, Dict.get?] at hn
    · obtain ⟨n, m, hm, rfl⟩ := (mem_steps e).1 he
      exact points_name h hc hm
  rcases defSteps_body hsteps k with ⟨e, he, -, hm⟩ | ⟨-, hm⟩
  · obtain ⟨n, m, hmod, rfl⟩ := (mem_steps e).1 he
    rw [hat] at hm
    have hpl := hl.models n m hmod
    obtain ⟨h1, h2⟩ := properties_ok h hc hm.properties
    refine ⟨by rw [h1]; exact hpl.names, h2 fun e he => ⟨hc.properties n m hmod e he, hpl.properties e he⟩, hall, hm.required ▸ hpl.required,
      hm.discriminator ▸ hpl.discriminator, hm.description ▸ hpl.description⟩
  · rw [hat] at hm
    have e : defAt ([] : Dict Str Definition) k = {} := rfl
    rw [e] at hm
    refine ⟨by rw [hm]; exact List.nodup_nil, by rw [hm]; simp, hall, by rw [hm]; exact plain_nil, by rw [hm]; exact plain_none, by rw [hm]; exact plain_none⟩

theorem foldl_set_wf {α β : Type} (f : α → Str) (g : α → β) (l : List α) {d : Dict Str β} (h : Dict.WF d) :
    Dict.WF (l.foldl (fun d x => Dict.set d (f x) (g x)) d) := by
  induction l generalizing d with
  | nil => exact h
  | cons x l ih => exact ih (Dict.WF_set h _ _)

theorem foldl_set_mem {α β : Type} (f : α → Str) (g : α → β) (l : List α) {d : Dict Str β} {k : Str} {v : β}
    (h : Dict.get? (l.foldl (fun d x => Dict.set d (f x) (g x)) d) k = some v) : (∃ x ∈ l, k = f x ∧ v = g x) ∨ Dict.get? d k = some v := by
  induction l generalizing d with
  | nil => exact .inr h
  | cons x l ih =>
    rcases ih h with ⟨y, hy, e⟩ | hd
    · exact .inl ⟨y, by simp [hy], e⟩
    · rw [Dict.get?_set] at hd
      split at hd
      · rename_i e
        cases hd
        exact .inl ⟨x, by simp, e, rfl⟩
      · exact .inr hd

theorem scheme_ok {a : Auth} (h : AuthPlain a) : SchemeOk (scheme20 a) := by
  have hw : (Dict.keys (a.scopes.foldl (fun d sv => Dict.set d sv.1 sv.2) ([] : Dict Str Val))).Nodup :=
    foldl_set_wf Prod.fst Prod.snd a.scopes Dict.WF_nil
  have hs : ∀ e ∈ a.scopes.foldl (fun d sv => Dict.set d sv.1 sv.2) ([] : Dict Str Val), PlainVal e.2 := by
    intro e he
    have hg := Dict.get?_of_mem hw (show (e.1, e.2) ∈ _ from he)
    rcases foldl_set_mem Prod.fst Prod.snd a.scopes hg with ⟨x, hx, -, e⟩ | hn
    · rw [e]; exact h.scopes x hx
    · cases hn
  unfold scheme20
  dsimp only
  split
  · exact ⟨hw, hs, h.implicitUrl, h.tokenUrl, plain_none, plain_none⟩
  · split
    · exact ⟨hw, hs, plain_none, plain_none, h.keyname, h.passAs⟩
    · exact ⟨hw, hs, plain_none, plain_none, plain_none, plain_none⟩

/-- the new document is one of Swagger 2.0 -/
theorem document_ok (h : upgrade env str l = .ok s) (hc : Closed env l) (hl : ListPlain l) : DocumentOk (Points s) s := by
  obtain ⟨i, s0, s1, made, hi, h0, hf, hp, hm, hsteps, hsec, -⟩ := Props.C56.scanned h
  have hwd := defSteps_wf hsteps Dict.WF_nil
  have hws : Dict.WF s.securityDefinitions := by rw [hsec]; exact foldl_set_wf _ _ _ Dict.WF_nil
  have hwp : Dict.WF s.paths := by
    have hw1 : Dict.WF s1.paths := by rw [hp]; exact wf_foldl_put made Dict.WF_nil
    simp only [finish] at hf
    obtain ⟨c, -, hf⟩ := bind_ok hf
    split at hf
    · cases hf
      exact foldl_set_wf _ _ _ Dict.WF_nil
    · cases hf
      exact hw1
  refine ⟨?_, hwp, ?_, hwd, ?_, hws, ?_⟩
  · obtain ⟨j, hj, h1, h2, h3, h4, h5, h6⟩ := C56_info h
    obtain ⟨p1, p2, p3, p4, p5, p6⟩ := hl.info j hj
    refine ⟨h1 ▸ hl.version, h2 ▸ p1, h3 ▸ p2, h4 ▸ p3, ?_, ?_⟩
    · intro v hv
      rw [((h5 v).1 hv).1]; exact p4
    · intro v w hv
      have := ((h6 (v, w)).1 hv).1
      cases this
      exact ⟨p5, p6⟩
  · intro e he m o ho
    have hfound : Found s e.1 m o := ⟨e.2, Dict.get?_of_mem hwp he, ho⟩
    obtain ⟨n, r, p, op, url, hd, hat, -, hop⟩ := C56_operations h hfound
    exact ⟨hc.methods n r p op url m hd hat, op_ok h hc hl hd hop⟩
  · intro e he
    exact definition_ok h hc hl (Dict.get?_of_mem hwd (show (e.1, e.2) ∈ _ from he))
  · intro e he
    have hg := Dict.get?_of_mem hws (show (e.1, e.2) ∈ _ from he)
    rw [hsec] at hg
    rcases foldl_set_mem (fun ka : Str × Auth => rfcEscape ka.1) (fun ka => scheme20 ka.2) _ hg with ⟨x, hx, -, e⟩ | hn
    · rw [e]; exact scheme_ok (hl.auths x (by simpa using hx))
    · cases hn

end Proofs.Closed12
