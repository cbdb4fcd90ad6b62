import Verif.Model.Upgraded
import Verif.Proofs.Bare
import Verif.Spec.Described
/-! # Lemmas for C87: the objects of an upgraded document -/

namespace Proofs.Upgraded
open Py Tree _root_.Doc Spec.Places Spec.Pointed Proofs.Bare Upgrade _root_.Upgraded

variable {P : Str → Prop}

/-! ## fields -/

theorem plainField {c : Nat} {n : Str} {t : Tree} (hc : Dict.get? (v20 c).child n = none) (hn : n ≠ c!"$ref") (ht : Plain t)
    (hs : n ≠ c!"collectionFormat" := by decide) : FieldOk P c n t := by
  unfold FieldOk; rw [hc]; exact ⟨ht, fun e => absurd e hn, fun e => absurd e hs⟩

theorem styleField {c : Nat} {a : Atom} (hc : Dict.get? (v20 c).child c!"collectionFormat" = none) :
    FieldOk P c c!"collectionFormat" (.atom a) := by
  unfold FieldOk; rw [hc]; exact ⟨trivial, fun e => absurd e (by decide), fun _ => ⟨a, rfl⟩⟩

theorem childField {c : Nat} {n : Str} {k : Kind} {t : Tree} (hc : Dict.get? (v20 c).child n = some k) (h : Formed P k t) :
    FieldOk P c n t := by
  unfold FieldOk; rw [hc]; exact .inr h

/-- one object, or none -/
theorem maybeField {α : Type} {c c' : Nat} {n : Str} (hc : Dict.get? (v20 c).child n = some (.one c')) (o : Option α) (f : α → Tree)
    (h : ∀ a, o = some a → Formed P (.one c') (f a)) : FieldOk P c n ((o.map f).getD (.atom .none)) := by
  cases o with
  | none => unfold FieldOk; rw [hc]; exact .inl ⟨⟨c', rfl⟩, rfl⟩
  | some a => exact childField hc (h a rfl)

theorem refField {r : Option Str} (h : ∀ x, r = some x → P x) : FieldOk P cSchema c!"$ref" (orNone r) := by
  unfold FieldOk
  rw [show Dict.get? (v20 cSchema).child c!"$ref" = none from rfl]
  cases r with
  | none => exact ⟨trivial, fun _ => .inl rfl, fun e => absurd e (by decide)⟩
  | some x => exact ⟨trivial, fun _ => .inr ⟨rfl, x, rfl, h x rfl⟩, fun e => absurd e (by decide)⟩

/-- a default that reading gives as well -/
def okDefault (c : Nat) (f : Str × Tree) : Bool :=
  match Dict.get? (v20 c).child f.1, f.2 with
  | none, .atom a => f.1 ≠ c!"$ref" || a = .none
  | none, .list [] => f.1 ≠ c!"$ref" && f.1 ≠ c!"collectionFormat"
  | none, .dict [] => f.1 ≠ c!"$ref" && f.1 ≠ c!"collectionFormat"
  | some (.one _), .atom .none => true
  | some (.list _), .list [] => true
  | some (.dict _), .dict [] => true
  | some (.boolOr _), .atom (.bool _) => true
  | _, _ => false

theorem okDefault_field {c : Nat} {f : Str × Tree} (h : okDefault c f = true) : FieldOk P c f.1 f.2 := by
  obtain ⟨n, t⟩ := f
  unfold okDefault at h
  unfold FieldOk
  dsimp only at h ⊢
  cases hc : Dict.get? (v20 c).child n with
  | none =>
    rw [hc] at h
    dsimp only
    cases t with
    | atom a =>
      refine ⟨trivial, fun e => .inl ?_, fun _ => ⟨a, rfl⟩⟩
      subst e
      simp at h
      rw [h]
    | list l => cases l with
      | nil => exact ⟨trivial, fun e => by subst e; exact absurd h (by simp), fun e => by subst e; exact absurd h (by simp)⟩
      | cons _ _ => cases h
    | dict l => cases l with
      | nil => exact ⟨⟨List.nodup_nil, trivial⟩, fun e => by subst e; exact absurd h (by simp), fun e => by subst e; exact absurd h (by simp)⟩
      | cons _ _ => cases h
    | obj _ _ => cases h
  | some k =>
    rw [hc] at h
    dsimp only
    cases k with
    | one c' => cases t with
      | atom a => cases a with
        | none => exact .inl ⟨⟨c', rfl⟩, rfl⟩
        | _ => cases h
      | _ => cases h
    | list c' => cases t with
      | list l => cases l with
        | nil => right; rw [Formed]; exact ⟨c', rfl, trivial⟩
        | cons _ _ => cases h
      | _ => cases h
    | dict c' => cases t with
      | dict l => cases l with
        | nil => right; rw [Formed]; exact ⟨c', rfl, List.nodup_nil, trivial⟩
        | cons _ _ => cases h
      | _ => cases h
    | boolOr c' => cases t with
      | atom a => cases a with
        | bool b => right; rw [Formed]; exact ⟨c', b, rfl, rfl⟩
        | _ => cases h
      | _ => cases h

/-- an object made of the given fields -/
theorem made_formed {c : Nat} {set : List (Str × Tree)}
    (hd : ((v20 c).fields.all fun f => (Dict.get? set f.1).isSome || okDefault c f) = true)
    (hs : ∀ x ∈ set, FieldOk P c x.1 x.2) : Formed P (.one c) (made c set) := by
  unfold made
  rw [Formed]
  refine ⟨.inl rfl, ?_, ?_⟩
  · simp [Dict.keys, List.map_map, Function.comp_def]
  · rw [formedFields_iff]
    intro x hx
    obtain ⟨f, hf, rfl⟩ := List.mem_map.1 hx
    cases hg : Dict.get? set f.1 with
    | some v => exact hs _ (Dict.mem_of_get? hg)
    | none =>
      have := List.all_eq_true.1 hd f hf
      rw [hg] at this
      exact okDefault_field this

/-! ## what the records have to be like -/

/-- a value of JSON -/
def PlainVal (v : Val) : Prop := Plain (ofVal v) ∧ Spec.Described.Value (ofVal v) v

structure SchemaOk (P : Str → Prop) (s : Schema) : Prop where
  ref : ∀ r, s.ref = some r → P r
  items : ∀ i, s.items = some i → ∀ r, i.ref = some r → P r
  default : PlainVal s.default
  minimum : PlainVal s.minimum
  maximum : PlainVal s.maximum
  unique : PlainVal s.uniqueItems
  enum : PlainVal s.enum
  description : PlainVal s.description

structure DefinitionOk (P : Str → Prop) (d : Definition) : Prop where
  names : (Dict.keys d.properties).Nodup
  properties : ∀ e ∈ d.properties, SchemaOk P e.2
  allOf : ∀ r ∈ d.allOf, P r
  required : PlainVal d.required
  discriminator : PlainVal d.discriminator
  description : PlainVal d.description

structure ParamOk (P : Str → Prop) (p : Param20) : Prop where
  schema : ∀ s, p.schema = some s → SchemaOk P s
  items : ∀ i, p.items = some i → PlainVal i.enum
  required : PlainVal p.required
  description : PlainVal p.description
  default : PlainVal p.default
  minimum : PlainVal p.minimum
  maximum : PlainVal p.maximum
  enum : PlainVal p.enum
  unique : PlainVal p.uniqueItems

structure OpOk (P : Str → Prop) (o : Op20) : Prop where
  parameters : ∀ p ∈ o.parameters, ParamOk P p
  response : ∀ s, o.response = some s → SchemaOk P s
  security : ∀ e ∈ o.security, ∀ v ∈ e.2, PlainVal v
  summary : PlainVal o.summary
  description : PlainVal o.description

structure SchemeOk (s : Scheme20) : Prop where
  names : (Dict.keys s.scopes).Nodup
  scopes : ∀ e ∈ s.scopes, PlainVal e.2
  authorizationUrl : PlainVal s.authorizationUrl
  tokenUrl : PlainVal s.tokenUrl
  name : PlainVal s.name
  «in» : PlainVal s.in

structure InfoOk (i : Info20) : Prop where
  version : PlainVal i.version
  title : PlainVal i.title
  description : PlainVal i.description
  terms : PlainVal i.termsOfService
  contact : ∀ v, i.contact = some v → PlainVal v
  license : ∀ v w, i.license = some (v, w) → PlainVal v ∧ PlainVal w

/-- the methods of a Path Item -/
def verbs : List Str := [c!"get", c!"put", c!"post", c!"delete", c!"options", c!"head", c!"patch"]

structure DocumentOk (P : Str → Prop) (s : Swagger) : Prop where
  info : InfoOk s.info
  paths : (Dict.keys s.paths).Nodup
  methods : ∀ e ∈ s.paths, ∀ m o, Dict.get? e.2 m = some o → m ∈ verbs ∧ OpOk P o
  definitions : (Dict.keys s.definitions).Nodup
  models : ∀ e ∈ s.definitions, DefinitionOk P e.2
  schemes : (Dict.keys s.securityDefinitions).Nodup
  schemesOk : ∀ e ∈ s.securityDefinitions, SchemeOk e.2

/-! ## the objects -/

theorem plain_orNone (s : Option Str) : Plain (orNone s) := by cases s <;> trivial

theorem plain_list {l : List Tree} (h : ∀ t ∈ l, Plain t) : Plain (.list l) := by
  rw [Plain]; exact Proofs.Placed.plainList_iff.2 h

theorem plain_strs (l : List Str) : Plain (strs l) := by
  refine plain_list fun t ht => ?_
  obtain ⟨s, -, rfl⟩ := List.mem_map.1 ht
  trivial

theorem ofVals_eq (l : List Val) : ofVals l = l.map ofVal := by
  induction l with
  | nil => rfl
  | cons v l ih => rw [ofVals, ih]; rfl

theorem ofPairs_eq (l : List (Str × Val)) : ofPairs l = l.map fun e => (e.1, ofVal e.2) := by
  induction l with
  | nil => rfl
  | cons v l ih => obtain ⟨n, v⟩ := v; rw [ofPairs, ih]; rfl

theorem formed_dict {α : Type} {c : Nat} {d : List (Str × α)} {f : α → Tree} (hn : (Dict.keys d).Nodup)
    (h : ∀ e ∈ d, Formed P (.one c) (f e.2)) : Formed P (.dict c) (.dict (d.map fun e => (e.1, f e.2))) := by
  rw [Formed]
  refine ⟨c, rfl, ?_, ?_⟩
  · rw [List.map_map]; exact hn
  · rw [formedDict_iff]
    intro x hx
    obtain ⟨e, he, rfl⟩ := List.mem_map.1 hx
    exact h e he

theorem formed_list {α : Type} {c : Nat} {l : List α} {f : α → Tree} (h : ∀ a ∈ l, Formed P (.one c) (f a)) :
    Formed P (.list c) (.list (l.map f)) := by
  rw [Formed]
  refine ⟨c, rfl, ?_⟩
  rw [formedList_iff]
  intro x hx
  obtain ⟨e, he, rfl⟩ := List.mem_map.1 hx
  exact h e he

theorem itemsTree_formed {i : SchemaItems} (h : ∀ r, i.ref = some r → P r) : Formed P (.one cSchema) (itemsTree i) := by
  unfold itemsTree
  refine made_formed rfl ?_
  simp only [List.mem_cons, List.not_mem_nil, or_false, forall_eq_or_imp, forall_eq]
  exact ⟨plainField rfl (by decide) (plain_orNone _), refField h, plainField rfl (by decide) (plain_orNone _)⟩

theorem schemaTree_formed {s : Schema} (h : SchemaOk P s) : Formed P (.one cSchema) (schemaTree s) := by
  unfold schemaTree
  refine made_formed rfl ?_
  simp only [List.mem_cons, List.not_mem_nil, or_false, forall_eq_or_imp, forall_eq]
  exact ⟨plainField rfl (by decide) (plain_orNone _), refField h.ref, plainField rfl (by decide) (plain_orNone _),
    plainField rfl (by decide) h.default.1, plainField rfl (by decide) h.minimum.1, plainField rfl (by decide) h.maximum.1,
    plainField rfl (by decide) h.unique.1, plainField rfl (by decide) h.enum.1,
    maybeField (c' := cSchema) rfl s.items itemsTree (fun i hi => itemsTree_formed (h.items i hi)),
    plainField rfl (by decide) h.description.1⟩

theorem refTree_formed {r : Str} (h : P r) : Formed P (.one cSchema) (made cSchema [(c!"$ref", .atom (.str r))]) := by
  refine made_formed rfl ?_
  simp only [List.mem_cons, List.not_mem_nil, or_false, forall_eq]
  exact refField (r := some r) (fun x e => by cases e; exact h)

theorem definitionTree_formed {d : Definition} (h : DefinitionOk P d) : Formed P (.one cSchema) (definitionTree d) := by
  unfold definitionTree
  refine made_formed rfl ?_
  simp only [List.mem_cons, List.not_mem_nil, or_false, forall_eq_or_imp, forall_eq]
  exact ⟨childField (k := .dict cSchema) rfl (formed_dict h.names fun e he => schemaTree_formed (h.properties e he)),
    plainField rfl (by decide) h.required.1, plainField rfl (by decide) h.discriminator.1, plainField rfl (by decide) h.description.1,
    childField (k := .list cSchema) rfl (formed_list fun r hr => refTree_formed (h.allOf r hr))⟩

theorem items20Tree_formed {i : Items20} (h : PlainVal i.enum) : Formed P (.one cItems) (items20Tree i) := by
  unfold items20Tree
  refine made_formed rfl ?_
  simp only [List.mem_cons, List.not_mem_nil, or_false, forall_eq_or_imp, forall_eq]
  exact ⟨plainField rfl (by decide) (plain_orNone _), plainField rfl (by decide) (plain_orNone _), plainField rfl (by decide) h.1⟩

theorem paramTree_formed {p : Param20} (h : ParamOk P p) : Formed P (.one cParameter) (paramTree p) := by
  unfold paramTree
  refine made_formed rfl ?_
  simp only [List.mem_cons, List.not_mem_nil, or_false, forall_eq_or_imp, forall_eq]
  exact ⟨plainField rfl (by decide) (plain_orNone _), plainField rfl (by decide) h.required.1,
    plainField rfl (by decide) h.description.1, plainField rfl (by decide) (plain_orNone _),
    maybeField (c' := cSchema) rfl p.schema schemaTree (fun s hs => schemaTree_formed (h.schema s hs)),
    plainField rfl (by decide) (plain_orNone _), plainField rfl (by decide) (plain_orNone _),
    plainField rfl (by decide) h.default.1, plainField rfl (by decide) h.minimum.1, plainField rfl (by decide) h.maximum.1,
    plainField rfl (by decide) h.enum.1, plainField rfl (by decide) h.unique.1, styleField rfl,
    maybeField (c' := cItems) rfl p.items items20Tree (fun i hi => items20Tree_formed (h.items i hi))⟩

theorem opTree_formed {o : Op20} (h : OpOk P o) : Formed P (.one cOperation) (opTree o) := by
  unfold opTree
  refine made_formed rfl ?_
  simp only [List.mem_cons, List.not_mem_nil, or_false, forall_eq_or_imp, forall_eq]
  refine ⟨plainField rfl (by decide) (plain_strs _), plainField rfl (by decide) trivial, plainField rfl (by decide) h.summary.1,
    plainField rfl (by decide) h.description.1, plainField rfl (by decide) trivial, plainField rfl (by decide) (plain_strs _),
    plainField rfl (by decide) (plain_strs _),
    childField (k := .list cParameter) rfl (formed_list fun p hp => paramTree_formed (h.parameters p hp)),
    plainField rfl (by decide) (plain_list ?_), childField (k := .dict cResponse) rfl ?_⟩
  · intro t ht
    obtain ⟨e, he, rfl⟩ := List.mem_map.1 ht
    rw [Plain, PlainDict, PlainDict]
    refine ⟨by simp, plain_list ?_, trivial⟩
    rw [ofVals_eq]
    intro t ht
    obtain ⟨v, hv, rfl⟩ := List.mem_map.1 ht
    exact (h.security e he v hv).1
  · rw [Formed]
    refine ⟨cResponse, rfl, by simp, formedDict_iff.2 ?_⟩
    intro x hx
    rw [List.mem_singleton] at hx
    subst hx
    refine made_formed rfl ?_
    simp only [List.mem_cons, List.not_mem_nil, or_false, forall_eq]
    exact maybeField (c' := cSchema) rfl o.response schemaTree (fun s hs => schemaTree_formed (h.response s hs))

theorem get_map_val {α β : Type} (d : List (Str × α)) (f : α → β) (n : Str) :
    Dict.get? (d.map fun e => (e.1, f e.2)) n = (Dict.get? d n).map f := by
  induction d with
  | nil => rfl
  | cons x l ih =>
    obtain ⟨m, u⟩ := x
    rw [List.map_cons, Dict.get?, Dict.get?]
    by_cases e : m = n
    · rw [if_pos e, if_pos e]; rfl
    · rw [if_neg e, if_neg e, ih]

theorem pathTree_formed {d : Dict Str Op20} (h : ∀ m o, Dict.get? d m = some o → m ∈ verbs ∧ OpOk P o) :
    Formed P (.one cPathItem) (pathTree d) := by
  unfold pathTree made
  rw [Formed]
  refine ⟨.inl rfl, ?_, ?_⟩
  · simp [Dict.keys, List.map_map, Function.comp_def]
  · rw [formedFields_iff]
    intro x hx
    obtain ⟨f, hf, rfl⟩ := List.mem_map.1 hx
    rw [get_map_val]
    cases hg : Dict.get? d f.1 with
    | some o =>
      obtain ⟨hv, ho⟩ := h _ _ hg
      refine childField (k := .one cOperation) ?_ (opTree_formed ho)
      have : ∀ m ∈ verbs, Dict.get? (v20 cPathItem).child m = some (.one cOperation) := by decide
      exact this _ hv
    | none =>
      have : ((v20 cPathItem).fields.all fun f => okDefault cPathItem f) = true := rfl
      exact okDefault_field (List.all_eq_true.1 this f hf)

theorem schemeTree_formed {s : Scheme20} (h : SchemeOk s) : Formed P (.one cSecurityScheme) (schemeTree s) := by
  unfold schemeTree
  refine made_formed rfl ?_
  simp only [List.mem_cons, List.not_mem_nil, or_false, forall_eq_or_imp, forall_eq]
  refine ⟨plainField rfl (by decide) (plain_orNone _), plainField rfl (by decide) ?_,
    plainField rfl (by decide) h.authorizationUrl.1, plainField rfl (by decide) h.tokenUrl.1,
    plainField rfl (by decide) (plain_orNone _), plainField rfl (by decide) h.name.1, plainField rfl (by decide) h.in.1⟩
  rw [Plain, ofPairs_eq, List.map_map]
  refine ⟨h.names, Proofs.Placed.plainDict_iff.2 ?_⟩
  intro x hx
  obtain ⟨e, he, rfl⟩ := List.mem_map.1 hx
  exact (h.scopes e he).1

theorem infoTree_formed {i : Info20} (h : InfoOk i) : Formed P (.one cInfo) (infoTree i) := by
  unfold infoTree
  refine made_formed rfl ?_
  simp only [List.mem_cons, List.not_mem_nil, or_false, forall_eq_or_imp, forall_eq]
  refine ⟨plainField rfl (by decide) h.version.1, plainField rfl (by decide) h.title.1, plainField rfl (by decide) h.description.1,
    plainField rfl (by decide) h.terms.1, maybeField (c' := cContact) rfl i.contact _ (fun v hv => made_formed rfl ?_),
    maybeField (c' := cLicense) rfl i.license _ (fun v hv => made_formed rfl ?_)⟩
  · simp only [List.mem_cons, List.not_mem_nil, or_false, forall_eq]
    exact plainField rfl (by decide) (h.contact v hv).1
  · simp only [List.mem_cons, List.not_mem_nil, or_false, forall_eq_or_imp, forall_eq]
    exact ⟨plainField rfl (by decide) (h.license v.1 v.2 hv).1.1, plainField rfl (by decide) (h.license v.1 v.2 hv).2.1⟩

/-- the Swagger object -/
theorem tree_formed {s : Swagger} (h : DocumentOk P s) : Formed P (.one cSwagger) (tree s) := by
  unfold tree
  refine made_formed rfl ?_
  simp only [List.mem_cons, List.not_mem_nil, or_false, forall_eq_or_imp, forall_eq]
  refine ⟨childField (k := .one cInfo) rfl (infoTree_formed h.info), plainField rfl (by decide) trivial,
    plainField rfl (by decide) (plain_strs _), plainField rfl (by decide) trivial, plainField rfl (by decide) trivial,
    childField (k := .list cTag) rfl (formed_list fun t _ => made_formed rfl ?_),
    childField (k := .dict cSchema) rfl (formed_dict h.definitions fun e he => definitionTree_formed (h.models e he)),
    childField (k := .dict cParameter) rfl (formed_dict (d := ([] : List (Str × Tree))) (f := id) (by simp [Dict.keys]) (by simp)),
    childField (k := .dict cResponse) rfl (formed_dict (d := ([] : List (Str × Tree))) (f := id) (by simp [Dict.keys]) (by simp)),
    childField (k := .dict cPathItem) rfl (formed_dict h.paths fun e he => pathTree_formed (h.methods e he)),
    plainField rfl (by decide) trivial,
    childField (k := .dict cSecurityScheme) rfl (formed_dict h.schemes fun e he => schemeTree_formed (h.schemesOk e he)),
    plainField rfl (by decide) trivial, plainField rfl (by decide) trivial⟩
  simp only [List.mem_cons, List.not_mem_nil, or_false, forall_eq]
  exact plainField rfl (by decide) trivial

end Proofs.Upgraded
