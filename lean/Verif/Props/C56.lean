import Verif.Proofs.Upgrade12
import Verif.Props.C55
import Verif.Spec.Tree
/-!
# C56: upgrading a 1.2 document preserves parameters, security and models
-/

namespace Props.C56
open Py Utils Upgrade Spec.Upgrade12 Spec C55

variable {env : Env} {str : Nat → Str} {l : ResourceList} {s : Swagger}

/-- the document after the scan -/
theorem scanned (h : upgrade env str l = .ok s) :
    ∃ i s0 s1 made, l.info = some i ∧ resourceList l = .ok s0 ∧ finish s1 = .ok s ∧
      s1.paths = List.foldl put [] made ∧
      List.Forall₂ (fun x y => Made env (rfcEscape x.1) x.2.1 x.2.2.1 x.2.2.2 y.1 y.2.1 y.2.2)
        (opsOf l.apis.reverse) made ∧
      DefSteps env [] ((modelsOf l.apis.reverse).map fun km => (rfcEscape km.1, km.2)) s.definitions ∧
      s.securityDefinitions = l.authorizations.reverse.foldl
        (fun d ka => Dict.set d (rfcEscape ka.1) (scheme20 ka.2)) [] ∧
      (∀ t, t ∈ s.tags ↔ ∃ e ∈ l.apis, t = rfcEscape e.1) ∧
      s.info = s0.info ∧ s.schemes = [c!"http", c!"https"] := by
  have hesc : jp_escape = rfcEscape := funext Proofs.JsonPointer.jp_escape_eq
  simp only [upgrade] at h
  obtain ⟨s0, h0, h⟩ := bind_ok h
  obtain ⟨s1, h1, h⟩ := bind_ok h
  obtain ⟨made, defs, hm, hd, hs1, ht⟩ := visit_document h1
  obtain ⟨hs, -⟩ := finish_ok h
  rw [hesc] at hm hd hs1 ht
  cases hi : l.info with
  | none => simp [resourceList, hi] at h0
  | some i =>
    have h0' := h0
    simp only [resourceList, hi, Except.ok.injEq] at h0
    have e1 : s0.definitions = [] := by rw [← h0]
    have e2 : s0.paths = [] := by rw [← h0]
    have e3 : s0.securityDefinitions = [] := by rw [← h0]
    have e4 : s0.tags = [] := by rw [← h0]
    have e5 : s0.schemes = [c!"http", c!"https"] := by rw [← h0]
    rw [e1] at hd
    rw [e2, e3] at hs1
    rw [e4] at ht
    have f1 : s1.paths = List.foldl put [] made := by rw [hs1]
    have f2 : s.definitions = defs := by rw [hs, hs1]
    have f3 : s.securityDefinitions = s1.securityDefinitions := by rw [hs]
    have f4 : s.tags = s1.tags := by rw [hs]
    have f5 : s.info = s0.info := by rw [hs, hs1]
    have f6 : s.schemes = s0.schemes := by rw [hs, hs1]
    refine ⟨i, s0, s1, made, rfl, h0', h, f1, hm, ?_, ?_, ?_, f5, by rw [f6, e5]⟩
    · rw [f2]; exact hd
    · rw [f3, hs1]
    · intro t; rw [f4, ht]; simp

/-! ## operations and parameters -/

/-- **C56** (operations). Everything found in the new document was declared: at a URL ending in its
path, under its method, and it is what the declared operation becomes in the scope of its resource. -/
theorem C56_operations (h : upgrade env str l = .ok s) {path m : Str} {o : Op20} (ho : Found s path m o) :
    ∃ n r p op url, Declares l n r p op ∧ At env.lower r p op url m ∧ path <:+ url ∧
      OpOf env (rfcEscape n) r op o := by
  obtain ⟨i, s0, s1, made, -, -, hf, hp, hm, -⟩ := scanned h
  obtain ⟨-, hcut⟩ := finish_ok hf
  obtain ⟨item, hi, hmo⟩ := ho
  obtain ⟨k0, hk, hsuf⟩ := hcut path item hi
  have hwf : Dict.WF s1.paths := by rw [hp]; exact wf_foldl_put made Dict.WF_nil
  have hl : lookup s1.paths k0 m = some o := by
    unfold lookup
    rw [Dict.get?_of_mem hwf hk]
    exact hmo
  rw [hp] at hl
  rcases lookup_foldl made [] k0 m o hl with hmem | hnil
  · obtain ⟨⟨n, r, p, op⟩, hx, hmade⟩ := forall₂_right hm _ hmem
    exact ⟨n, r, p, op, k0, (mem_opsOf l n r p op).1 hx, made_at hmade, hsuf, made_opOf hmade⟩
  · simp [lookup, Dict.get?] at hnil

theorem paramOf_same {scope : Str} {p : Param} {q : Param20} (h : ParamOf env scope p q) :
    q.name = p.name ∧ q.required = p.required ∧ q.description = p.description ∧ LocOf p.paramType q.in := by
  cases h with
  | body sc hb hs => exact ⟨rfl, rfl, rfl, by rw [hb]; exact .other _ (by decide)⟩
  | multiple loc i d hb hl hm hi hp hd => exact ⟨rfl, rfl, rfl, hl⟩
  | single loc t d mn mx hb hl hm hi hr ht hd hmn hmx => exact ⟨rfl, rfl, rfl, hl⟩
  | array loc t d mn mx j i hb hl hr hi ht hd hmn hmx hp => exact ⟨rfl, rfl, rfl, hl⟩

/-- **C56** (parameters). An upgraded operation has one parameter for each declared one, with its
name, flag, description and location, in the opposite order. -/
theorem C56_parameters {scope : Str} {r : Resource} {op : Operation} {o : Op20} (h : OpOf env scope r op o) :
    List.Forall₂ (fun (p : Param) (q : Param20) => q.name = p.name ∧ q.required = p.required ∧
      q.description = p.description ∧ LocOf p.paramType q.in) op.parameters.reverse o.parameters :=
  forall₂_imp' (fun _ _ hpq => paramOf_same hpq) h.parameters

/-- **C56** (conversion of a parameter). The converter makes what the relation says, and refuses a
parameter exactly when the relation has no result. -/
theorem C56_param (scope : Str) (p : Param) (q : Param20) : param20 env scope p = .ok q ↔ ParamOf env scope p q :=
  param20_iff p q

/-- **C56** (conversion of a data type). -/
theorem C56_schema (scope : Str) (d : DataType) (sc : Schema) : schemaOf env scope d = .ok sc ↔ SchemaOf env scope d .none sc :=
  schemaOf_iff d sc

/-! ## models -/

/-- model `m` is declared in the resource named `n` -/
def HasModel (l : ResourceList) (n : Str) (m : Model) : Prop := ∃ r k, (n, r) ∈ l.apis ∧ (k, m) ∈ r.models

theorem mem_modelsOf (n : Str) (m : Model) : (n, m) ∈ modelsOf l.apis.reverse ↔ HasModel l n m := by
  simp only [modelsOf, List.mem_flatMap, List.mem_reverse, List.mem_map, HasModel]
  constructor
  · rintro ⟨⟨n', r⟩, hm, ⟨k, m'⟩, hx, e⟩
    cases e
    exact ⟨r, k, hm, hx⟩
  · rintro ⟨r, k, hm, hx⟩
    exact ⟨(n, r), hm, (k, m), hx, rfl⟩

theorem mem_steps (e : Str × Model) :
    e ∈ (modelsOf l.apis.reverse).map (fun km => (rfcEscape km.1, km.2)) ↔
      ∃ n m, HasModel l n m ∧ e = (rfcEscape n, m) := by
  rw [List.mem_map]
  constructor
  · rintro ⟨⟨n, m⟩, hx, rfl⟩
    exact ⟨n, m, (mem_modelsOf n m).1 hx, rfl⟩
  · rintro ⟨n, m, hx, rfl⟩
    exact ⟨(n, m), (mem_modelsOf n m).2 hx, rfl⟩

/-- the name of the definition of a model -/
def name (env : Env) (n : Str) (m : Model) : Str := keyOf env (rfcEscape n) m

/-- **C56** (definitions). The definitions are named after the models and their sub types. -/
theorem C56_definitions (h : upgrade env str l = .ok s) (k : Str) :
    (∃ d, Dict.get? s.definitions k = some d) ↔
      ∃ n m, HasModel l n m ∧ (k = name env n m ∨ ∃ t ∈ m.subTypes, k = qualified env.sep (rfcEscape n) t) := by
  obtain ⟨i, s0, s1, made, -, -, -, -, -, hd, -⟩ := scanned h
  have hk := defSteps_keys hd k
  rw [← Option.isSome_iff_exists, Dict.get?_isSome_iff, hk]
  constructor
  · rintro (hn | ⟨e, he, hc⟩)
    · simp [Dict.keys] at hn
    · obtain ⟨n, m, hm, rfl⟩ := (mem_steps e).1 he
      exact ⟨n, m, hm, hc⟩
  · rintro ⟨n, m, hm, hc⟩
    exact Or.inr ⟨(rfcEscape n, m), (mem_steps _).2 ⟨n, m, hm, rfl⟩, hc⟩

/-- **C56** (models). A model whose name no other model has is found under that name, with its
properties and the references to the models naming it as a sub type. -/
theorem C56_models (h : upgrade env str l = .ok s) {n : Str} {m : Model} (hm : HasModel l n m)
    (hu : ∀ n' m', HasModel l n' m' → name env n' m' = name env n m → n' = n ∧ m' = m) :
    ∃ d, Dict.get? s.definitions (name env n m) = some d ∧ ModelOf env (rfcEscape n) m d ∧
      ∀ x, x ∈ d.allOf ↔ ∃ n' m', HasModel l n' m' ∧ ∃ t ∈ m'.subTypes,
        name env n m = qualified env.sep (rfcEscape n') t ∧ x = c!"#/definitions/" ++ name env n' m' := by
  obtain ⟨d, hg⟩ := (C56_definitions h _).2 ⟨n, m, hm, Or.inl rfl⟩
  obtain ⟨i, s0, s1, made, -, -, -, -, -, hd, -⟩ := scanned h
  have hat : defAt s.definitions (name env n m) = d := by unfold defAt; rw [hg]; rfl
  refine ⟨d, hg, ?_, ?_⟩
  · rcases defSteps_body hd (name env n m) with ⟨e, he, hk, hmo⟩ | ⟨hno, -⟩
    · obtain ⟨n', m', hm', rfl⟩ := (mem_steps e).1 he
      obtain ⟨rfl, rfl⟩ := hu n' m' hm' hk.symm
      rw [hat] at hmo
      exact hmo
    · exact absurd rfl (hno (rfcEscape n, m) ((mem_steps _).2 ⟨n, m, hm, rfl⟩))
  · intro x
    have := defSteps_allOf hd (name env n m) x
    rw [hat] at this
    rw [this]
    constructor
    · rintro (hn | ⟨e, he, t, ht, hk, hx⟩)
      · simp [defAt, Dict.get?] at hn
      · obtain ⟨n', m', hm', rfl⟩ := (mem_steps e).1 he
        exact ⟨n', m', hm', t, ht, hk, hx⟩
    · rintro ⟨n', m', hm', t, ht, hk, hx⟩
      exact Or.inr ⟨_, (mem_steps _).2 ⟨n', m', hm', rfl⟩, t, ht, hk, hx⟩

/-- a name without the characters escaped in pointers -/
def Plain (s : Str) : Prop := '/' ∉ s ∧ '~' ∉ s

theorem escape_plain {s : Str} (h : Plain s) : rfcEscape s = s := by
  induction s with
  | nil => rfl
  | cons c s ih =>
    have h1 : '/' ≠ c := by intro e; exact h.1 (List.mem_cons.2 (Or.inl e))
    have h2 : '~' ≠ c := by intro e; exact h.2 (List.mem_cons.2 (Or.inl e))
    have hs : Plain s := ⟨fun hm => h.1 (by simp [hm]), fun hm => h.2 (by simp [hm])⟩
    rw [rfcEscape]
    · rw [ih hs]
    · intro e; exact h2 e.symm
    · intro e; exact h1 e.symm

theorem model_ref {scope i : Str} (hp : env.prim i = false) (hne : i ≠ []) {ref x y : Option Str}
    (h : TypeOf env scope (some i) ref x y) : x = none ∧ y = some (point env.sep scope i) := by
  cases h with
  | primitive _ _ hp' _ => rw [hp] at hp'; cases hp'
  | primitive_ref _ _ hp' _ => rw [hp] at hp'; cases hp'
  | model _ _ _ _ => exact ⟨rfl, rfl⟩
  | ref _ _ hc _ => exact absurd (hc i rfl).1 hne
  | nothing _ _ hc _ => exact absurd (hc i rfl).1 hne

/-- **C56** (references). With plain names, the name of a model used as a type points to the
definition of that model. -/
theorem C56_references (h : upgrade env str l = .ok s) {n i : Str} {m : Model} (hm : HasModel l n m)
    (hid : m.id = some i) (hu : ∀ n' m', HasModel l n' m' → name env n' m' = name env n m → n' = n ∧ m' = m)
    (hn : Plain n) (hi : Plain i) (hsep : Plain env.sep) (hprim : env.prim i = false) (hne : i ≠ [])
    {d : DataType} (hd : d.type = some i) {description : Val} {sc : Schema}
    (hs : SchemaOf env (rfcEscape n) d description sc) :
    ∃ key df, sc.ref = some (Spec.Places.pointer [c!"definitions", key]) ∧ sc.type = none ∧
      Dict.get? s.definitions key = some df ∧ ModelOf env (rfcEscape n) m df := by
  obtain ⟨df, hg, hmo, -⟩ := C56_models h hm hu
  refine ⟨name env n m, df, ?_, ?_, hg, hmo⟩
  · have e := (model_ref hprim hne (hd ▸ hs.type)).2
    have hk : name env n m = qualified env.sep n i := by
      unfold name keyOf; rw [hid, escape_plain hn]
    have hplain : Plain (qualified env.sep n i) := by
      unfold qualified
      by_cases h1 : n = []
      · rw [if_pos h1]; exact hi
      · rw [if_neg h1, if_neg hne]
        exact ⟨by simp [hn.1, hsep.1, hi.1], by simp [hn.2, hsep.2, hi.2]⟩
    rw [e, hk]
    unfold point Spec.Places.pointer
    simp only [List.flatMap_cons, List.flatMap_nil, List.append_nil]
    rw [escape_plain hplain, escape_plain hn, escape_plain (s := c!"definitions") ⟨by decide, by decide⟩]
    simp
  · exact (model_ref hprim hne (hd ▸ hs.type)).1

/-! ## security, tags and information -/

theorem foldl_auths (as : List (Str × Auth)) (d : Dict Str Scheme20) (hw : (as.map Prod.fst).Nodup) (n : Str) (a : Auth)
    (ha : (n, a) ∈ as) :
    Dict.get? (as.foldl (fun d ka => Dict.set d (rfcEscape ka.1) (scheme20 ka.2)) d) (rfcEscape n) = some (scheme20 a) := by
  induction as generalizing d with
  | nil => simp at ha
  | cons e as ih =>
    rw [List.foldl_cons]
    rw [List.map_cons, List.nodup_cons] at hw
    rcases List.mem_cons.1 ha with rfl | ha
    · have : ∀ (as : List (Str × Auth)) (d : Dict Str Scheme20), n ∉ as.map Prod.fst →
          Dict.get? d (rfcEscape n) = some (scheme20 a) →
          Dict.get? (as.foldl (fun d ka => Dict.set d (rfcEscape ka.1) (scheme20 ka.2)) d) (rfcEscape n) =
            some (scheme20 a) := by
        intro as
        induction as with
        | nil => intro d _ h; exact h
        | cons e as ih =>
          intro d hn hd
          simp only [List.map_cons, List.mem_cons, not_or] at hn
          refine ih _ hn.2 ?_
          rw [Dict.get?_set_ne _ _ ?_]
          · exact hd
          · intro e1
            have := congrArg rfcUnescape e1
            rw [Proofs.JsonPointer.unescape_escape, Proofs.JsonPointer.unescape_escape] at this
            exact hn.1 this
      exact this as _ hw.1 (Dict.get?_set_self _ _ _)
    · exact ih _ hw.2 ha

/-- **C56** (security schemes). Every authorisation becomes a security scheme of the corresponding
type with its scopes, under its escaped name. -/
theorem C56_schemes (h : upgrade env str l = .ok s) (hw : Dict.WF l.authorizations) {n : Str} {a : Auth}
    (ha : (n, a) ∈ l.authorizations) :
    ∃ sch, Dict.get? s.securityDefinitions (rfcEscape n) = some sch ∧ SchemeOf a sch ∧ ScopesOf a.scopes sch.scopes := by
  obtain ⟨i, s0, s1, made, -, -, -, -, -, -, hs, -⟩ := scanned h
  refine ⟨scheme20 a, ?_, scheme20_of a⟩
  rw [hs]
  refine foldl_auths _ _ ?_ n a (by simpa using ha)
  rw [List.map_reverse]
  exact (List.reverse_perm _).nodup_iff.2 hw

/-- **C56** (no other schemes). -/
theorem C56_only_schemes (h : upgrade env str l = .ok s) {k : Str} {sch : Scheme20}
    (hk : Dict.get? s.securityDefinitions k = some sch) :
    ∃ n a, (n, a) ∈ l.authorizations ∧ k = rfcEscape n ∧ SchemeOf a sch := by
  obtain ⟨i, s0, s1, made, -, -, -, -, -, -, hs, -⟩ := scanned h
  rw [hs] at hk
  have : ∀ (as : List (Str × Auth)) (d : Dict Str Scheme20),
      Dict.get? (as.foldl (fun d ka => Dict.set d (rfcEscape ka.1) (scheme20 ka.2)) d) k = some sch →
      (∃ n a, (n, a) ∈ as ∧ k = rfcEscape n ∧ SchemeOf a sch) ∨ Dict.get? d k = some sch := by
    intro as
    induction as with
    | nil => intro d h; exact Or.inr h
    | cons e as ih =>
      intro d h
      rcases ih _ h with ⟨n, a, hm, hc⟩ | hd
      · exact Or.inl ⟨n, a, by simp [hm], hc⟩
      · rw [Dict.get?_set] at hd
        split at hd
        · rename_i he
          cases hd
          exact Or.inl ⟨e.1, e.2, by simp, he, (scheme20_of e.2).1⟩
        · exact Or.inr hd
  rcases this _ _ hk with ⟨n, a, hm, hc⟩ | hn
  · exact ⟨n, a, by simpa using hm, hc⟩
  · simp [Dict.get?] at hn

/-- **C56** (tags). The tags are the escaped names of the resources. -/
theorem C56_tags (h : upgrade env str l = .ok s) (t : Str) : t ∈ s.tags ↔ ∃ n r, (n, r) ∈ l.apis ∧ t = rfcEscape n := by
  obtain ⟨i, s0, s1, made, -, -, -, -, -, -, -, ht, -⟩ := scanned h
  rw [ht]
  constructor
  · rintro ⟨⟨n, r⟩, hm, he⟩; exact ⟨n, r, hm, he⟩
  · rintro ⟨n, r, hm, he⟩; exact ⟨(n, r), hm, he⟩

/-- **C56** (information). A document can only be upgraded if it has an Info object; its fields are
kept. -/
theorem C56_info (h : upgrade env str l = .ok s) :
    ∃ i, l.info = some i ∧ s.info.version = l.apiVersion ∧ s.info.title = i.title ∧
      s.info.description = i.description ∧ s.info.termsOfService = i.termsOfServiceUrl ∧
      (∀ c, s.info.contact = some c ↔ c = i.contact ∧ ¬ Falsy i.contact) ∧
      (∀ x, s.info.license = some x ↔ x = (i.license, i.licenseUrl) ∧ (¬ Falsy i.license ∨ ¬ Falsy i.licenseUrl)) := by
  obtain ⟨i, s0, s1, made, hi, h0, -, -, -, -, -, -, hinfo, -⟩ := scanned h
  simp only [resourceList, hi, Except.ok.injEq] at h0
  refine ⟨i, hi, ?_⟩
  rw [hinfo, ← h0]
  refine ⟨rfl, rfl, rfl, rfl, ?_, ?_⟩
  · intro c
    rw [← falsy_iff]
    cases hc : Resolver.truthy i.contact <;> simp [eq_comm]
  · intro x
    rw [← falsy_iff, ← falsy_iff]
    cases hc : Resolver.truthy i.license <;> cases hd : Resolver.truthy i.licenseUrl <;> simp [eq_comm]

/-! ## which documents are upgraded -/

/-- a method a Path Item has a field for (in 2.0; `$ref` and `parameters` are fields too) -/
def verbs : List Str :=
  [c!"get", c!"put", c!"post", c!"delete", c!"options", c!"head", c!"patch", c!"$ref", c!"parameters"]

/-- everything in the document has a counterpart -/
structure Convertible (env : Env) (l : ResourceList) : Prop where
  info : l.info ≠ none
  placed : ∀ n r p op, Declares l n r p op → ∃ url m, At env.lower r p op url m ∧ m ∈ verbs
  operations : ∀ n r p op, Declares l n r p op → ∃ o, OpOf env (rfcEscape n) r op o
  models : ∀ n m, HasModel l n m → ∃ ps, PropertiesOf env (rfcEscape n) m.properties ps

theorem verbs_iff (m : Str) : m ∈ verbs ↔ m ∈ pathItemFields := by
  simp only [verbs, pathItemFields, List.mem_cons, List.not_mem_nil, or_false]
  constructor
  · rintro (h | h | h | h | h | h | h | h | h) <;> simp [h]
  · rintro (h | h | h | h | h | h | h | h | h) <;> simp [h]

/-- **C56** (acceptance). A document is upgraded exactly when all it declares has a counterpart, it has
an operation, and the URLs of its operations begin with one character. -/
theorem C56_accepts (l : ResourceList) :
    (∃ s, upgrade env str l = .ok s) ↔
      Convertible env l ∧ (∃ n r p op, Declares l n r p op) ∧ ∃ c, CommonFirst env.lower l c := by
  have hesc : jp_escape = rfcEscape := funext Proofs.JsonPointer.jp_escape_eq
  constructor
  · rintro ⟨s, h⟩
    obtain ⟨i, s0, s1, made, hi, h0, hf, hp, hm, hd, -⟩ := scanned h
    have hmade : ∀ n r p op, Declares l n r p op → ∃ key m o, Made env (rfcEscape n) r p op key m o := by
      intro n r p op hd
      obtain ⟨y, -, hy⟩ := forall₂_left hm _ ((mem_opsOf l n r p op).2 hd)
      exact ⟨_, _, _, hy⟩
    refine ⟨⟨by rw [hi]; simp, ?_, ?_, ?_⟩, ?_⟩
    · intro n r p op hd
      obtain ⟨key, m, o, hy⟩ := hmade n r p op hd
      exact ⟨key, m, made_at hy, (verbs_iff m).2 hy.method_ok⟩
    · intro n r p op hd
      obtain ⟨key, m, o, hy⟩ := hmade n r p op hd
      exact ⟨o, made_opOf hy⟩
    · intro n m hmodel
      have : ∀ {d steps d'}, DefSteps env d steps d' → ∀ e ∈ steps, ∃ ps, PropertiesOf env e.1 e.2.properties ps := by
        intro d steps d' hs
        induction hs with
        | nil => simp
        | cons d sc m props rest d' hp _ ih =>
          intro e he
          rcases List.mem_cons.1 he with rfl | he
          · exact ⟨props, (properties_iff _ _).1 hp⟩
          · exact ih e he
      exact this hd _ ((mem_steps _).2 ⟨n, m, hmodel, rfl⟩)
    · have hne : ¬ upgrade env str l = .error .IndexError := by rw [h]; simp
      simp only [upgrade] at h
      obtain ⟨s0, h0, h⟩ := bind_ok h
      obtain ⟨s1, h1, h⟩ := bind_ok h
      rw [C55_refused h0 h1] at hne
      refine ⟨Classical.byContradiction fun hc => hne ⟨rfl, Or.inl hc⟩, ?_⟩
      exact Classical.byContradiction fun hc => hne ⟨rfl, Or.inr fun c hcf => hc ⟨c, hcf⟩⟩
  · rintro ⟨hc, hsome, c, hcf⟩
    obtain ⟨i, hi⟩ := Option.ne_none_iff_exists'.1 hc.info
    have h0 : ∃ s0, resourceList l = .ok s0 := by simp only [resourceList, hi]; exact ⟨_, rfl⟩
    obtain ⟨s0, h0⟩ := h0
    have h1 : ∃ s1, visitAll env s0 (visits l str) = .ok s1 := by
      refine document_total ?_ ?_ s0
      · rintro ⟨n, r⟩ he ⟨nick, p, op⟩ hx
        have hd : Declares l n r p op := ⟨he, nick, hx⟩
        obtain ⟨url, m, ⟨b, q, x, hb, hq, rfl, hx, rfl⟩, hv⟩ := hc.placed n r p op hd
        obtain ⟨o, ho⟩ := hc.operations n r p op hd
        rw [hesc]
        obtain ⟨o', hm⟩ := opOf_made ho hb hq hx ((verbs_iff _).1 hv)
        exact ⟨_, _, o', hm⟩
      · rintro ⟨n, r⟩ he ⟨k, m⟩ hx
        obtain ⟨ps, hps⟩ := hc.models n m ⟨r, k, he, hx⟩
        rw [hesc]
        exact ⟨ps, (properties_iff _ _).2 hps⟩
    obtain ⟨s1, h1⟩ := h1
    cases hu : upgrade env str l with
    | ok s => exact ⟨s, rfl⟩
    | error e =>
      obtain ⟨-, hno | hno⟩ := (C55_refused h0 h1 e).1 hu
      · exact absurd hsome hno
      · exact absurd hcf (hno c)

/-! ## examples -/

set_option synthInstance.maxSize 1000

/-- a converter of the numbers used below -/
def env1 : Env :=
  { env0 with
    float := fun v => if v = .str c!"1.5" then .ok (.fin (3 / 2)) else if v = .int 5 then .ok (.fin 5) else .error .ValueError,
    int := fun x => match x with
      | .fin q => .ok q.floor
      | _ => .error .ValueError }

def pBody : Param := { name := some c!"pet", required := .bool true, paramType := some c!"body", type := some c!"Pet" }
def pForm : Param := { name := some c!"age", paramType := some c!"form", type := some c!"Integer", format := some c!"int32" }
def pMany : Param :=
  { name := some c!"ids", paramType := some c!"query", type := some c!"integer", allowMultiple := .bool true, minimum := .int 5 }

def pet : Model := { id := some c!"Pet", properties := [(c!"name", { type := some c!"string" })], subTypes := [c!"Dog"] }
def dog : Model := { id := some c!"Dog", properties := [(c!"friend", { type := some c!"Pet" })] }

def operation (auth : Str) : Operation :=
  { nickname := c!"addPet", method := some c!"POST", type := some c!"Pet", parameters := [pBody, pForm],
    authorizations := [(auth, [])] }

def document (resource auth : Str) : ResourceList :=
  { info := some { title := .str c!"t" },
    authorizations := [(auth, { type := some c!"apiKey", keyname := .str c!"k", passAs := .str c!"header" })],
    apis := [(resource, { basePath := some c!"http://h.com", models := [(c!"Pet", pet), (c!"Dog", dog)],
                          apis := [(c!"addPet", some c!"/pet", operation auth)] })] }

/-- the parameters, the response and the security of the only operation -/
example : ((upgrade env0 str0 (document c!"pet" c!"key")).map fun s =>
      (Upgrade.lookup s.paths c!"/pet" c!"post").map fun o =>
        (o.parameters.map fun p => (p.name, p.in, p.type, p.schema.bind Schema.ref),
          o.response.bind Schema.ref, o.security)) =
    .ok (some ([(some c!"age", some c!"formData", some c!"integer", none),
        (some c!"pet", some c!"body", none, some c!"#/definitions/pet!##!Pet")],
      some c!"#/definitions/pet!##!Pet", [(c!"key", [])])) := by decide +kernel

/-- the definitions -/
example : ((upgrade env0 str0 (document c!"pet" c!"key")).map fun s =>
      s.definitions.map fun kd => (kd.1, kd.2.properties.map fun np => (np.1, np.2.type, np.2.ref), kd.2.allOf)) =
    .ok [(c!"pet!##!Dog", [(c!"friend", none, some c!"#/definitions/pet!##!Pet")], [c!"#/definitions/pet!##!Pet"]),
      (c!"pet!##!Pet", [(c!"name", some c!"string", none)], [])] := by decide +kernel

/-- **C56** refuted: references within a resource with a slash in its name point to nothing. The
definition is filed under the escaped name, the pointer names the plain one. -/
theorem C56_slash_false :
    ∃ s o, upgrade env0 str0 (document c!"a/b" c!"key") = .ok s ∧ Upgrade.lookup s.paths c!"/pet" c!"post" = some o ∧
      o.response.bind Schema.ref = some (Spec.Places.pointer [c!"definitions", c!"a/b!##!Pet"]) ∧
      Dict.get? s.definitions c!"a/b!##!Pet" = none := by
  refine ⟨_, _, rfl, rfl, by decide +kernel, by decide +kernel⟩

/-- **C56** refuted: an authorisation with a slash in its name is required under its name and
declared under another. -/
theorem C56_auth_false :
    ∃ s o, upgrade env0 str0 (document c!"pet" c!"a/b") = .ok s ∧ Upgrade.lookup s.paths c!"/pet" c!"post" = some o ∧
      o.security = [(c!"a/b", [])] ∧ Dict.get? s.securityDefinitions c!"a/b" = none := by
  refine ⟨_, _, rfl, rfl, by decide +kernel, by decide +kernel⟩

/-- a resource with an authorisation that has a scope -/
def guarded : Resource :=
  { basePath := some c!"http://h.com", apis := [(c!"getPet", some c!"/pet", opA)],
    authorizations := [(c!"oauth", [.dict [(c!"scope", .str c!"write")]])] }

/-- **C56** refuted: a resource whose authorisations have scopes cannot be upgraded. -/
theorem C56_resource_scopes_false :
    upgrade env0 str0 { info := some {}, apis := [(c!"pet", guarded)] } = .error .AttributeError := by decide +kernel

/-- **C56** refuted: the limits of a parameter allowing several values are dropped. -/
theorem C56_multiple_limits_false {scope : Str} {p : Param} {q : Param20} (h : ParamOf env scope p q)
    (hb : p.paramType ≠ some c!"body") (hm : IsTrue p.allowMultiple ∧ p.blankItems = false) (hi : p.items = none) :
    q.minimum = .none ∧ q.maximum = .none := by
  cases h with
  | body _ hc _ => exact absurd hc hb
  | multiple => exact ⟨rfl, rfl⟩
  | single _ _ _ _ _ _ _ hn => exact absurd hm hn
  | array _ _ _ _ _ _ _ _ _ _ hc => rw [hi] at hc; cases hc

example : (param20 env1 c!"pet" pMany).map (fun q => (q.type, q.items, q.minimum)) =
    .ok (some c!"array", some { type := some c!"integer" }, .none) := by decide +kernel

/-- **C56** refuted: a limit of zero is dropped. -/
theorem C56_zero_limit_false {scope : Str} {d : DataType} {v : Val} {sc : Schema} (h : SchemaOf env scope d v sc)
    (hz : d.minimum = .int 0) : sc.minimum = .none := by
  have hm := h.minimum
  rw [hz] at hm
  generalize sc.minimum = x at hm
  generalize d.type = t at hm
  cases hm with
  | absent _ _ _ => rfl
  | integer _ _ _ hn _ _ => exact absurd (by simp [Falsy]) hn
  | number _ _ hn _ => exact absurd (by simp [Falsy]) hn

example : SchemaOf env1 c!"pet" { type := some c!"integer", minimum := .int 0 } .none { type := some c!"integer" } :=
  (schemaOf_iff _ _).1 (by decide +kernel)

/-- **C56** refuted: a fractional limit of an integer is truncated. -/
theorem C56_fraction_false :
    SchemaOf env1 c!"pet" { type := some c!"integer", minimum := .str c!"1.5" } .none
      { type := some c!"integer", minimum := .int 1 } :=
  (schemaOf_iff _ _).1 (by decide +kernel)

/-- **C56** refuted: the flow given to an authorisation code grant, `access_code`, is none of the four
flows of 2.0. -/
theorem C56_flow_false (a : Auth) (ht : a.type = some c!"oauth2") (hi : Falsy a.implicitUrl) (hu : ¬ Falsy a.tokenUrl)
    {sch : Scheme20} (h : SchemeOf a sch) :
    sch.flow = some c!"access_code" ∧
      sch.flow ∉ [some c!"implicit", some c!"password", some c!"application", some c!"accessCode"] := by
  have : sch.flow = some c!"access_code" := by
    cases h with
    | basic _ hb => rw [ht] at hb; exact absurd hb (by decide)
    | implicit _ _ hx => exact absurd hi hx
    | code _ _ _ _ => rfl
    | grantless _ _ _ hx => exact absurd hu hx
    | apiKey _ hb => rw [ht] at hb; exact absurd hb (by decide)
    | other _ _ hb _ => exact absurd ht hb
  exact ⟨this, by rw [this]; decide⟩

example : SchemeOf { type := some c!"oauth2", tokenUrl := .str c!"http://h.com/token" }
    { type := some c!"oauth2", tokenUrl := .str c!"http://h.com/token", flow := some c!"access_code" } :=
  .code [] rfl (by simp [Spec.Upgrade12.Url, Falsy]) (by simp [Spec.Upgrade12.Url, Falsy])

/-- **C56** refuted: without information about the document the upgrade crashes. -/
theorem C56_no_info_false (l : ResourceList) (h : l.info = none) : upgrade env str l = .error .AttributeError := by
  simp [upgrade, resourceList, h, bind, Except.bind]

end Props.C56
