import Verif.Proofs.Upgrade
import Verif.Spec.Upgrade12
/-! # The converter and the relations of `Spec/Upgrade12.lean` -/

namespace Upgrade
open Py Utils Spec.Upgrade12

variable {env : Env} {scope : Str}

theorem compose_eq (scope name sep : Str) : (scope_compose (some scope) (some name) sep).getD [] = qualified sep scope name := by
  cases scope with
  | nil => cases name <;> simp [scope_compose, qualified, truthy]
  | cons a b => cases name <;> simp [scope_compose, qualified, truthy]

theorem defRef_eq (name : Str) : defRef env scope name = point env.sep scope name := by
  unfold defRef point
  rw [compose_eq]

theorem truthy_iff (s : Option Str) : truthy s = true ↔ ∃ x, s = some x ∧ x ≠ [] := by
  rcases s with _ | _ | ⟨a, b⟩ <;> simp [truthy]

theorem not_truthy_iff (s : Option Str) : truthy s = false ↔ Absent s := by
  rcases s with _ | _ | ⟨a, b⟩ <;> simp [truthy, Absent]

theorem falsy_iff (v : Val) : Resolver.truthy v = false ↔ Falsy v := by
  cases v <;> simp [Resolver.truthy, Falsy]

theorem isTrue_iff (v : Val) : isTrue v = true ↔ IsTrue v := by
  cases v <;> simp [isTrue, IsTrue]

theorem truthy_none : truthy none = false := rfl
theorem truthy_nil : truthy (some []) = false := rfl
theorem truthy_cons (c : Char) (s : Str) : truthy (some (c :: s)) = true := rfl

theorem typeAndRef_of (type ref : Option Str) :
    TypeOf env scope type ref (typeAndRef env type ref scope).1 (typeAndRef env type ref scope).2 := by
  cases hr : truthy ref with
  | true =>
    obtain ⟨x, rfl, hx⟩ := (truthy_iff ref).1 hr
    cases type with
    | none =>
      simp only [typeAndRef, hr, isPrimitive, Option.any_none, truthy_none, if_true]
      simp only [Bool.false_eq_true, if_false, Option.map_some, defRef_eq]
      refine .ref _ _ ?_ hx
      intro s hs; cases hs
    | some t =>
      cases hp : env.prim t with
      | true =>
        simp only [typeAndRef, hr, isPrimitive, Option.any_some, hp, if_true, Option.map_some, defRef_eq]
        exact .primitive_ref _ _ hp hx
      | false =>
        cases t with
        | nil =>
          simp only [typeAndRef, hr, isPrimitive, Option.any_some, hp, if_true, Option.map_some, defRef_eq, truthy_none, truthy_nil, truthy_cons, Bool.false_eq_true, if_false, if_true]
          refine .ref _ _ ?_ hx
          intro s hs; cases hs; exact ⟨rfl, hp⟩
        | cons a b =>
          simp only [typeAndRef, hr, isPrimitive, Option.any_some, hp, if_true, Option.map_some, defRef_eq, truthy_none, truthy_nil, truthy_cons, Bool.false_eq_true, if_false, if_true]
          exact .model _ _ hp (by simp)
  | false =>
    have ha := (not_truthy_iff ref).1 hr
    cases type with
    | none =>
      simp only [typeAndRef, hr, isPrimitive, Option.any_none, truthy_none, truthy_nil, truthy_cons, Bool.false_eq_true, if_false, if_true]
      refine .nothing _ _ ?_ ha
      intro s hs; cases hs
    | some t =>
      cases hp : env.prim t with
      | true =>
        simp only [typeAndRef, hr, isPrimitive, Option.any_some, hp, if_true, Option.map_some]
        exact .primitive _ _ hp ha
      | false =>
        cases t with
        | nil =>
          simp only [typeAndRef, hr, isPrimitive, Option.any_some, hp, truthy_none, truthy_nil, truthy_cons, Bool.false_eq_true, if_false, if_true]
          refine .nothing _ _ ?_ ha
          intro s hs; cases hs; exact ⟨rfl, hp⟩
        | cons a b =>
          simp only [typeAndRef, hr, isPrimitive, Option.any_some, hp, Option.map_some, defRef_eq, truthy_none, truthy_nil, truthy_cons, Bool.false_eq_true, if_false, if_true]
          exact .model _ _ hp (by simp)

theorem TypeOf.unique {type ref t r t' r' : Option Str} (h : TypeOf env scope type ref t r)
    (h' : TypeOf env scope type ref t' r') : t = t' ∧ r = r' := by
  cases h <;> cases h' <;> simp_all [Absent]

theorem typeAndRef_iff (type ref t r : Option Str) :
    TypeOf env scope type ref t r ↔ typeAndRef env type ref scope = (t, r) := by
  constructor
  · intro h
    obtain ⟨h1, h2⟩ := TypeOf.unique (typeAndRef_of type ref) h
    exact Prod.ext h1 h2
  · intro h
    have := typeAndRef_of (env := env) (scope := scope) type ref
    rw [h] at this
    exact this

theorem limit_iff (type : Option Str) (v w : Val) : limit env type v = .ok w ↔ LimitOf env type v w := by
  unfold limit
  cases ht : Resolver.truthy v with
  | false =>
    have hf := (falsy_iff v).1 ht
    simp only [Bool.false_eq_true, if_false, Except.ok.injEq]
    constructor
    · rintro rfl; exact .absent _ _ hf
    · intro h
      cases h with
      | absent _ _ _ => rfl
      | integer _ _ _ hn _ _ => exact absurd hf hn
      | number _ _ hn _ => exact absurd hf hn
  | true =>
    have hf : ¬ Falsy v := by rw [← falsy_iff, ht]; simp
    simp only [if_true]
    by_cases h1 : type = some c!"integer"
    · subst h1
      rw [if_pos rfl]
      constructor
      · intro h
        obtain ⟨x, hx, h⟩ := bind_ok h
        obtain ⟨n, hn, h⟩ := bind_ok h
        simp only [Except.ok.injEq] at h
        subst h
        exact .integer _ _ _ hf hx hn
      · intro h
        cases h with
        | absent _ _ hc => exact absurd hc hf
        | integer _ x n _ hx hn => simp [hx, hn, bind, Except.bind]
    · rw [if_neg h1]
      by_cases h2 : type = some c!"number"
      · subst h2
        rw [if_pos rfl]
        constructor
        · intro h
          obtain ⟨x, hx, h⟩ := bind_ok h
          simp only [Except.ok.injEq] at h
          subst h
          exact .number _ _ hf hx
        · intro h
          cases h with
          | absent _ _ hc => exact absurd hc hf
          | number _ x _ hx => simp [hx, bind, Except.bind]
      · rw [if_neg h2]
        constructor
        · intro h; cases h
        · intro h
          cases h with
          | absent _ _ hc => exact absurd hc hf
          | integer => exact absurd rfl h1
          | number => exact absurd rfl h2

theorem default_iff (d : Option Val) (v : Val) : DefaultOf d v ↔ d.getD .none = v := by
  cases d with
  | none => constructor
            · intro h; cases h; rfl
            · rintro rfl; exact .unset
  | some x => constructor
              · intro h; cases h; rfl
              · rintro rfl; exact .set _

theorem items_iff (i : Option Items) (j : Option SchemaItems) :
    ItemsOf env scope i j ↔ i.map (schemaItems env scope) = j := by
  cases i with
  | none => constructor
            · intro h; cases h; rfl
            · rintro rfl; exact .none
  | some i =>
    constructor
    · intro h
      cases h with
      | some _ j ht hf =>
        have := (typeAndRef_iff _ _ _ _).1 ht
        simp only [Option.map_some, schemaItems, this, Option.some.injEq]
        cases j
        simp only at hf
        rw [hf]
    · rintro rfl
      exact .some _ _ (typeAndRef_of _ _) rfl

/-- The schema made of a data type. -/
theorem schemaOf_iff (d : DataType) (s : Schema) : schemaOf env scope d = .ok s ↔ SchemaOf env scope d .none s := by
  constructor
  · intro h
    simp only [schemaOf] at h
    obtain ⟨mn, hmn, h⟩ := bind_ok h
    obtain ⟨mx, hmx, h⟩ := bind_ok h
    simp only [Except.ok.injEq] at h
    subst h
    exact ⟨typeAndRef_of _ _, rfl, (default_iff _ _).2 rfl, (limit_iff _ _ _).1 hmn, (limit_iff _ _ _).1 hmx, rfl, rfl,
      (items_iff _ _).2 rfl, rfl⟩
  · intro h
    obtain ⟨t, r, f, df, mn, mx, u, e, its, desc⟩ := s
    have h1 := (typeAndRef_iff _ _ _ _).1 h.type
    have h2 := (limit_iff _ _ _).2 h.minimum
    have h3 := (limit_iff _ _ _).2 h.maximum
    have h4 := (default_iff _ _).1 h.default
    have h5 := (items_iff _ _).1 h.items
    have h6 := h.format
    have h7 := h.unique
    have h8 := h.enum
    have h9 := h.description
    simp only at h1 h2 h3 h4 h5 h6 h7 h8 h9
    simp [schemaOf, h1, h2, h3, h4, h5, h6, h7, h8, h9, bind, Except.bind]

theorem convertItems_iff (type ref format : Option Str) (enum : Val) (i : Items20) :
    (∃ its, convertItems env type ref format = .ok its ∧ i = { its with enum := enum }) ↔
      PlainItems env type ref format enum i := by
  constructor
  · rintro ⟨its, h, rfl⟩
    unfold convertItems at h
    split at h
    · cases h
    · rename_i hr
      split at h
      · cases h
      · rename_i hp
        simp only [Except.ok.injEq] at h
        subst h
        refine ⟨(not_truthy_iff ref).1 (by simpa using hr), ?_, rfl, rfl⟩
        cases type with
        | none => simp [isPrimitive] at hp
        | some t => exact ⟨t, rfl, by simpa [isPrimitive] using hp, rfl⟩
  · intro h
    obtain ⟨t, rfl, hp, ht⟩ := h.type
    refine ⟨{ i with enum := .none }, ?_, ?_⟩
    · unfold convertItems
      rw [(not_truthy_iff ref).2 h.ref]
      have h1 := h.format
      obtain ⟨it, fm, en⟩ := i
      simp only at ht h1
      simp [isPrimitive, hp, ht, h1]
    · have h1 := h.enum
      obtain ⟨it, fm, en⟩ := i
      simp only at h1
      simp [h1]

theorem convertItems_none (type ref format : Option Str) (i : Items20) :
    convertItems env type ref format = .ok i ↔ PlainItems env type ref format .none i := by
  rw [← convertItems_iff]
  constructor
  · intro h
    refine ⟨i, h, ?_⟩
    unfold convertItems at h
    split at h
    · cases h
    · split at h
      · cases h
      · simp only [Except.ok.injEq] at h
        subst h
        rfl
  · rintro ⟨its, h, rfl⟩
    rw [h]
    unfold convertItems at h
    split at h
    · cases h
    · split at h
      · cases h
      · simp only [Except.ok.injEq] at h
        subst h
        rfl

theorem loc_iff (t u : Option Str) : LocOf t u ↔ location t = u := by
  unfold location
  constructor
  · intro h
    cases h with
    | form => rfl
    | other _ hne => exact if_neg hne
  · intro h
    by_cases hf : t = some c!"form"
    · rw [if_pos hf] at h
      subst hf; subst h
      exact .form
    · rw [if_neg hf] at h
      subst h
      exact .other _ hf

theorem location_body (t : Option Str) : location t = some c!"body" ↔ t = some c!"body" := by
  unfold location
  split
  · rename_i h
    subst h
    decide
  · exact Iff.rfl

/-- The parameter made of a parameter. -/
theorem param20_iff (p : Param) (q : Param20) : param20 env scope p = .ok q ↔ ParamOf env scope p q := by
  constructor
  · intro h
    simp only [param20] at h
    by_cases hb : location p.paramType = some c!"body"
    · rw [if_pos hb] at h
      obtain ⟨sc, hs, h⟩ := bind_ok h
      simp only [Except.ok.injEq] at h
      subst h
      rw [hb]
      exact .body sc ((location_body _).1 hb) ((schemaOf_iff _ _).1 hs)
    · rw [if_neg hb] at h
      have hb' : p.paramType ≠ some c!"body" := fun e => hb ((location_body _).2 e)
      have hl : LocOf p.paramType (location p.paramType) := (loc_iff _ _).2 rfl
      cases hr : truthy p.ref with
      | true => rw [hr] at h; cases h
      | false =>
        have hr' := (not_truthy_iff _).1 hr
        rw [hr] at h
        simp only [Bool.false_eq_true, if_false] at h
        cases hm : isTrue p.allowMultiple && !p.blankItems && p.items.isNone with
        | true =>
          rw [hm] at h
          simp only [if_true] at h
          obtain ⟨its, hi, h⟩ := bind_ok h
          simp only [Except.ok.injEq] at h
          subst h
          simp only [Bool.and_eq_true, Option.isNone_iff_eq_none, Bool.not_eq_true'] at hm
          refine .multiple _ _ _ hb' hl ⟨(isTrue_iff _).1 hm.1.1, hm.1.2⟩ hm.2 ((convertItems_iff _ _ _ _ _).1 ⟨its, hi, rfl⟩) ?_
          cases p.defaultValue with
          | none => exact .unset
          | some v => exact .set v
        | false =>
          rw [hm] at h
          simp only [Bool.false_eq_true, if_false] at h
          obtain ⟨t, ht, h⟩ := bind_ok h
          obtain ⟨mn, hmn, h⟩ := bind_ok h
          obtain ⟨mx, hmx, h⟩ := bind_ok h
          obtain ⟨ty, hty, rfl⟩ := lowerOf_ok ht
          have hd := (default_iff p.defaultValue _).2 rfl
          cases hi : p.items with
          | none =>
            rw [hi] at h hm
            simp only [Except.ok.injEq] at h
            subst h
            refine .single _ _ _ _ _ hb' hl ?_ hi hr' hty hd ((limit_iff _ _ _).1 hmn) ((limit_iff _ _ _).1 hmx)
            rw [← isTrue_iff]
            simpa using hm
          | some j =>
            rw [hi] at h
            simp only at h
            obtain ⟨its, hit, h⟩ := bind_ok h
            simp only [Except.ok.injEq] at h
            subst h
            exact .array _ _ _ _ _ _ _ hb' hl hr' hi hty hd ((limit_iff _ _ _).1 hmn) ((limit_iff _ _ _).1 hmx)
              ((convertItems_none _ _ _ _).1 hit)
  · intro h
    cases h with
    | body sc hb hs =>
      have hb' := (location_body _).2 hb
      simp [param20, hb', (schemaOf_iff _ _).2 hs, bind, Except.bind]
    | multiple loc i d hb hl hm hi hp hd =>
      have hb' : ¬ location p.paramType = some c!"body" := fun e => hb ((location_body _).1 e)
      have hl' := (loc_iff _ _).1 hl
      obtain ⟨its, hit, he⟩ := (convertItems_iff _ _ _ _ _).2 hp
      have hr := (not_truthy_iff _).2 hp.ref
      have hm' := (isTrue_iff _).2 hm.1
      have hbl := hm.2
      subst hl'
      simp only [param20]
      rw [if_neg hb', hr]
      simp only [hm', hbl, hi, Option.isNone_none, Bool.and_self, Bool.not_false, if_true, Bool.false_eq_true, if_false, hit, bind, Except.bind, he]
      cases hdv : p.defaultValue with
      | none => rw [hdv] at hd; cases hd; rfl
      | some v => rw [hdv] at hd; cases hd; rfl
    | single loc t d mn mx hb hl hm hi hr ht hd hmn hmx =>
      have hb' : ¬ location p.paramType = some c!"body" := fun e => hb ((location_body _).1 e)
      have hl' := (loc_iff _ _).1 hl
      have hr' := (not_truthy_iff _).2 hr
      have hm' : (isTrue p.allowMultiple && !p.blankItems) = false := by
        rw [← isTrue_iff] at hm
        cases h1 : isTrue p.allowMultiple <;> cases h2 : p.blankItems <;> first | rfl | exact absurd ⟨h1, h2⟩ hm
      have hd' := (default_iff _ _).1 hd
      subst hl'
      simp only [param20]
      rw [if_neg hb', hr']
      simp only [hm', Bool.false_and, Bool.false_eq_true, if_false, hi, bind, Except.bind,
        (limit_iff _ _ _).2 hmn, (limit_iff _ _ _).2 hmx]
      simp only [ht, lowerOf, hd']
    | array loc t d mn mx j i hb hl hr hi ht hd hmn hmx hp =>
      have hb' : ¬ location p.paramType = some c!"body" := fun e => hb ((location_body _).1 e)
      have hl' := (loc_iff _ _).1 hl
      have hr' := (not_truthy_iff _).2 hr
      have hd' := (default_iff _ _).1 hd
      have hit := (convertItems_none _ _ _ _).2 hp
      subst hl'
      simp only [param20]
      rw [if_neg hb', hr']
      simp only [hi, Option.isNone_some, Bool.and_false, Bool.false_eq_true, if_false, bind, Except.bind,
        (limit_iff _ _ _).2 hmn, (limit_iff _ _ _).2 hmx]
      simp only [ht, lowerOf, hd', hit]

/-! ## operations -/

theorem securityOfResource_ok (d : Dict Str (List Val)) (o : List (Str × List Val)) :
    securityOfResource d = .ok o ↔ (∀ e ∈ d, e.2 = []) ∧ o = d := by
  induction d generalizing o with
  | nil => simp [securityOfResource, eq_comm]
  | cons e d ih =>
    obtain ⟨k, l⟩ := e
    cases l with
    | nil =>
      simp only [securityOfResource, List.isEmpty_nil, if_true]
      constructor
      · intro h
        obtain ⟨more, hm, h⟩ := bind_ok h
        simp only [Except.ok.injEq] at h
        obtain ⟨h1, h2⟩ := (ih more).1 hm
        subst h
        refine ⟨?_, by rw [h2]⟩
        intro e he
        rcases List.mem_cons.1 he with rfl | he
        · rfl
        · exact h1 e he
      · rintro ⟨h1, rfl⟩
        have := (ih d).2 ⟨fun e he => h1 e (by simp [he]), rfl⟩
        simp [this, bind, Except.bind]
    | cons v vs =>
      simp only [securityOfResource, List.isEmpty_cons, Bool.false_eq_true, if_false]
      constructor
      · intro h; cases h
      · rintro ⟨h1, -⟩
        have := h1 (k, v :: vs) (by simp)
        simp at this

theorem securityOf_iff (r : Resource) (op : Operation) (o : List (Str × List Val)) :
    securityOf r op = .ok o ↔ SecurityOf r op o := by
  unfold securityOf
  cases ha : op.authorizations with
  | nil =>
    simp only [List.isEmpty_nil, if_true]
    rw [securityOfResource_ok]
    constructor
    · rintro ⟨h1, rfl⟩; exact .inherited ha h1
    · intro h
      cases h with
      | own hn => exact absurd ha hn
      | inherited _ h1 => exact ⟨h1, rfl⟩
  | cons e d =>
    simp only [List.isEmpty_cons, Bool.false_eq_true, if_false, security, Except.ok.injEq]
    constructor
    · rintro rfl; rw [← ha]; exact .own (by rw [ha]; simp)
    · intro h
      cases h with
      | own _ => exact ha.symm
      | inherited hn _ => rw [ha] at hn; cases hn

theorem responseOf_iff (op : Operation) (o : Option Schema) : responseOf env scope op = .ok o ↔ ResponseOf env scope op o := by
  unfold responseOf
  by_cases hv : op.type = some c!"void"
  · rw [if_pos hv]
    constructor
    · intro h; cases h; exact .void hv
    · intro h
      cases h with
      | void _ => rfl
      | value _ hn _ => exact absurd hv hn
  · rw [if_neg hv]
    constructor
    · intro h
      cases hs : schemaOf env scope op.toDataType with
      | error e => rw [hs] at h; cases h
      | ok sc =>
        rw [hs] at h
        cases h
        exact .value _ hv ((schemaOf_iff _ _).1 hs)
    · intro h
      cases h with
      | void hc => exact absurd hc hv
      | value sc _ hs => rw [(schemaOf_iff _ _).2 hs]; rfl

theorem ownOr_iff (a b c : List Str) : OwnOr a b c ↔ (if a.isEmpty then b else a) = c := by
  cases a with
  | nil =>
    constructor
    · intro h
      cases h with
      | own _ _ hn => exact absurd rfl hn
      | inherited _ => rfl
    · rintro rfl; exact .inherited _
  | cons x a =>
    constructor
    · intro h; cases h; rfl
    · rintro rfl; exact .own _ _ (by simp)

theorem forall₂_imp' {α β : Type} {R S : α → β → Prop} (h : ∀ a b, R a b → S a b) {l : List α} {m : List β}
    (hl : List.Forall₂ R l m) : List.Forall₂ S l m := by
  induction hl with
  | nil => exact .nil
  | cons hr _ ih => exact .cons (h _ _ hr) ih

theorem made_opOf {r : Resource} {opPath : Option Str} {op : Operation} {key m : Str} {o : Op20}
    (h : Made env scope r opPath op key m o) : OpOf env scope r op o := by
  obtain ⟨o0, ps, ho, hps, rfl⟩ := h.op_eq
  simp only [op20] at ho
  obtain ⟨sec, hsec, ho⟩ := bind_ok ho
  obtain ⟨resp, hresp, ho⟩ := bind_ok ho
  simp only [Except.ok.injEq] at ho
  subst ho
  exact ⟨rfl, rfl, rfl, rfl, by simp, (ownOr_iff _ _ _).2 rfl, (ownOr_iff _ _ _).2 rfl, (securityOf_iff _ _ _).1 hsec,
    (responseOf_iff _ _).1 hresp, forall₂_imp' (fun p q hpq => (param20_iff p q).1 hpq) hps⟩

/-! ## authorisations -/

theorem foldl_scopes (l : List (Str × Val)) (d : Dict Str Val) (k : Str) (v : Val) :
    Dict.get? (l.foldl (fun d sv => Dict.set d sv.1 sv.2) d) k = some v ↔
      (∃ pre post, l = pre ++ (k, v) :: post ∧ ∀ e ∈ post, e.1 ≠ k) ∨ ((∀ e ∈ l, e.1 ≠ k) ∧ Dict.get? d k = some v) := by
  induction l generalizing d with
  | nil => simp
  | cons e l ih =>
    obtain ⟨k', v'⟩ := e
    rw [List.foldl_cons, ih]
    constructor
    · rintro (⟨pre, post, rfl, hp⟩ | ⟨hl, hd⟩)
      · exact Or.inl ⟨(k', v') :: pre, post, rfl, hp⟩
      · by_cases hk : k' = k
        · subst hk
          rw [Dict.get?_set_self] at hd
          cases hd
          exact Or.inl ⟨[], l, rfl, hl⟩
        · rw [Dict.get?_set_ne _ _ (Ne.symm hk)] at hd
          refine Or.inr ⟨?_, hd⟩
          intro e he
          rcases List.mem_cons.1 he with rfl | he
          · exact hk
          · exact hl e he
    · rintro (⟨pre, post, he, hp⟩ | ⟨hl, hd⟩)
      · cases pre with
        | nil =>
          simp only [List.nil_append, List.cons.injEq, Prod.mk.injEq] at he
          obtain ⟨⟨rfl, rfl⟩, rfl⟩ := he
          exact Or.inr ⟨hp, Dict.get?_set_self _ _ _⟩
        | cons x pre =>
          simp only [List.cons_append, List.cons.injEq] at he
          exact Or.inl ⟨pre, post, he.2, hp⟩
      · have hk : k' ≠ k := hl (k', v') (by simp)
        refine Or.inr ⟨fun e he => hl e (by simp [he]), ?_⟩
        rw [Dict.get?_set_ne _ _ (Ne.symm hk)]
        exact hd

theorem scopes_of (l : List (Str × Val)) : ScopesOf l (l.foldl (fun d sv => Dict.set d sv.1 sv.2) []) := by
  intro k v
  rw [foldl_scopes]
  simp [Dict.get?]

theorem scheme20_of (a : Auth) : SchemeOf a (scheme20 a) ∧ ScopesOf a.scopes (scheme20 a).scopes := by
  have hs := scopes_of a.scopes
  generalize hsc : a.scopes.foldl (fun d sv => Dict.set d sv.1 sv.2) [] = sc at hs
  by_cases h1 : a.type = some c!"basicAuth"
  · have : scheme20 a = { type := some c!"basic", scopes := sc } := by
      simp [scheme20, hsc, authType, h1]
    rw [this]
    exact ⟨.basic _ h1, hs⟩
  by_cases h2 : a.type = some c!"oauth2"
  · cases hi : Resolver.truthy a.implicitUrl with
    | true =>
      have : scheme20 a =
          { type := some c!"oauth2", scopes := sc,
            authorizationUrl := a.implicitUrl, tokenUrl := a.tokenUrl, flow := some c!"implicit" } := by
        simp [scheme20, hsc, authType, h2, hi]
      rw [this]
      refine ⟨.implicit _ h2 ?_, hs⟩
      unfold Spec.Upgrade12.Url
      rw [← falsy_iff, hi]; simp
    | false =>
      have hi' : ¬ Spec.Upgrade12.Url a.implicitUrl := by
        unfold Spec.Upgrade12.Url; rw [← falsy_iff, hi]; simp
      cases ht : Resolver.truthy a.tokenUrl with
      | true =>
        have : scheme20 a =
          { type := some c!"oauth2", scopes := sc,
            authorizationUrl := a.implicitUrl, tokenUrl := a.tokenUrl, flow := some c!"access_code" } := by
          simp [scheme20, hsc, authType, h2, hi, ht]
        rw [this]
        refine ⟨.code _ h2 hi' ?_, hs⟩
        unfold Spec.Upgrade12.Url
        rw [← falsy_iff, ht]; simp
      | false =>
        have : scheme20 a =
          { type := some c!"oauth2", scopes := sc,
            authorizationUrl := a.implicitUrl, tokenUrl := a.tokenUrl } := by
          simp [scheme20, hsc, authType, h2, hi, ht]
        rw [this]
        refine ⟨.grantless _ h2 hi' ?_, hs⟩
        unfold Spec.Upgrade12.Url
        rw [← falsy_iff, ht]; simp
  by_cases h3 : a.type = some c!"apiKey"
  · have : scheme20 a =
          { type := some c!"apiKey", scopes := sc,
            name := a.keyname, «in» := a.passAs } := by
      simp [scheme20, hsc, authType, h3]
    rw [this]
    exact ⟨.apiKey _ h3, hs⟩
  · have : scheme20 a = { type := a.type, scopes := sc } := by
      simp [scheme20, hsc, authType, h1, h2, h3]
    rw [this]
    exact ⟨.other _ h1 h2 h3, hs⟩

/-! ## models -/

theorem properties_iff (ps : Dict Str Property) (ss : Dict Str Schema) :
    properties env scope ps = .ok ss ↔ PropertiesOf env scope ps ss := by
  induction ps generalizing ss with
  | nil =>
    constructor
    · intro h; cases h; exact .nil
    · intro h; cases h; rfl
  | cons e ps ih =>
    obtain ⟨n, p⟩ := e
    constructor
    · intro h
      simp only [properties] at h
      obtain ⟨sc, hs, h⟩ := bind_ok h
      obtain ⟨more, hm, h⟩ := bind_ok h
      simp only [Except.ok.injEq] at h
      subst h
      have := (schemaOf_iff _ _).1 hs
      exact .cons _ _ _ _ _ ⟨this.type, this.format, this.default, this.minimum, this.maximum, this.unique, this.enum,
        this.items, rfl⟩ ((ih _).1 hm)
    · intro h
      cases h with
      | cons _ _ s _ ss hs hr =>
        have h1 : schemaOf env scope p.toDataType = .ok { s with description := .none } :=
          (schemaOf_iff _ _).2 ⟨hs.type, hs.format, hs.default, hs.minimum, hs.maximum, hs.unique, hs.enum, hs.items, rfl⟩
        have h2 := hs.description
        obtain ⟨t, r, f, df, mn, mx, u, e, its, desc⟩ := s
        simp only at h2
        simp [properties, h1, (ih ss).2 hr, bind, Except.bind, h2]


/-- what is filed below a key, or an empty schema -/
def defAt (defs : Dict Str Definition) (k : Str) : Definition := (Dict.get? defs k).getD {}

theorem subTypes_nil (key : Str) (defs : Dict Str Definition) : subTypes env scope key [] defs = defs := rfl

theorem subTypes_cons (key t : Str) (ts : List Str) (defs : Dict Str Definition) :
    subTypes env scope key (t :: ts) defs = subTypes env scope key ts
      (Dict.set defs (qualified env.sep scope t)
        { defAt defs (qualified env.sep scope t) with
          allOf := (defAt defs (qualified env.sep scope t)).allOf ++ [c!"#/definitions/" ++ key] }) := by
  unfold subTypes
  rw [List.foldl_cons]
  simp only [compose_eq]
  rfl

theorem defAt_set (defs : Dict Str Definition) (k k' : Str) (x : Definition) :
    defAt (Dict.set defs k x) k' = if k' = k then x else defAt defs k' := by
  unfold defAt
  rw [Dict.get?_set]
  by_cases h : k' = k
  · simp [h]
  · simp [h]

theorem subTypes_keys (key : Str) (ts : List Str) (defs : Dict Str Definition) (k : Str) :
    k ∈ Dict.keys (subTypes env scope key ts defs) ↔ k ∈ Dict.keys defs ∨ ∃ t ∈ ts, k = qualified env.sep scope t := by
  induction ts generalizing defs with
  | nil => simp [subTypes_nil]
  | cons t ts ih =>
    rw [subTypes_cons, ih]
    simp only [Dict.mem_keys_set, List.mem_cons, exists_eq_or_imp]
    constructor
    · rintro ((h | h) | h)
      · exact Or.inr (Or.inl h)
      · exact Or.inl h
      · exact Or.inr (Or.inr h)
    · rintro (h | h | h)
      · exact Or.inl (Or.inr h)
      · exact Or.inl (Or.inl h)
      · exact Or.inr h

/-- Only the schemas composing a sub type change. -/
theorem subTypes_body (key : Str) (ts : List Str) (defs : Dict Str Definition) (k : Str) :
    defAt (subTypes env scope key ts defs) k =
      { defAt defs k with allOf := (defAt (subTypes env scope key ts defs) k).allOf } := by
  induction ts generalizing defs with
  | nil => rfl
  | cons t ts ih =>
    rw [subTypes_cons, ih, defAt_set]
    by_cases h : k = qualified env.sep scope t
    · rw [if_pos h]; subst h; rfl
    · rw [if_neg h]

theorem subTypes_allOf (key : Str) (ts : List Str) (defs : Dict Str Definition) (k x : Str) :
    x ∈ (defAt (subTypes env scope key ts defs) k).allOf ↔ x ∈ (defAt defs k).allOf ∨
      ∃ t ∈ ts, k = qualified env.sep scope t ∧ x = c!"#/definitions/" ++ key := by
  induction ts generalizing defs with
  | nil => simp [subTypes_nil]
  | cons t ts ih =>
    rw [subTypes_cons, ih, defAt_set]
    by_cases h : k = qualified env.sep scope t
    · rw [if_pos h]
      simp only [List.mem_append, List.mem_cons, List.not_mem_nil, or_false, exists_eq_or_imp]
      constructor
      · rintro ((h1 | h1) | h1)
        · exact Or.inl (by rw [h]; exact h1)
        · exact Or.inr (Or.inl ⟨h, h1⟩)
        · exact Or.inr (Or.inr h1)
      · rintro (h1 | h1 | h1)
        · exact Or.inl (Or.inl (by rw [← h]; exact h1))
        · exact Or.inl (Or.inr h1.2)
        · exact Or.inr h1
    · rw [if_neg h]
      simp [h]

theorem key_eq (m : Model) : (scope_compose (some scope) m.id env.sep).getD [] = keyOf env scope m := by
  unfold keyOf
  cases m.id with
  | none => cases scope <;> rfl
  | some i => exact compose_eq _ _ _

theorem defStep_eq (defs : Dict Str Definition) (m : Model) (props : Dict Str Schema) :
    defStep env defs scope m props = subTypes env scope (keyOf env scope m) m.subTypes
      (Dict.set defs (keyOf env scope m)
        { defAt defs (keyOf env scope m) with
          properties := props, required := m.required, discriminator := m.discriminator,
          description := m.description }) := by
  unfold defStep
  simp only [key_eq]
  rfl

theorem defSteps_keys {d d' : Dict Str Definition} {steps : List (Str × Model)} (h : DefSteps env d steps d') (k : Str) :
    k ∈ Dict.keys d' ↔ k ∈ Dict.keys d ∨ ∃ e ∈ steps, k = keyOf env e.1 e.2 ∨
      ∃ t ∈ e.2.subTypes, k = qualified env.sep e.1 t := by
  induction h with
  | nil d => simp
  | cons d sc m props rest d' hp hs ih =>
    rw [ih, defStep_eq, subTypes_keys]
    simp only [Dict.mem_keys_set, List.mem_cons, exists_eq_or_imp]
    constructor
    · rintro (((h | h) | h) | h)
      · exact Or.inr (Or.inl (Or.inl h))
      · exact Or.inl h
      · exact Or.inr (Or.inl (Or.inr h))
      · exact Or.inr (Or.inr h)
    · rintro (h | (h | h) | h)
      · exact Or.inl (Or.inl (Or.inr h))
      · exact Or.inl (Or.inl (Or.inl h))
      · exact Or.inl (Or.inr h)
      · exact Or.inr h

theorem defSteps_body {d d' : Dict Str Definition} {steps : List (Str × Model)} (h : DefSteps env d steps d') (k : Str) :
    (∃ e ∈ steps, k = keyOf env e.1 e.2 ∧ ModelOf env e.1 e.2 (defAt d' k)) ∨
      ((∀ e ∈ steps, k ≠ keyOf env e.1 e.2) ∧ defAt d' k = { defAt d k with allOf := (defAt d' k).allOf }) := by
  induction h with
  | nil d => exact Or.inr ⟨by simp, rfl⟩
  | cons d sc m props rest d' hp hs ih =>
    rcases ih with ⟨e, he, hk, hm⟩ | ⟨hno, hd⟩
    · exact Or.inl ⟨e, by simp [he], hk, hm⟩
    · rw [defStep_eq, subTypes_body, defAt_set] at hd
      by_cases hk : k = keyOf env sc m
      · rw [if_pos hk] at hd
        refine Or.inl ⟨(sc, m), by simp, hk, ?_⟩
        rw [hd]
        exact ⟨(properties_iff _ _).1 hp, rfl, rfl, rfl⟩
      · rw [if_neg hk] at hd
        refine Or.inr ⟨?_, ?_⟩
        · intro e he
          rcases List.mem_cons.1 he with rfl | he
          · exact hk
          · exact hno e he
        · exact hd

theorem defSteps_allOf {d d' : Dict Str Definition} {steps : List (Str × Model)} (h : DefSteps env d steps d') (k x : Str) :
    x ∈ (defAt d' k).allOf ↔ x ∈ (defAt d k).allOf ∨ ∃ e ∈ steps, ∃ t ∈ e.2.subTypes,
      k = qualified env.sep e.1 t ∧ x = c!"#/definitions/" ++ keyOf env e.1 e.2 := by
  induction h with
  | nil d => simp
  | cons d sc m props rest d' hp hs ih =>
    rw [ih, defStep_eq, subTypes_allOf, defAt_set]
    have e : (if k = keyOf env sc m then
        { defAt d (keyOf env sc m) with
          properties := props, required := m.required, discriminator := m.discriminator,
          description := m.description } else defAt d k).allOf = (defAt d k).allOf := by
      split
      · rename_i h; rw [h]
      · rfl
    rw [e]
    simp only [List.mem_cons, exists_eq_or_imp, or_assoc]


/-! ## the end of the scan -/

theorem get?_cut (n : Nat) (d acc : Dict Str (Dict Str Op20)) (k : Str) (item : Dict Str Op20)
    (h : Dict.get? (d.foldl (fun d kv => Dict.set d (kv.1.drop n) kv.2) acc) k = some item) :
    (∃ k0, (k0, item) ∈ d ∧ k = k0.drop n) ∨ Dict.get? acc k = some item := by
  induction d generalizing acc with
  | nil => exact Or.inr h
  | cons e d ih =>
    rcases ih _ h with ⟨k0, hm, hk⟩ | ha
    · exact Or.inl ⟨k0, by simp [hm], hk⟩
    · rw [Dict.get?_set] at ha
      split at ha
      · rename_i hk
        cases ha
        exact Or.inl ⟨e.1, by simp, hk⟩
      · exact Or.inr ha

/-- The end changes the host and cuts the paths; nothing else. -/
theorem finish_ok {s s' : Swagger} (h : finish s = .ok s') :
    s' = { s with host := s'.host, paths := s'.paths } ∧
    ∀ k item, Dict.get? s'.paths k = some item → ∃ k0, (k0, item) ∈ s.paths ∧ k <:+ k0 := by
  simp only [finish] at h
  obtain ⟨c, -, h⟩ := bind_ok h
  split at h
  · cases h
    refine ⟨rfl, ?_⟩
    intro k item hk
    rcases get?_cut _ _ _ _ _ hk with ⟨k0, hm, rfl⟩ | hn
    · exact ⟨k0, hm, List.drop_suffix _ _⟩
    · cases hn
  · cases h
    exact ⟨rfl, fun k item hk => ⟨k, Dict.mem_of_get? hk, List.suffix_refl _⟩⟩


/-! ## what can be converted is converted -/

theorem visitAll_total {vs ws : List Visit} (h1 : ∀ s, ∃ s', visitAll env s vs = .ok s')
    (h2 : ∀ s, ∃ s', visitAll env s ws = .ok s') (s : Swagger) : ∃ s', visitAll env s (vs ++ ws) = .ok s' := by
  obtain ⟨s1, e1⟩ := h1 s
  obtain ⟨s2, e2⟩ := h2 s1
  exact ⟨s2, by rw [visitAll_append, e1]; exact e2⟩

theorem params_total {n : Str} {r : Resource} {opPath : Option Str} {op : Operation} {key m : Str}
    (hkey : concat r.basePath opPath = .ok key) (hm : lowerOf env op.method = .ok m)
    (vs : List (Str × Param)) (hvs : ∀ v ∈ vs, getName v.1 = .ok n) (hq : ∀ v ∈ vs, ∃ q, param20 env n v.2 = .ok q)
    {s : Swagger} {item : Dict Str Op20} {o : Op20} (hs : s.paths = Dict.set s.paths key (Dict.set item m o)) :
    ∃ s', visitAll env s (vs.map fun v => .parameter v.1 r opPath op v.2) = .ok s' := by
  induction vs generalizing s o with
  | nil => exact ⟨s, rfl⟩
  | cons v vs ih =>
    obtain ⟨q, hq1⟩ := hq v (by simp)
    have g1 : Dict.get? s.paths key = some (Dict.set item m o) := by
      rw [hs]; exact Dict.get?_set_self _ _ _
    have hv : visit env s (.parameter v.1 r opPath op v.2) =
        .ok { s with paths := Dict.set s.paths key (Dict.set item m { o with parameters := o.parameters ++ [q] }) } := by
      simp only [visit, parameter, hvs v (by simp), hq1, hkey, hm, bind, Except.bind, append, g1, Dict.get?_set_self,
        set_set]
    simp only [List.map_cons, visitAll, hv]
    exact ih (fun w hw => hvs w (by simp [hw])) (fun w hw => hq w (by simp [hw]))
      (s := { s with paths := Dict.set s.paths key (Dict.set item m { o with parameters := o.parameters ++ [q] }) })
      (o := { o with parameters := o.parameters ++ [q] }) (by simp only [set_set])

theorem op_total {str : Nat → Str} {n : Str} {r : Resource} {e : Str × (Option Str × Operation)} {key m : Str} {o : Op20}
    (h : Made env (jp_escape n) r e.2.1 e.2.2 key m o) (s : Swagger) :
    ∃ s', visitAll env s (visitOp (c!"#/apis/" ++ jp_escape n) r str e) = .ok s' := by
  obtain ⟨nick, opPath, op⟩ := e
  obtain ⟨b, p, hb, hp, rfl⟩ := h.key_eq
  obtain ⟨x, hx, rfl⟩ := h.method_eq
  obtain ⟨o0, ps, ho0, hps, rfl⟩ := h.op_eq
  simp only at hp hx ho0 hps
  have hkey : concat r.basePath opPath = .ok (b ++ p) := by rw [hb, hp]; rfl
  have hlow : lowerOf env op.method = .ok (env.lower x) := by rw [hx]; rfl
  have hpath : ∀ rest, c!"#/apis/" ++ jp_escape n ++ c!"/apis/" ++ jp_escape nick ++ rest =
      c!"#/apis/" ++ jp_escape n ++ '/' :: (c!"apis/" ++ jp_escape nick ++ rest) := by intro rest; simp
  have h2 := hpath []
  rw [List.append_nil] at h2
  have hname : getName (c!"#/apis/" ++ jp_escape n ++ c!"/apis/" ++ jp_escape nick) = .ok (jp_escape n) := by
    rw [h2]; exact getName_in_resource _ _
  have hv : visit env s (.operation (c!"#/apis/" ++ jp_escape n ++ c!"/apis/" ++ jp_escape nick) r opPath op) =
      .ok { s with paths := (Dict.set s.paths (b ++ p)
              (Dict.set ((Dict.get? s.paths (b ++ p)).getD []) (env.lower x) o0)) } := by
    simp only [visit, operation, hname, ho0, place, hkey, hlow, bind, Except.bind]
    exact if_pos h.method_ok
  simp only [visitOp, visitAll, hv]
  have e1 : visitParams (c!"#/apis/" ++ jp_escape n ++ c!"/apis/" ++ jp_escape nick) r opPath op str =
      ((op.parameters.zipIdx.map fun pi =>
        (c!"#/apis/" ++ jp_escape n ++ c!"/apis/" ++ jp_escape nick ++ c!"/parameters/" ++ str pi.2, pi.1)).reverse).map
        fun v => Visit.parameter v.1 r opPath op v.2 := by
    simp [visitParams, List.map_reverse, Function.comp_def]
  rw [e1]
  refine params_total hkey hlow _ (n := jp_escape n) ?_ ?_ (o := o0)
    (item := (Dict.get? s.paths (b ++ p)).getD []) (by simp only [set_set])
  · intro v hv
    rw [List.mem_reverse, List.mem_map] at hv
    obtain ⟨pi, -, rfl⟩ := hv
    simp only
    rw [List.append_assoc (c!"#/apis/" ++ jp_escape n ++ c!"/apis/" ++ jp_escape nick), hpath]
    exact getName_in_resource _ _
  · intro v hv
    rw [List.mem_reverse, List.mem_map] at hv
    obtain ⟨⟨pp, i⟩, hpi, rfl⟩ := hv
    have hmem : pp ∈ op.parameters.reverse := by
      rw [List.mem_reverse]
      exact List.fst_mem_of_mem_zipIdx hpi
    have : ∀ {a : List Param} {b : List Param20}, List.Forall₂ (fun p q => param20 env (jp_escape n) p = .ok q) a b →
        ∀ p ∈ a, ∃ q, param20 env (jp_escape n) p = .ok q := by
      intro a b hab
      induction hab with
      | nil => simp
      | cons hr _ ih =>
        intro p hp
        rcases List.mem_cons.1 hp with rfl | hp
        · exact ⟨_, hr⟩
        · exact ih p hp
    exact this hps pp hmem

theorem ops_total {str : Nat → Str} {n : Str} {r : Resource} (es : List (Str × (Option Str × Operation)))
    (h : ∀ e ∈ es, ∃ key m o, Made env (jp_escape n) r e.2.1 e.2.2 key m o) (s : Swagger) :
    ∃ s', visitAll env s (es.flatMap (visitOp (c!"#/apis/" ++ jp_escape n) r str)) = .ok s' := by
  induction es generalizing s with
  | nil => exact ⟨s, rfl⟩
  | cons e es ih =>
    rw [List.flatMap_cons]
    obtain ⟨key, m, o, hm⟩ := h e (by simp)
    exact visitAll_total (op_total hm) (fun s => ih (fun e he => h e (by simp [he])) s) s

theorem models_total {n : Str} (vs : List (Str × Model)) (h : ∀ e ∈ vs, ∃ ps, properties env (jp_escape n) e.2.properties = .ok ps)
    (s : Swagger) :
    ∃ s', visitAll env s (vs.map fun km => .model (c!"#/apis/" ++ jp_escape n ++ c!"/models/" ++ jp_escape km.1) km.2) = .ok s' := by
  induction vs generalizing s with
  | nil => exact ⟨s, rfl⟩
  | cons e vs ih =>
    obtain ⟨ps, hps⟩ := h e (by simp)
    have hpath : c!"#/apis/" ++ jp_escape n ++ c!"/models/" ++ jp_escape e.1 =
      c!"#/apis/" ++ jp_escape n ++ '/' :: (c!"models/" ++ jp_escape e.1) := by simp
    have hname : getName (c!"#/apis/" ++ jp_escape n ++ c!"/models/" ++ jp_escape e.1) = .ok (jp_escape n) := by
      rw [hpath]; exact getName_in_resource _ _
    have hv : ∃ s', visit env s (.model (c!"#/apis/" ++ jp_escape n ++ c!"/models/" ++ jp_escape e.1) e.2) = .ok s' := by
      simp only [visit, model, hname, hps, bind, Except.bind]
      exact ⟨_, rfl⟩
    obtain ⟨s', hv⟩ := hv
    simp only [List.map_cons, visitAll, hv]
    exact ih (fun e he => h e (by simp [he])) s'

theorem resource_total {str : Nat → Str} (e : Str × Resource)
    (ho : ∀ x ∈ e.2.apis, ∃ key m o, Made env (jp_escape e.1) e.2 x.2.1 x.2.2 key m o)
    (hm : ∀ x ∈ e.2.models, ∃ ps, properties env (jp_escape e.1) x.2.properties = .ok ps) (s : Swagger) :
    ∃ s', visitAll env s (visitResource str e) = .ok s' := by
  have hv : ∃ s', visit env s (.resource (c!"#/apis/" ++ jp_escape e.1)) = .ok s' := by
    simp only [visit, resource, getName_resource, bind, Except.bind]
    exact ⟨_, rfl⟩
  obtain ⟨s', hv⟩ := hv
  simp only [visitResource, visitAll, hv]
  refine visitAll_total ?_ ?_ s'
  · intro s
    rw [← List.map_reverse]
    exact models_total _ (fun x hx => hm x (by simpa using hx)) s
  · intro s
    exact ops_total _ (fun x hx => ho x (by simpa using hx)) s

theorem auths_total (vs : List (Str × Auth)) (s : Swagger) :
    ∃ s', visitAll env s (vs.map fun ka => .authorization (c!"#/authorizations/" ++ jp_escape ka.1) ka.2) = .ok s' := by
  induction vs generalizing s with
  | nil => exact ⟨s, rfl⟩
  | cons e vs ih =>
    simp only [List.map_cons, visitAll, visit, authorization]
    rw [getName_auth]
    exact ih _

theorem document_total {str : Nat → Str} {l : ResourceList}
    (ho : ∀ e ∈ l.apis, ∀ x ∈ e.2.apis, ∃ key m o, Made env (jp_escape e.1) e.2 x.2.1 x.2.2 key m o)
    (hm : ∀ e ∈ l.apis, ∀ x ∈ e.2.models, ∃ ps, properties env (jp_escape e.1) x.2.properties = .ok ps) (s : Swagger) :
    ∃ s', visitAll env s (visits l str) = .ok s' := by
  refine visitAll_total (fun s => auths_total _ s) ?_ s
  have : ∀ es : List (Str × Resource), (∀ e ∈ es, e ∈ l.apis) → ∀ s,
      ∃ s', visitAll env s (es.flatMap (visitResource str)) = .ok s' := by
    intro es
    induction es with
    | nil => intro _ s; exact ⟨s, rfl⟩
    | cons e es ih =>
      intro hes s
      rw [List.flatMap_cons]
      have he := hes e (by simp)
      exact visitAll_total (resource_total e (ho e he) (hm e he)) (ih (fun x hx => hes x (by simp [hx]))) s
  exact this _ (fun e he => by simpa using he)

theorem opOf_made {r : Resource} {opPath : Option Str} {op : Operation} {o : Op20} (h : OpOf env scope r op o)
    {b p x : Str} (hb : r.basePath = some b) (hp : opPath = some p) (hx : op.method = some x)
    (hm : env.lower x ∈ pathItemFields) : ∃ o', Made env scope r opPath op (b ++ p) (env.lower x) o' := by
  have h1 := (securityOf_iff _ _ _).2 h.security
  have h2 := (responseOf_iff _ _).2 h.response
  have h3 : ∃ o0, op20 env scope r op = .ok o0 := by
    simp only [op20, h1, h2, bind, Except.bind]
    exact ⟨_, rfl⟩
  obtain ⟨o0, h3⟩ := h3
  exact ⟨_, ⟨b, p, hb, hp, rfl⟩, ⟨x, hx, rfl⟩, hm, o0, o.parameters, h3,
    forall₂_imp' (fun p q hpq => (param20_iff p q).2 hpq) h.parameters, rfl⟩

end Upgrade
