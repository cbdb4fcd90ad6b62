import Verif.Proofs.PrimModel
import Mathlib.Data.List.Forall2
/-! Lemmas about applying several schemas to one model (allOf). -/

namespace Prim
open Py Utils

variable {ω : Type}

/-- the properties after one application, before the discriminator -/
def filled (env : Env ω) (rec : Rec ω) (o : Node) (self : Str → Option (Prim ω)) (d : Dict Str Val)
    (k : Str) : Option (Prim ω) :=
  match Dict.get? o.properties k, Dict.get? d k, self k with
  | some p, some v, _ => okOf (nested rec p v)
  | some p, none, none =>
    if (env.node p).defaultSet then okOf (nested rec p (env.node p).default) else none
  | _, _, x => x

/-- one application of a schema to a model -/
theorem modelApply_ok (env : Env ω) (rec : Rec ω) (i : Nat) (self : Dict Str (Prim ω))
    (hs : Dict.WF self) (d : Dict Str Val) (hw : Dict.WF d) (ctx : Ctx)
    (hsch : (env.node i).isSchema = true)
    (hp : Dict.WF (env.node i).properties) (ho : ∀ l, (env.order l).Perm l)
    (h1 : ∀ k v p, Dict.get? d k = some v → Dict.get? (env.node i).properties k = some p →
      ¬ ((env.node p).readOnly = true ∧ ctx.read = false) ∧ ∃ x, nested rec p v = .ok x)
    (h2 : ∀ k p, Dict.get? d k = none → Dict.get? self k = none →
      Dict.get? (env.node i).properties k = some p →
      (env.node p).defaultSet = true → ∃ x, nested rec p (env.node p).default = .ok x)
    (h3 : ∀ k ∈ (env.node i).required, filled env rec (env.node i) (Dict.get? self) d k ≠ none)
    (h4 : (env.node i).discriminator ≠ none → ctx.name ≠ none) :
    ∃ s, modelApply env rec i self (.dict d) ctx =
        .ok (s, .dict (d.filter fun e => !Dict.has (env.node i).properties e.1),
          ctxAfter (env.node i) i d ctx) ∧ Dict.WF s ∧
      ∀ k, Dict.get? s k = if (env.node i).discriminator = some k then some (namePrim (ctx.name.getD none))
        else filled env rec (env.node i) (Dict.get? self) d k := by
  obtain ⟨s1, e1, e2, e3⟩ := supplyAll_ok env rec i d hw self hs ctx
    (fun e he p hp' => h1 e.1 e.2 p (Dict.get?_of_mem hw he) hp')
  have hs1 : ∀ k p, Dict.get? (env.node i).properties k = some p →
      (Dict.get? s1 k = none ↔ Dict.get? d k = none ∧ Dict.get? self k = none) := by
    intro k p hk
    rw [e3 k, hk]
    cases hv : Dict.get? d k with
    | none => simp
    | some v =>
      obtain ⟨x, hx⟩ := (h1 k v p hv hk).2
      simp [hx, okOf]
  have hmem : ∀ k, k ∈ env.order ((Dict.keys (env.node i).properties).filter fun k => !Dict.has s1 k) ↔
      Dict.get? s1 k = none ∧ ∃ p, Dict.get? (env.node i).properties k = some p := by
    intro k
    rw [(ho _).mem_iff, List.mem_filter, ← Dict.get?_isSome_iff, Option.isSome_iff_exists]
    constructor
    · rintro ⟨ha, hb⟩
      refine ⟨?_, ha⟩
      cases h : Dict.get? s1 k with
      | none => rfl
      | some x => simp [Dict.has, h] at hb
    · rintro ⟨ha, hb⟩
      exact ⟨hb, by simp [Dict.has, ha]⟩
  have hnd : (env.order ((Dict.keys (env.node i).properties).filter fun k => !Dict.has s1 k)).Nodup := by
    apply (ho _).nodup_iff.2
    exact (show (Dict.keys (env.node i).properties).Nodup from hp).sublist List.filter_sublist
  obtain ⟨s2, f1, f2, f3⟩ := fillDefaults_ok env rec (env.node i) _ hnd s1 e2 (by
    intro k hk p hp' hset
    have := (hs1 k p hp').1 ((hmem k).1 hk).1
    exact h2 k p this.1 this.2 hp' hset)
  have hfill : ∀ k, Dict.get? s2 k = filled env rec (env.node i) (Dict.get? self) d k := by
    intro k
    rw [f3 k]
    unfold filled
    cases hp' : Dict.get? (env.node i).properties k with
    | none =>
      rw [if_neg (fun hk => by
        obtain ⟨_, p, h⟩ := (hmem k).1 hk
        rw [hp'] at h; cases h), e3 k, hp']
    | some p =>
      have hh := hs1 k p hp'
      by_cases hn : Dict.get? s1 k = none
      · rw [if_pos ((hmem k).2 ⟨hn, p, hp'⟩)]
        obtain ⟨ha, hb⟩ := hh.1 hn
        simp only [ha, hb, hn]
      · rw [if_neg (fun hk => hn ((hmem k).1 hk).1), e3 k, hp']
        cases hv : Dict.get? d k with
        | some v => rfl
        | none =>
          cases hx : Dict.get? self k with
          | none => exact absurd (hh.2 ⟨hv, hx⟩) hn
          | some x => rfl
  have hreq : ((env.node i).required.any fun k => !Dict.has s2 k) = false := by
    rw [List.any_eq_false]
    intro k hk
    have := h3 k hk
    rw [← hfill] at this
    cases hx : Dict.get? s2 k with
    | none => exact absurd hx this
    | some x => simp [Dict.has, hx]
  unfold modelApply
  simp only [hsch, e1, f1, hreq, Bool.true_eq_false, Bool.false_eq_true, if_false, bind, Except.bind,
    pure, Except.pure]
  cases hdisc : (env.node i).discriminator with
  | none => exact ⟨s2, rfl, f2, by simp [hfill]⟩
  | some k0 =>
    simp only [(ctxAfter_read (env.node i) i d ctx).2.1]
    cases hname : ctx.name with
    | none => exact absurd hname (h4 (by simp [hdisc]))
    | some nm =>
      refine ⟨_, rfl, Dict.WF_set f2 _ _, ?_⟩
      intro k
      by_cases hk : k = k0
      · subst hk
        simp [Dict.get?_set_self]
      · have hk' : ¬ k0 = k := fun h => hk h.symm
        simp [Dict.get?_set_ne _ _ hk, hk', hfill]

/-- what a successful application shows: the required properties are there, and nothing is lost -/
theorem modelApply_keeps (env : Env ω) (rec : Rec ω) (i : Nat) (self : Dict Str (Prim ω)) (v : Val)
    (ctx : Ctx) {s : Dict Str (Prim ω)} {rest : Val} {ctx' : Ctx}
    (h : modelApply env rec i self v ctx = .ok (s, rest, ctx')) :
    (∀ k ∈ (env.node i).required, Dict.get? s k ≠ none) ∧
    (∀ k, Dict.get? self k ≠ none → Dict.get? s k ≠ none) := by
  have set_keeps : ∀ (m : Dict Str (Prim ω)) (k0 : Str) (x : Prim ω) (k : Str),
      Dict.get? m k ≠ none → Dict.get? (Dict.set m k0 x) k ≠ none := by
    intro m k0 x k hk
    by_cases h : k = k0
    · subst h; simp [Dict.get?_set_self]
    · rwa [Dict.get?_set_ne _ _ h]
  have supply_keeps : ∀ (d : List (Str × Val)) (m : Dict Str (Prim ω)) (c : Ctx) m' c',
      supplyAll env rec i m c d = .ok (m', c') → ∀ k, Dict.get? m k ≠ none → Dict.get? m' k ≠ none := by
    intro d
    induction d with
    | nil => intro m c m' c' h k hk; simp only [supplyAll, Except.ok.injEq, Prod.mk.injEq] at h; rwa [← h.1]
    | cons e d ih =>
      obtain ⟨k0, v0⟩ := e
      intro m c m' c' h k hk
      simp only [supplyAll, supply] at h
      cases hp : Dict.get? (env.node i).properties k0 with
      | none =>
        rw [hp] at h
        cases ha : (env.node i).additional <;> rw [ha] at h <;> exact ih _ _ _ _ h k hk
      | some p =>
        rw [hp] at h
        simp only at h
        by_cases hr : (env.node p).readOnly = true ∧ c.read = false
        · rw [if_pos hr] at h; cases h
        · rw [if_neg hr] at h
          cases hx : nested rec p v0 with
          | error e => rw [hx] at h; cases h
          | ok x =>
            rw [hx] at h
            exact ih _ _ _ _ h k (set_keeps m k0 x k hk)
  have fill_keeps : ∀ (ks : List Str) (m m' : Dict Str (Prim ω)),
      fillDefaults env rec (env.node i) m ks = .ok m' → ∀ k, Dict.get? m k ≠ none → Dict.get? m' k ≠ none := by
    intro ks
    induction ks with
    | nil => intro m m' h k hk; simp only [fillDefaults, Except.ok.injEq] at h; rwa [← h]
    | cons k0 ks ih =>
      intro m m' h k hk
      simp only [fillDefaults] at h
      cases hp : Dict.get? (env.node i).properties k0 with
      | none => rw [hp] at h; exact ih _ _ h k hk
      | some p =>
        rw [hp] at h
        simp only at h
        by_cases hset : (env.node p).defaultSet = true
        · rw [if_pos hset] at h
          cases hx : nested rec p (env.node p).default with
          | error e => rw [hx] at h; cases h
          | ok x =>
            rw [hx] at h
            exact ih _ _ h k (set_keeps m k0 x k hk)
        · rw [if_neg hset] at h
          exact ih _ _ h k hk
  unfold modelApply at h
  cases v with
  | dict d =>
    simp only [bind, Except.bind, pure, Except.pure] at h
    by_cases hsch : (env.node i).isSchema = false
    · rw [if_pos hsch] at h; cases h
    · rw [if_neg hsch] at h
      cases hsup : supplyAll env rec i self ctx d with
      | error e => rw [hsup] at h; cases h
      | ok r =>
        obtain ⟨s1, c1⟩ := r
        rw [hsup] at h
        simp only at h
        cases hfill : fillDefaults env rec (env.node i) s1
            (env.order ((Dict.keys (env.node i).properties).filter fun k => !Dict.has s1 k)) with
        | error e => rw [hfill] at h; cases h
        | ok s2 =>
          rw [hfill] at h
          simp only at h
          by_cases hreq : ((env.node i).required.any fun k => !Dict.has s2 k) = true
          · rw [if_pos hreq] at h; cases h
          · rw [if_neg hreq] at h
            have hr2 : ∀ k ∈ (env.node i).required, Dict.get? s2 k ≠ none := by
              intro k hk hn
              exact hreq (List.any_eq_true.2 ⟨k, hk, by simp [Dict.has, hn]⟩)
            have hk2 : ∀ k, Dict.get? self k ≠ none → Dict.get? s2 k ≠ none := fun k hk =>
              fill_keeps _ _ _ hfill k (supply_keeps _ _ _ _ _ hsup k hk)
            cases hdisc : (env.node i).discriminator with
            | none =>
              rw [hdisc] at h
              simp only [Except.ok.injEq, Prod.mk.injEq] at h
              rw [← h.1]
              exact ⟨hr2, hk2⟩
            | some k0 =>
              rw [hdisc] at h
              simp only at h
              cases hname : c1.name with
              | none => rw [hname] at h; cases h
              | some nm =>
                rw [hname] at h
                simp only [Except.ok.injEq, Prod.mk.injEq] at h
                rw [← h.1]
                exact ⟨fun k hk => set_keeps _ _ _ _ (hr2 k hk), fun k hk => set_keeps _ _ _ _ (hk2 k hk)⟩
  | _ => cases h

theorem cleanup_keeps (env : Env ω) (rec : Rec ω) (self : Dict Str (Prim ω)) (v : Val) (ctx : Ctx)
    {s : Dict Str (Prim ω)} {ctx' : Ctx} (h : cleanup env rec self v ctx = .ok (s, ctx')) (k : Str)
    (hk : Dict.get? self k ≠ none) : Dict.get? s k ≠ none := by
  have set_keeps : ∀ (m : Dict Str (Prim ω)) (k0 : Str) (x : Prim ω) (k : Str),
      Dict.get? m k ≠ none → Dict.get? (Dict.set m k0 x) k ≠ none := by
    intro m k0 x k hk
    by_cases h : k = k0
    · subst h; simp [Dict.get?_set_self]
    · rwa [Dict.get?_set_ne _ _ h]
  have conv_keeps : ∀ p (d : List (Str × Val)) (m m' : Dict Str (Prim ω)),
      addConverted rec p m d = .ok m' → ∀ k, Dict.get? m k ≠ none → Dict.get? m' k ≠ none := by
    intro p d
    induction d with
    | nil => intro m m' h k hk; simp only [addConverted, Except.ok.injEq] at h; rwa [← h]
    | cons e d ih =>
      obtain ⟨k0, v0⟩ := e
      intro m m' h k hk
      simp only [addConverted] at h
      cases hx : nested rec p v0 with
      | error e => rw [hx] at h; cases h
      | ok x => rw [hx] at h; exact ih _ _ h k (set_keeps m k0 x k hk)
  unfold cleanup at h
  by_cases ha : ctx.addp = true
  · rw [if_pos ha] at h
    cases v with
    | dict d =>
      simp only [Except.ok.injEq, Prod.mk.injEq] at h
      rw [← h.1]
      unfold addRaw
      clear h
      induction d generalizing self with
      | nil => exact hk
      | cons e d ih => exact ih _ (set_keeps self e.1 _ k hk)
    | _ => cases h
  · rw [if_neg ha] at h
    cases hs : ctx.addpSchema with
    | none =>
      rw [hs] at h
      simp only [Except.ok.injEq, Prod.mk.injEq] at h
      rwa [← h.1]
    | some id =>
      rw [hs] at h
      simp only at h
      cases v with
      | dict d =>
        cases hq : (env.node id).additional with
        | schema p =>
          rw [hq] at h
          simp only at h
          cases hc : addConverted rec p self d with
          | error e => rw [hc] at h; cases h
          | ok m =>
            rw [hc] at h
            simp only [Except.ok.injEq, Prod.mk.injEq] at h
            rw [← h.1]
            exact conv_keeps p d self m hc k hk
        | _ => rw [hq] at h; cases h
      | _ => cases h

/-! ## allOf -/

/-- the schema of property `k` in the first part that declares it -/
def declared (env : Env ω) (ps : List Nat) (k : Str) : Option Nat :=
  ps.findSome? fun j => Dict.get? (env.node j).properties k

/-- the schema of property `k` in the first part that declares it with a default -/
def defaulted (env : Env ω) (ps : List Nat) (k : Str) : Option Nat :=
  ps.findSome? fun j => (Dict.get? (env.node j).properties k).filter fun p => (env.node p).defaultSet

/-- a part has `k` as its discriminator -/
def tagged (env : Env ω) (ps : List Nat) (k : Str) : Bool :=
  ps.any fun j => (env.node j).discriminator = some k

/-- a part allows any additional property -/
def open_ (env : Env ω) (ps : List Nat) : Bool := ps.any fun j => (env.node j).additional = .yes

/-- the schema of additional properties, if the object states one -/
def otherOf (o : Node) : Option Nat :=
  match o.additional with
  | .schema q => some q
  | _ => none

/-- the schema of additional properties: the last one stated -/
def others (env : Env ω) (ps : List Nat) : Option Nat :=
  ps.reverse.findSome? fun j => otherOf (env.node j)

/-- a declared property, as the parts give it -/
def member (env : Env ω) (rec : Rec ω) (ps : List Nat) (d : Dict Str Val) (k : Str) : Option (Prim ω) :=
  match declared env ps k, Dict.get? d k with
  | some p, some v => okOf (nested rec p v)
  | some _, none => (defaulted env ps k).bind fun p => okOf (nested rec p (env.node p).default)
  | none, _ => none

/-- What a list of schemas demands of the value `d` when they are applied one after the other. -/
structure AcceptsAll (env : Env ω) (rec : Rec ω) (ps : List Nat) (name : Option (Option Str)) (read : Bool)
    (d : Dict Str Val) : Prop where
  schemas : ∀ j ∈ ps, (env.node j).isSchema = true ∧ Dict.WF (env.node j).properties
  /-- supplied declared properties are writable and convert -/
  supplied : ∀ k v p, Dict.get? d k = some v → declared env ps k = some p →
    ((env.node p).readOnly = true → read = true) ∧ ∃ x, nested rec p v = .ok x
  /-- defaults convert -/
  defaults : ∀ k p, Dict.get? d k = none → defaulted env ps k = some p →
    ∃ x, nested rec p (env.node p).default = .ok x
  /-- what a part requires is declared by it or an earlier part, and supplied or defaulted -/
  required : ∀ qs j l, ps = qs ++ j :: l → ∀ k ∈ (env.node j).required,
    ∃ p, declared env (qs ++ [j]) k = some p ∧
      (Dict.get? d k ≠ none ∨ defaulted env (qs ++ [j]) k ≠ none)
  /-- discriminators are declared where they are used, and the schema has a name -/
  tags : ∀ j ∈ ps, ∀ k, (env.node j).discriminator = some k →
    Dict.get? (env.node j).properties k ≠ none ∧ name ≠ none
  /-- additional properties convert -/
  additional : open_ env ps = false → ∀ q, others env ps = some q → ∀ k v, Dict.get? d k = some v →
    declared env ps k = none → ∃ x, nested rec q v = .ok x

theorem declared_append (env : Env ω) (qs : List Nat) (j : Nat) (k : Str) :
    declared env (qs ++ [j]) k = (declared env qs k).or (Dict.get? (env.node j).properties k) := by
  simp only [declared, List.findSome?_append, List.findSome?_cons, List.findSome?_nil]
  cases Dict.get? (env.node j).properties k <;> rfl

theorem defaulted_append (env : Env ω) (qs : List Nat) (j : Nat) (k : Str) :
    defaulted env (qs ++ [j]) k = (defaulted env qs k).or
      ((Dict.get? (env.node j).properties k).filter fun p => (env.node p).defaultSet) := by
  simp only [defaulted, List.findSome?_append, List.findSome?_cons, List.findSome?_nil]
  cases (Dict.get? (env.node j).properties k).filter fun p => (env.node p).defaultSet <;> rfl

theorem declared_prefix {env : Env ω} {qs l : List Nat} {k : Str} {p : Nat}
    (h : declared env qs k = some p) : declared env (qs ++ l) k = some p := by
  simp only [declared, List.findSome?_append] at h ⊢
  rw [h]; rfl

theorem defaulted_prefix {env : Env ω} {qs l : List Nat} {k : Str} {p : Nat}
    (h : defaulted env qs k = some p) : defaulted env (qs ++ l) k = some p := by
  simp only [defaulted, List.findSome?_append] at h ⊢
  rw [h]; rfl

theorem defaulted_none {env : Env ω} {qs : List Nat} {k : Str} (h : declared env qs k = none) :
    defaulted env qs k = none := by
  simp only [declared, defaulted, List.findSome?_eq_none_iff] at h ⊢
  intro j hj
  rw [h j hj]
  rfl

theorem tagged_declared {env : Env ω} {rec : Rec ω} {ps : List Nat} {name read d}
    (h : AcceptsAll env rec ps name read d) {qs l : List Nat} (hq : ps = qs ++ l) {k : Str}
    (ht : tagged env qs k = true) : declared env qs k ≠ none := by
  obtain ⟨j, hj, hk⟩ := List.any_eq_true.1 ht
  have := (h.tags j (by rw [hq]; exact List.mem_append_left _ hj) k (by simpa using hk)).1
  intro hn
  simp only [declared, List.findSome?_eq_none_iff] at hn
  exact this (hn j hj)

/-- the state after the parts `qs` -/
structure After (env : Env ω) (rec : Rec ω) (qs : List Nat) (name : Option (Option Str)) (read : Bool)
    (d : Dict Str Val) (cur : Dict Str (Prim ω)) (rest : Dict Str Val) (ctx : Ctx) : Prop where
  wf : Dict.WF cur
  wfRest : Dict.WF rest
  sameName : ctx.name = name
  sameRead : ctx.read = read
  props : ∀ k, Dict.get? cur k = if tagged env qs k then some (namePrim (name.getD none)) else member env rec qs d k
  left : ∀ k, Dict.get? rest k = if declared env qs k = none then Dict.get? d k else none
  valid : ∀ id, ctx.addpSchema = some id → ∃ q, (env.node id).additional = .schema q
  addp : rest ≠ [] → ctx.addp = open_ env qs
  addpSchema : rest ≠ [] → (ctx.addpSchema = none ∧ others env qs = none) ∨
    ∃ id q, ctx.addpSchema = some id ∧ (env.node id).additional = .schema q ∧ others env qs = some q

theorem after_step (env : Env ω) (rec : Rec ω) (ps qs l : List Nat) (j : Nat) (name read)
    (d : Dict Str Val) (hps : ps = qs ++ j :: l) (ha : AcceptsAll env rec ps name read d)
    (ho : ∀ l, (env.order l).Perm l)
    {self rest ctx} (h : After env rec qs name read d self rest ctx) :
    ∃ self' rest' ctx', modelApply env rec j self (.dict rest) ctx = .ok (self', .dict rest', ctx') ∧
      After env rec (qs ++ [j]) name read d self' rest' ctx' ∧ ctx'.second = ctx.second := by
  obtain ⟨hsch, hwf⟩ := ha.schemas j (by simp [hps])
  have hps' : ps = (qs ++ [j]) ++ l := by simp [hps]
  have hps'' : ps = qs ++ ([j] ++ l) := by simp [hps]
  -- members converted so far
  have hconv : ∀ k p v, declared env qs k = some p → Dict.get? d k = some v →
      ∃ x, nested rec p v = .ok x := by
    intro k p v hp hv
    exact (ha.supplied k v p hv (by rw [hps'']; exact declared_prefix hp)).2
  have hdef : ∀ k p, defaulted env (qs ++ [j]) k = some p → Dict.get? d k = none →
      ∃ x, nested rec p (env.node p).default = .ok x := by
    intro k p hp hv
    exact ha.defaults k p hv (by rw [hps']; exact defaulted_prefix hp)
  have hdef' : ∀ k p, defaulted env qs k = some p → Dict.get? d k = none →
      ∃ x, nested rec p (env.node p).default = .ok x := by
    intro k p hp hv
    exact ha.defaults k p hv (by rw [hps'']; exact defaulted_prefix hp)
  -- the application itself
  have hfill : ∀ k, filled env rec (env.node j) (Dict.get? self) rest k =
      if tagged env qs k then some (namePrim (name.getD none)) else member env rec (qs ++ [j]) d k := by
    intro k
    unfold filled
    rw [h.props k, h.left k]
    by_cases ht : tagged env qs k = true
    · have hdc := tagged_declared ha hps'' ht
      rw [if_neg hdc]
      simp only [ht, if_true]
      cases Dict.get? (env.node j).properties k <;> rfl
    · simp only [ht, Bool.false_eq_true, if_false]
      unfold member
      rw [declared_append, defaulted_append]
      cases hdc : declared env qs k with
      | none =>
        simp only [Option.none_or, if_true, defaulted_none hdc]
        cases hp : Dict.get? (env.node j).properties k with
        | none => cases Dict.get? d k <;> rfl
        | some p =>
          cases Dict.get? d k with
          | some v => rfl
          | none =>
            by_cases hs : (env.node p).defaultSet = true
            · simp [hs, Option.filter]
            · simp [hs, Option.filter]
      | some p' =>
        simp only [Option.some_or, reduceCtorEq, if_false]
        cases hv : Dict.get? d k with
        | some v =>
          obtain ⟨x, hx⟩ := hconv k p' v hdc hv
          simp only [hx, okOf]
          cases Dict.get? (env.node j).properties k <;> rfl
        | none =>
          simp only
          cases hq : defaulted env qs k with
          | some p'' =>
            obtain ⟨x, hx⟩ := hdef' k p'' hq hv
            simp only [Option.some_or, Option.bind_some, hx, okOf]
            cases Dict.get? (env.node j).properties k <;> rfl
          | none =>
            simp only [Option.none_or, Option.bind_none]
            cases hp : Dict.get? (env.node j).properties k with
            | none => rfl
            | some p =>
              by_cases hs : (env.node p).defaultSet = true
              · simp [hs, Option.filter]
              · simp [hs, Option.filter]
  obtain ⟨s, e1, e2, e3⟩ := modelApply_ok env rec j self h.wf rest h.wfRest ctx hsch hwf ho
    (by
      intro k v p hv hp
      rw [h.left k] at hv
      by_cases hdc : declared env qs k = none
      · rw [if_pos hdc] at hv
        obtain ⟨h1, h2⟩ := ha.supplied k v p hv (by
          rw [hps']; apply declared_prefix; rw [declared_append, hdc, hp]; rfl)
        refine ⟨?_, h2⟩
        rintro ⟨a, b⟩
        rw [h.sameRead, h1 a] at b
        cases b
      · rw [if_neg hdc] at hv; cases hv)
    (by
      intro k p hv hself hp hs
      rw [h.props k] at hself
      rw [h.left k] at hv
      by_cases ht : tagged env qs k = true
      · simp [ht] at hself
      · simp only [ht, Bool.false_eq_true, if_false] at hself
        have hdn : Dict.get? d k = none := by
          by_cases hdc : declared env qs k = none
          · rwa [if_pos hdc] at hv
          · obtain ⟨p', hp'⟩ := Option.ne_none_iff_exists'.1 hdc
            cases hdv : Dict.get? d k with
            | none => rfl
            | some v =>
              obtain ⟨x, hx⟩ := hconv k p' v hp' hdv
              simp [member, hp', hdv, hx, okOf] at hself
        have hq : defaulted env qs k = none := by
          cases hq : defaulted env qs k with
          | none => rfl
          | some p'' =>
            obtain ⟨x, hx⟩ := hdef' k p'' hq hdn
            cases hdc : declared env qs k with
            | none => rw [defaulted_none hdc] at hq; cases hq
            | some p' => simp [member, hdc, hdn, hq, hx, okOf] at hself
        exact hdef k p (by rw [defaulted_append, hq, hp]; simp [Option.filter, hs]) hdn)
    (by
      intro k hk
      rw [hfill k]
      by_cases ht : tagged env qs k = true
      · simp [ht]
      · simp only [ht, Bool.false_eq_true, if_false]
        obtain ⟨p, hp, hor⟩ := ha.required qs j l hps k hk
        unfold member
        rw [hp]
        cases hv : Dict.get? d k with
        | some v =>
          obtain ⟨x, hx⟩ := (ha.supplied k v p hv (by rw [hps']; exact declared_prefix hp)).2
          simp [hx, okOf]
        | none =>
          rcases hor with h1 | h1
          · exact absurd hv h1
          · obtain ⟨p', hp'⟩ := Option.ne_none_iff_exists'.1 h1
            obtain ⟨x, hx⟩ := hdef k p' hp' hv
            simp [hp', hx, okOf])
    (by
      intro hd
      obtain ⟨k, hk⟩ := Option.ne_none_iff_exists'.1 hd
      rw [h.sameName]
      exact (ha.tags j (by simp [hps]) k hk).2)
  refine ⟨s, _, _, e1, ?_, (ctxAfter_read (env.node j) j rest ctx).2.2.1⟩
  have hrest' : ∀ k, Dict.get? (rest.filter fun e => !Dict.has (env.node j).properties e.1) k =
      if declared env (qs ++ [j]) k = none then Dict.get? d k else none := by
    intro k
    rw [get_filter rest h.wfRest (fun k => !Dict.has (env.node j).properties k) k, declared_append, h.left k]
    cases hx : Dict.get? (env.node j).properties k with
    | none => cases declared env qs k <;> simp [Dict.has, hx]
    | some p => cases declared env qs k <;> simp [Dict.has, hx]
  have hother : (rest.filter fun e => !Dict.has (env.node j).properties e.1) ≠ [] →
      hasOther (env.node j) rest = true ∧ rest ≠ [] := by
    intro hne
    obtain ⟨e, he⟩ := List.exists_mem_of_ne_nil _ hne
    obtain ⟨h1, h2⟩ := List.mem_filter.1 he
    exact ⟨List.any_eq_true.2 ⟨e, h1, h2⟩, List.ne_nil_of_mem h1⟩
  refine ⟨e2, WF_filter _ h.wfRest _, ?_, ?_, ?_, hrest', ?_, ?_, ?_⟩
  · rw [(ctxAfter_read (env.node j) j rest ctx).2.1, h.sameName]
  · rw [(ctxAfter_read (env.node j) j rest ctx).1, h.sameRead]
  · intro k
    rw [e3 k, hfill k, h.sameName]
    have : tagged env (qs ++ [j]) k = (tagged env qs k || decide ((env.node j).discriminator = some k)) := by
      simp [tagged]
    rw [this]
    by_cases h1 : (env.node j).discriminator = some k
    · simp [h1]
    · simp [h1]
  · intro id hid
    unfold ctxAfter at hid
    by_cases h1 : hasOther (env.node j) rest = true
    · rw [if_pos h1] at hid
      cases had : (env.node j).additional with
      | yes => rw [had] at hid; exact h.valid id hid
      | no => rw [had] at hid; exact h.valid id hid
      | schema q =>
        rw [had] at hid
        simp only [Option.some.injEq] at hid
        subst hid
        exact ⟨q, had⟩
    · rw [if_neg h1] at hid
      exact h.valid id hid
  · intro hne
    obtain ⟨h1, h2⟩ := hother hne
    unfold ctxAfter
    rw [if_pos h1]
    have e : open_ env (qs ++ [j]) = (open_ env qs || decide ((env.node j).additional = .yes)) := by
      simp [open_]
    rw [e, ← h.addp h2]
    cases (env.node j).additional <;> simp
  · intro hne
    obtain ⟨h1, h2⟩ := hother hne
    unfold ctxAfter
    rw [if_pos h1]
    have e : others env (qs ++ [j]) = (otherOf (env.node j)).or (others env qs) := by
      simp only [others, List.reverse_append, List.reverse_cons, List.reverse_nil, List.nil_append,
        List.singleton_append, List.findSome?_cons]
      cases otherOf (env.node j) <;> rfl
    rw [e]
    cases had : (env.node j).additional with
    | yes =>
      simp only [otherOf, had, Option.none_or]
      exact h.addpSchema h2
    | no =>
      simp only [otherOf, had, Option.none_or]
      exact h.addpSchema h2
    | schema q =>
      exact Or.inr ⟨j, q, rfl, had, by simp [otherOf, had]⟩

/-- the parts that follow, applied to a non-empty model -/
theorem after_loop (env : Env ω) (rec : Rec ω) (ps : List Nat) (name read)
    (d : Dict Str Val) (ha : AcceptsAll env rec ps name read d)
    (ho : ∀ l, (env.order l).Perm l) (refs l : List Nat)
    (href : List.Forall₂ (fun a j => env.deref a = .ok j) refs l) (qs : List Nat) (hps : ps = qs ++ l)
    {self rest ctx} (hne : self ≠ []) (h : After env rec qs name read d self rest ctx) :
    ∃ self' rest' ctx', allOfLoop env rec (.model self, .dict rest, ctx) [] refs =
        .ok ((.model self', .dict rest', ctx'), []) ∧
      After env rec ps name read d self' rest' ctx' ∧ self' ≠ [] := by
  induction href generalizing qs self rest ctx with
  | nil =>
    simp only [List.append_nil] at hps
    subst hps
    exact ⟨self, rest, ctx, rfl, h, hne⟩
  | @cons a j refs l hd _ ih =>
    obtain ⟨s, r, c, e1, e2, e3⟩ := after_step env rec ps qs l j name read d hps ha ho h
    have hne' : s ≠ [] := by
      intro hs
      subst hs
      obtain ⟨e, l', rfl⟩ := List.exists_cons_of_ne_nil hne
      have := (modelApply_keeps env rec j _ _ _ e1).2 e.1 (by simp [Dict.get?])
      simp [Dict.get?] at this
    have ht : ∀ m : Dict Str (Prim ω), m ≠ [] → truthy (Prim.model m : Prim ω) = true := by
      intro m hm
      cases m with
      | nil => exact absurd rfl hm
      | cons => rfl
    obtain ⟨s', r', c', f1, f2, f3⟩ := ih (qs ++ [j]) (by simp [hps]) hne' e2
    refine ⟨s', r', c', ?_, f2, f3⟩
    rw [allOfLoop, hd]
    simp only [ht self hne, if_true, applyTo, e1, ht s hne']
    exact f1

/-- the end: additional properties -/
theorem after_finish (env : Env ω) (rec : Rec ω) (ps : List Nat) (name read)
    (d : Dict Str Val) (ha : AcceptsAll env rec ps name read d) {self rest ctx}
    (h : After env rec ps name read d self rest ctx) :
    ∃ m c, cleanup env rec self (.dict rest) ctx = .ok (m, c) ∧ Dict.WF m ∧
      ∀ k, Dict.get? m k =
        if tagged env ps k then some (namePrim (name.getD none)) else
        match declared env ps k, Dict.get? d k with
        | some p, some v => okOf (nested rec p v)
        | some _, none => (defaulted env ps k).bind fun p => okOf (nested rec p (env.node p).default)
        | none, some v =>
          if open_ env ps then some (.raw v) else (others env ps).bind fun q => okOf (nested rec q v)
        | none, none => none := by
  have tdecl : ∀ k, tagged env ps k = true → declared env ps k ≠ none := fun k hk =>
    tagged_declared ha (l := []) (by simp) hk
  have none_of_nil : rest = [] → ∀ k, declared env ps k = none → Dict.get? d k = none := by
    intro hn k hk
    have := h.left k
    rw [if_pos hk, hn] at this
    exact this.symm
  -- a model that holds `f v` for every value left
  have key : ∀ (m : Dict Str (Prim ω)) (f : Val → Option (Prim ω)),
      (∀ k, Dict.get? m k = match Dict.get? rest k with
        | some v => f v
        | none => Dict.get? self k) →
      (rest ≠ [] → ∀ k v, Dict.get? d k = some v → declared env ps k = none →
        f v = if open_ env ps then some (.raw v) else (others env ps).bind fun q => okOf (nested rec q v)) →
      ∀ k, Dict.get? m k =
        if tagged env ps k then some (namePrim (name.getD none)) else
        match declared env ps k, Dict.get? d k with
        | some p, some v => okOf (nested rec p v)
        | some _, none => (defaulted env ps k).bind fun p => okOf (nested rec p (env.node p).default)
        | none, some v =>
          if open_ env ps then some (.raw v) else (others env ps).bind fun q => okOf (nested rec q v)
        | none, none => none := by
    intro m f hm hf k
    rw [hm k, h.left k, h.props k]
    by_cases ht : tagged env ps k = true
    · rw [if_neg (tdecl k ht)]
      simp [ht]
    · simp only [ht, Bool.false_eq_true, if_false]
      unfold member
      cases hdc : declared env ps k with
      | some p => cases Dict.get? d k <;> simp
      | none =>
        simp only [if_true]
        cases hv : Dict.get? d k with
        | none => rfl
        | some v =>
          exact hf (fun hn => by rw [none_of_nil hn k hdc] at hv; cases hv) k v hv hdc
  unfold cleanup
  by_cases hp : ctx.addp = true
  · simp only [hp, if_true]
    refine ⟨_, _, rfl, WF_addRaw self h.wf rest, key _ (fun v => some (.raw v)) ?_ ?_⟩
    · exact get_addRaw self rest h.wfRest
    · intro hne k v _ _
      rw [← h.addp hne, hp, if_pos rfl]
  · simp only [hp, Bool.false_eq_true, if_false]
    have hp' : ctx.addp = false := by simpa using hp
    cases hs : ctx.addpSchema with
    | none =>
      refine ⟨_, _, rfl, h.wf, key self (fun _ => none) ?_ ?_⟩
      · intro k
        cases hr : Dict.get? rest k with
        | none => rfl
        | some v =>
          have hl := h.left k
          rw [hr] at hl
          by_cases hdc : declared env ps k = none
          · rw [h.props k]
            have ht : ¬ tagged env ps k = true := fun ht => tdecl k ht hdc
            simp [ht, member, hdc]
          · rw [if_neg hdc] at hl; cases hl
      · intro hne k v _ _
        have h1 := h.addp hne
        rw [hp'] at h1
        rcases h.addpSchema hne with ⟨_, h2⟩ | ⟨id, q, h2, _⟩
        · rw [← h1, h2]; simp
        · rw [hs] at h2; cases h2
    | some id =>
      obtain ⟨q, hq⟩ := h.valid id hs
      simp only [hq]
      have hqs : rest ≠ [] → open_ env ps = false ∧ others env ps = some q := by
        intro hne
        refine ⟨by rw [← h.addp hne, hp'], ?_⟩
        rcases h.addpSchema hne with ⟨h2, _⟩ | ⟨id', q', h2, h3, h4⟩
        · rw [hs] at h2; cases h2
        · rw [hs] at h2; cases h2
          rw [hq] at h3; cases h3
          exact h4
      obtain ⟨m, a1, a2, a3⟩ := addConverted_ok rec q rest h.wfRest self h.wf (by
        intro e he
        have hg := Dict.get?_of_mem h.wfRest (k := e.1) (v := e.2) he
        obtain ⟨h1, h2⟩ := hqs (List.ne_nil_of_mem he)
        rw [h.left] at hg
        by_cases hdc : declared env ps e.1 = none
        · rw [if_pos hdc] at hg
          exact ha.additional h1 q h2 e.1 e.2 hg hdc
        · rw [if_neg hdc] at hg; cases hg)
      rw [a1]
      refine ⟨m, _, rfl, a2, key m (fun v => okOf (nested rec q v)) a3 ?_⟩
      intro hne k v _ _
      obtain ⟨h1, h2⟩ := hqs hne
      rw [h1, h2]
      rfl

end Prim
