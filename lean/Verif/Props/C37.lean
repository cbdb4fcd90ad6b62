import Verif.Props.C36
/-!
# C37: read-only properties cannot be sent

`read = false` is the context of a request (`Parameter._prim_`), `read = true` that of a response.
-/

namespace Props.C37
open Py Prim

variable {ω : Type}

/-- the value sets a read-only property that the schema `j` declares -/
def SetsReadOnly (env : Env ω) (j : Nat) (d : Dict Str Val) : Prop :=
  ∃ k v p, Dict.get? d k = some v ∧ Dict.get? (env.node j).properties k = some p ∧
    (env.node p).readOnly = true

/-- a successful application in a write context set no read-only property -/
theorem modelApply_write (env : Env ω) (rec : Rec ω) (j : Nat) (self : Dict Str (Prim ω)) (v : Val)
    (ctx : Ctx) (hr : ctx.read = false) {s rest ctx'}
    (h : modelApply env rec j self v ctx = .ok (s, rest, ctx')) :
    ∃ d, v = .dict d ∧ rest = .dict (d.filter fun e => !Dict.has (env.node j).properties e.1) ∧
      ctx'.read = false ∧ ¬ SetsReadOnly env j d := by
  cases v with
  | dict d =>
    refine ⟨d, rfl, ?_⟩
    have hset : ∀ e ∈ d, Settable env rec (env.node j) ctx.read e.1 e.2 := by
      apply Classical.byContradiction
      intro hn
      obtain ⟨e, he, _⟩ := supplyAll_error env rec j d self ctx hn
      unfold modelApply at h
      simp only [bind, Except.bind, he] at h
      split at h <;> cases h
    have hread : ∀ (d : List (Str × Val)) (m : Dict Str (Prim ω)) (c : Ctx) m' c',
        supplyAll env rec j m c d = .ok (m', c') → c'.read = c.read := by
      intro d
      induction d with
      | nil => intro m c m' c' h; simp only [supplyAll, Except.ok.injEq, Prod.mk.injEq] at h; rw [← h.2]
      | cons e d ih =>
        obtain ⟨k0, v0⟩ := e
        intro m c m' c' h
        simp only [supplyAll, supply] at h
        cases hp : Dict.get? (env.node j).properties k0 with
        | none =>
          rw [hp] at h
          cases ha : (env.node j).additional <;> rw [ha] at h <;> simp only at h <;>
            (have := ih _ _ _ _ h; simpa using this)
        | some p =>
          rw [hp] at h
          simp only at h
          by_cases hr : (env.node p).readOnly = true ∧ c.read = false
          · rw [if_pos hr] at h; cases h
          · rw [if_neg hr] at h
            cases hx : nested rec p v0 with
            | error e => rw [hx] at h; cases h
            | ok x => rw [hx] at h; exact ih _ _ _ _ h
    have hno : ¬ SetsReadOnly env j d := by
      rintro ⟨k, v, p, hk, hp, hro⟩
      exact (hset (k, v) (Dict.mem_of_get? hk) p hp).1 ⟨hro, hr⟩
    unfold modelApply at h
    simp only [bind, Except.bind, pure, Except.pure] at h
    by_cases hsch : (env.node j).isSchema = false
    · rw [if_pos hsch] at h; cases h
    · rw [if_neg hsch] at h
      cases hsup : supplyAll env rec j self ctx d with
      | error e => rw [hsup] at h; cases h
      | ok r =>
        obtain ⟨s1, c1⟩ := r
        have hc1 := hread _ _ _ _ _ hsup
        rw [hsup] at h
        simp only at h
        cases hfill : fillDefaults env rec (env.node j) s1
            (env.order ((Dict.keys (env.node j).properties).filter fun k => !Dict.has s1 k)) with
        | error e => rw [hfill] at h; cases h
        | ok s2 =>
          rw [hfill] at h
          simp only at h
          by_cases hreq : ((env.node j).required.any fun k => !Dict.has s2 k) = true
          · rw [if_pos hreq] at h; cases h
          · rw [if_neg hreq] at h
            cases hdisc : (env.node j).discriminator with
            | none =>
              rw [hdisc] at h
              simp only [Except.ok.injEq, Prod.mk.injEq] at h
              exact ⟨h.2.1.symm, by rw [← h.2.2, hc1, hr], hno⟩
            | some k0 =>
              rw [hdisc] at h
              simp only at h
              cases hname : c1.name with
              | none => rw [hname] at h; cases h
              | some nm =>
                rw [hname] at h
                simp only [Except.ok.injEq, Prod.mk.injEq] at h
                exact ⟨h.2.1.symm, by rw [← h.2.2, hc1, hr], hno⟩
  | _ => cases h

/-- **C37** (writing). A request value for an object schema, with or without allOf, that sets a
read-only property of the schema is rejected, with `Exception` if the values of all declared
properties convert. -/
theorem C37_write (env : Env ω) (n id i : Nat) (d : Dict Str Val)
    (hd : env.deref id = .ok i) (hm : C36.ReadAsModel env i) (hs : SetsReadOnly env i d) :
    (∃ e, convert env (n + 1) id (.dict d) false = .error e) ∧
    (Dict.WF d → (∀ k v p, Dict.get? d k = some v → Dict.get? (env.node i).properties k = some p →
        ∃ x, convert env n p v true = .ok x) →
      convert env (n + 1) id (.dict d) false = .error .Exception) := by
  have hv : effective env id (.dict d) = .dict d := by simp [effective]
  have hset : ¬ ∀ e ∈ d, Settable env (produce env n) (env.node i) (topCtx env i false).read e.1 e.2 := by
    intro hall
    obtain ⟨k, v, p, hk, hp, hro⟩ := hs
    exact (hall (k, v) (Dict.mem_of_get? hk) p hp).1 ⟨hro, rfl⟩
  obtain ⟨e, he, q, hq, p, hp, hor⟩ := supplyAll_error env (produce env n) i d [] (topCtx env i false) hset
  have hap : modelApply env (produce env n) i [] (.dict d) (topCtx env i false) = .error e := by
    unfold modelApply
    simp only [hm.1, he, Bool.true_eq_false, if_false, bind, Except.bind]
  have hconv : convert env (n + 1) id (.dict d) false = .error e := by
    rw [convert_step env n id i (.dict d) false hd (by rw [hv]; simp), hv]
    obtain ⟨hs, ht | ⟨h1, h2⟩⟩ := hm
    · rw [first_typed env _ i _ _ ht.1 ht.2]
      simp only [create, hap]
    · have hno : ¬ ((env.node i).type ≠ none ∧ (env.node i).type ≠ some []) := by
        rcases h1 with h | h <;> simp [h]
      unfold first
      simp only
      rw [if_neg hno]
      simp only [hs, Bool.true_eq_false, if_false]
      rw [if_pos h2, hap]
  refine ⟨⟨e, hconv⟩, ?_⟩
  intro hw hall
  rw [hconv]
  rcases hor with ⟨_, _, rfl⟩ | hx
  · rfl
  · obtain ⟨x, hx'⟩ := hall q.1 q.2 p (Dict.get?_of_mem hw hq) hp
    have hx : convert env n p q.2 true = .error e := hx
    rw [hx'] at hx; cases hx

/-- the loop over allOf on a non-empty model in a write context -/
theorem loop_write (env : Env ω) (rec : Rec ω) (refs parts : List Nat)
    (href : List.Forall₂ (fun a j => env.deref a = .ok j) refs parts) (d : Dict Str Val)
    (qs : List Nat) (self : Dict Str (Prim ω)) (hne : self ≠ []) (rest : Dict Str Val)
    (hwr : Dict.WF rest)
    (hrest : ∀ k, Dict.get? rest k = if declared env qs k = none then Dict.get? d k else none)
    (ctx : Ctx) (hr : ctx.read = false) {r : Pass ω × List Nat}
    (h : allOfLoop env rec (.model self, .dict rest, ctx) [] refs = .ok r) :
    ∀ pre j post, parts = pre ++ j :: post → ∀ k v p, Dict.get? d k = some v →
      Dict.get? (env.node j).properties k = some p → (env.node p).readOnly = true →
      declared env (qs ++ pre) k ≠ none := by
  induction href generalizing qs self rest ctx with
  | nil =>
    intro pre j post hp
    simp at hp
  | @cons a j0 refs parts hd _ ih =>
    have ht : ∀ m : Dict Str (Prim ω), m ≠ [] → truthy (Prim.model m : Prim ω) = true := by
      intro m hm
      cases m with
      | nil => exact absurd rfl hm
      | cons => rfl
    rw [allOfLoop, hd] at h
    simp only [ht self hne, if_true, applyTo] at h
    cases hap : modelApply env rec j0 self (.dict rest) ctx with
    | error e => rw [hap] at h; cases h
    | ok q =>
      obtain ⟨s, rest', ctx'⟩ := q
      obtain ⟨d', hd', hrest', hr', hno⟩ := modelApply_write env rec j0 self _ ctx hr hap
      cases hd'
      have hne' : s ≠ [] := by
        intro hs
        subst hs
        obtain ⟨e, l', rfl⟩ := List.exists_cons_of_ne_nil hne
        have := (modelApply_keeps env rec j0 _ _ _ hap).2 e.1 (by simp [Dict.get?])
        simp [Dict.get?] at this
      rw [hap] at h
      simp only [ht s hne', if_true] at h
      subst hrest'
      have hrest2 : ∀ k, Dict.get? (rest.filter fun e => !Dict.has (env.node j0).properties e.1) k =
          if declared env (qs ++ [j0]) k = none then Dict.get? d k else none := by
        intro k
        rw [get_filter rest hwr (fun k => !Dict.has (env.node j0).properties k) k, declared_append, hrest k]
        cases hx : Dict.get? (env.node j0).properties k with
        | none => cases declared env qs k <;> simp [Dict.has, hx]
        | some p => cases declared env qs k <;> simp [Dict.has, hx]
      intro pre j post hp k v p hk hpk hro
      cases pre with
      | nil =>
        simp only [List.nil_append, List.cons.injEq] at hp
        obtain ⟨rfl, rfl⟩ := hp
        simp only [List.append_nil]
        intro hdc
        refine hno ⟨k, v, p, ?_, hpk, hro⟩
        rw [hrest k, if_pos hdc, hk]
      | cons a' pre =>
        simp only [List.cons_append, List.cons.injEq] at hp
        obtain ⟨rfl, rfl⟩ := hp
        have := ih (qs ++ [j0]) s hne' _ (WF_filter _ hwr _) hrest2 ctx' hr' h pre j post rfl k v p hk hpk hro
        simpa using this

/-- **C37** (writing, allOf). A request value for an object schema whose own declarations take at
least one supplied property: setting a read-only property of any part of the allOf (unless an
earlier part declares it) is rejected. -/
theorem C37_write_allOf (env : Env ω) (n id i : Nat) (d : Dict Str Val) (parts pre post : List Nat) (j : Nat)
    (hd : env.deref id = .ok i) (hm : C36.ReadAsModel env i)
    (hparts : List.Forall₂ (fun a j => env.deref a = .ok j) (env.node i).allOf parts)
    (hw : Dict.WF d) (hsplit : parts = pre ++ j :: post)
    (hne : ∃ k, Dict.get? d k ≠ none ∧ Dict.get? (env.node i).properties k ≠ none)
    {k : Str} {v : Val} {p : Nat} (hk : Dict.get? d k = some v)
    (hp : Dict.get? (env.node j).properties k = some p) (hro : (env.node p).readOnly = true)
    (hfirst : declared env (i :: pre) k = none) :
    ∃ e, convert env (n + 1) id (.dict d) false = .error e := by
  have hv : effective env id (.dict d) = .dict d := by simp [effective]
  rw [convert_step env n id i (.dict d) false hd (by rw [hv]; simp), hv]
  obtain ⟨sec, hsec⟩ := C36.first_model env (produce env n) i (.dict d) (topCtx env i false) hm
  cases hap : modelApply env (produce env n) i [] (.dict d) (topCtx env i false) with
  | error e =>
    refine ⟨e, ?_⟩
    obtain ⟨hs, ht | ⟨h1, h2⟩⟩ := hm
    · rw [first_typed env _ i _ _ ht.1 ht.2]
      simp only [create, hap]
    · have hno : ¬ ((env.node i).type ≠ none ∧ (env.node i).type ≠ some []) := by
        rcases h1 with h | h <;> simp [h]
      unfold first
      simp only
      rw [if_neg hno]
      simp only [hs, Bool.true_eq_false, if_false]
      rw [if_pos h2, hap]
  | ok q =>
    obtain ⟨s, rest, c⟩ := q
    rw [hsec s rest c hap]
    obtain ⟨d', hd', hrest, hr, _⟩ := modelApply_write env (produce env n) i [] _ _ rfl hap
    cases hd'
    subst hrest
    simp only [isFinalAtom, Bool.false_eq_true, if_false, applyAllOf]
    cases hl : allOfLoop env (produce env n) (.model s,
        .dict (d.filter fun e => !Dict.has (env.node i).properties e.1), { c with second := sec c }) []
        (env.node i).allOf with
    | error e => exact ⟨e, rfl⟩
    | ok r =>
      exfalso
      have hrest2 : ∀ k, Dict.get? (d.filter fun e => !Dict.has (env.node i).properties e.1) k =
          if declared env [i] k = none then Dict.get? d k else none := by
        intro k
        rw [get_filter d hw (fun k => !Dict.has (env.node i).properties k) k]
        cases hx : Dict.get? (env.node i).properties k <;> simp [Dict.has, hx, declared]
      have hs : s ≠ [] := by
        intro hs
        subst hs
        obtain ⟨k1, h1, h2⟩ := hne
        obtain ⟨v1, hv1⟩ := Option.ne_none_iff_exists'.1 h1
        obtain ⟨p1, hp1⟩ := Option.ne_none_iff_exists'.1 h2
        -- the property was set
        have hset : ∀ e ∈ d, Settable env (produce env n) (env.node i) (topCtx env i false).read e.1 e.2 := by
          apply Classical.byContradiction
          intro hn
          obtain ⟨e, he, _⟩ := supplyAll_error env (produce env n) i d [] (topCtx env i false) hn
          unfold modelApply at hap
          simp only [bind, Except.bind, he] at hap
          split at hap <;> cases hap
        obtain ⟨s1, e1, e2, e3⟩ := supplyAll_ok env (produce env n) i d hw [] Dict.WF_nil (topCtx env i false) hset
        have hs1 : Dict.get? s1 k1 ≠ none := by
          rw [e3 k1, hp1, hv1]
          obtain ⟨_, x, hx⟩ := hset (k1, v1) (Dict.mem_of_get? hv1) p1 hp1
          simp only at hx
          simp [hx, okOf]
        -- and stays
        have hk2 : ∀ (ks : List Str) (m m' : Dict Str (Prim ω)),
            fillDefaults env (produce env n) (env.node i) m ks = .ok m' → ∀ k, Dict.get? m k ≠ none →
              Dict.get? m' k ≠ none := by
          intro ks
          induction ks with
          | nil => intro m m' h k hk; simp only [fillDefaults, Except.ok.injEq] at h; rwa [← h]
          | cons k0 ks ih =>
            intro m m' h k hk
            simp only [fillDefaults] at h
            cases hp : Dict.get? (env.node i).properties k0 with
            | none => rw [hp] at h; exact ih _ _ h k hk
            | some p =>
              rw [hp] at h
              simp only at h
              by_cases hset : (env.node p).defaultSet = true
              · rw [if_pos hset] at h
                cases hx : nested (produce env n) p (env.node p).default with
                | error e => rw [hx] at h; cases h
                | ok x =>
                  rw [hx] at h
                  refine ih _ _ h k ?_
                  by_cases hkk : k = k0
                  · subst hkk; simp [Dict.get?_set_self]
                  · rwa [Dict.get?_set_ne _ _ hkk]
              · rw [if_neg hset] at h
                exact ih _ _ h k hk
        unfold modelApply at hap
        simp only [bind, Except.bind, pure, Except.pure, hm.1, Bool.true_eq_false, if_false, e1] at hap
        cases hfill : fillDefaults env (produce env n) (env.node i) s1
            (env.order ((Dict.keys (env.node i).properties).filter fun k => !Dict.has s1 k)) with
        | error e => rw [hfill] at hap; cases hap
        | ok s2 =>
          have h2 := hk2 _ _ _ hfill k1 hs1
          rw [hfill] at hap
          simp only at hap
          by_cases hreq : ((env.node i).required.any fun k => !Dict.has s2 k) = true
          · rw [if_pos hreq] at hap; cases hap
          · rw [if_neg hreq] at hap
            cases hdisc : (env.node i).discriminator with
            | none =>
              rw [hdisc] at hap
              simp only [Except.ok.injEq, Prod.mk.injEq] at hap
              rw [hap.1] at h2
              exact h2 rfl
            | some k0 =>
              rw [hdisc] at hap
              simp only at hap
              cases hname : (ctxAfter (env.node i) i d (topCtx env i false)).name with
              | none => rw [hname] at hap; cases hap
              | some nm =>
                rw [hname] at hap
                simp only [Except.ok.injEq, Prod.mk.injEq] at hap
                have : Dict.get? (Dict.set s2 k0 (namePrim nm : Prim ω)) k0 = some (namePrim nm) :=
                  Dict.get?_set_self _ _ _
                rw [hap.1] at this
                simp [Dict.get?] at this
      have := loop_write env (produce env n) _ parts hparts d [i] s hs _ (WF_filter _ hw _) hrest2
        { c with second := sec c } hr hl pre j post hsplit k v p hk hp hro
      exact this hfirst

/-- **C37** (reading). The same value may be read: when the value meets the other demands of the
schema, the model holds the read-only property, converted. -/
theorem C37_read (env : Env ω) (n id i : Nat) (d : Dict Str Val)
    (hd : env.deref id = .ok i) (hm : C36.ReadAsModel env i) (ha : (env.node i).allOf = [])
    (hw : Dict.WF d) (hp : Dict.WF (env.node i).properties) (ho : ∀ l, (env.order l).Perm l)
    (h : C36.Accepts env n i true d) {k : Str} {v : Val} {p : Nat} (hk : Dict.get? d k = some v)
    (hpk : Dict.get? (env.node i).properties k = some p) (hdisc : (env.node i).discriminator ≠ some k) :
    ∃ m x, convert env (n + 1) id (.dict d) true = .ok (.model m) ∧
      convert env n p v true = .ok x ∧ Dict.get? m k = some x := by
  obtain ⟨m, h1, _, h3⟩ := C36.C36_content env n id i d true hd hm ha hw hp ho h
  obtain ⟨x, hx⟩ := (h.supplied k v p hk hpk).2
  refine ⟨m, x, h1, hx, ?_⟩
  rw [h3 k]
  unfold C36.content
  rw [hpk, hk]
  simp only
  rw [if_neg hdisc, hx]
  rfl

/-! ## examples and refutations -/

/-- 0: an object with a read-only number; 2: an object that contains such an object -/
def objs : Nat → Node
  | 0 => { type := some c!"object", properties := [(c!"id", 1)] }
  | 1 => { type := some c!"integer", readOnly := true }
  | 2 => { type := some c!"object", properties := [(c!"sub", 0)] }
  | _ => { type := some c!"object", properties := [(c!"a", 4)], allOf := [0] }

example : SetsReadOnly (C33.world objs) 0 [(c!"id", .int 1)] ∧ C36.ReadAsModel (C33.world objs) 0 ∧
    convert (C33.world objs) 2 0 (.dict [(c!"id", .int 1)]) false = .error .Exception ∧
    convert (C33.world objs) 2 0 (.dict [(c!"id", .int 1)]) true = .ok (.model [(c!"id", .int 1)]) :=
  ⟨⟨c!"id", .int 1, 1, rfl, rfl, rfl⟩, ⟨rfl, Or.inl ⟨by decide, by decide⟩⟩, by rfl, by rfl⟩

example : List.Forall₂ (fun a j => (C33.world objs).deref a = .ok j) ((C33.world objs).node 3).allOf [0] ∧
    declared (C33.world objs) [3] c!"id" = none := ⟨List.Forall₂.cons rfl .nil, by decide⟩

/-- Read-only properties of nested objects can be sent. -/
theorem C37_nested_false :
    ¬ ∀ (node : Nat → Node) (k : Str) (p : Nat) (d : Dict Str Val),
      Dict.get? (node 2).properties k = some p → SetsReadOnly (C33.world node) p d →
      ∃ e, convert (C33.world node) 4 2 (.dict [(k, .dict d)]) false = .error e := by
  intro H
  obtain ⟨e, he⟩ := H objs c!"sub" 0 [(c!"id", .int 1)] rfl ⟨c!"id", .int 1, 1, rfl, rfl, rfl⟩
  have : convert (C33.world objs) 4 2 (.dict [(c!"sub", .dict [(c!"id", .int 1)])]) false =
    .ok (.model [(c!"sub", .model [(c!"id", .int 1)])]) := by rfl
  rw [this] at he; cases he

/-- Read-only properties of the elements of an array can be sent. -/
theorem C37_array_false :
    ¬ ∀ (node : Nat → Node) (p : Nat) (d : Dict Str Val), (node 7).type = some c!"array" →
      (node 7).items = some p → SetsReadOnly (C33.world node) p d →
      ∃ e, convert (C33.world node) 4 7 (.list [.dict d]) false = .error e := by
  intro H
  obtain ⟨e, he⟩ := H (fun i => if i = 7 then { type := some c!"array", items := some 0 } else objs i)
    0 [(c!"id", .int 1)] rfl rfl ⟨c!"id", .int 1, 1, rfl, rfl, rfl⟩
  have : convert (C33.world (fun i => if i = 7 then { type := some c!"array", items := some 0 } else objs i))
      4 7 (.list [.dict [(c!"id", .int 1)]]) false =
    .ok (.array c!"csv" [.model [(c!"id", .int 1)]]) := by rfl
  rw [this] at he; cases he

end Props.C37
