import Verif.Props.C36
import Verif.Proofs.PrimStack
/-! Lemmas about what a successful conversion by a schema and the parts of its allOf shows: where the entries of the
model come from. -/

namespace Prim
open Py Utils

variable {ω : Type} {env : Env ω} {rec : Rec ω}

theorem supplyAll_came {i : Nat} : ∀ {l : List (Str × Val)} {m m' : Dict Str (Prim ω)} {c c' : Ctx},
    supplyAll env rec i m c l = .ok (m', c') → Dict.WF m →
    Dict.WF m' ∧ c'.name = c.name ∧
    (∀ k x, Dict.get? m' k = some x → Dict.get? m k = some x ∨
      ∃ p v, Dict.get? (env.node i).properties k = some p ∧ (k, v) ∈ l ∧ nested rec p v = .ok x) ∧
    (∀ k, Dict.get? m k ≠ none → Dict.get? m' k ≠ none) ∧
    (∀ k v p, (k, v) ∈ l → Dict.get? (env.node i).properties k = some p → Dict.get? m' k ≠ none) ∧
    ((∀ q, (env.node i).additional ≠ .schema q) → c'.addpSchema = c.addpSchema)
  | [], m, m', c, c', h, hw => by
    simp only [supplyAll, Except.ok.injEq, Prod.mk.injEq] at h
    obtain ⟨rfl, rfl⟩ := h
    exact ⟨hw, rfl, fun _ _ h => .inl h, fun _ h => h, fun _ _ _ h => (by cases h), fun _ => rfl⟩
  | (k0, v0) :: l, m, m', c, c', h, hw => by
    simp only [supplyAll, supply] at h
    cases hp : Dict.get? (env.node i).properties k0 with
    | none =>
      rw [hp] at h
      have hmem : ∀ k v p, (k, v) ∈ (k0, v0) :: l → Dict.get? (env.node i).properties k = some p → (k, v) ∈ l := by
        intro k v p hm hk
        rcases List.mem_cons.1 hm with e | hm
        · cases e; rw [hp] at hk; cases hk
        · exact hm
      cases ha : (env.node i).additional with
      | schema q =>
        rw [ha] at h
        obtain ⟨h1, h2, h3, h4, h5, -⟩ := supplyAll_came h hw
        refine ⟨h1, h2, fun k x hk => (h3 k x hk).imp id ?_, h4, fun k v p hm hk => h5 k v p (hmem k v p hm hk) hk,
          fun hno => absurd rfl (hno q)⟩
        rintro ⟨p, v, a1, a2, a3⟩
        exact ⟨p, v, a1, List.mem_cons_of_mem _ a2, a3⟩
      | _ =>
        rw [ha] at h
        obtain ⟨h1, h2, h3, h4, h5, h6⟩ := supplyAll_came h hw
        refine ⟨h1, h2, fun k x hk => (h3 k x hk).imp id ?_, h4, fun k v p hm hk => h5 k v p (hmem k v p hm hk) hk,
          fun hno => h6 (by rw [ha]; exact hno)⟩
        rintro ⟨p, v, a1, a2, a3⟩
        exact ⟨p, v, a1, List.mem_cons_of_mem _ a2, a3⟩
    | some p0 =>
      rw [hp] at h
      simp only at h
      by_cases hr : (env.node p0).readOnly = true ∧ c.read = false
      · rw [if_pos hr] at h; cases h
      · rw [if_neg hr] at h
        cases hx : nested rec p0 v0 with
        | error e => rw [hx] at h; cases h
        | ok x0 =>
          rw [hx] at h
          obtain ⟨h1, h2, h3, h4, h5, h6⟩ := supplyAll_came h (Dict.WF_set hw _ _)
          have hset : ∀ k, k = k0 ∨ Dict.get? m k ≠ none → Dict.get? (Dict.set m k0 x0) k ≠ none := by
            intro k hk
            by_cases e : k = k0
            · subst e; simp [Dict.get?_set_self]
            · rw [Dict.get?_set_ne _ _ e]; exact hk.resolve_left e
          refine ⟨h1, h2, ?_, fun k hk => h4 k (hset k (.inr hk)), ?_, h6⟩
          · intro k x hk
            rcases h3 k x hk with h | ⟨p, v, a1, a2, a3⟩
            · by_cases e : k = k0
              · subst e
                rw [Dict.get?_set_self] at h
                cases h
                exact .inr ⟨p0, v0, hp, by simp, hx⟩
              · rw [Dict.get?_set_ne _ _ e] at h
                exact .inl h
            · exact .inr ⟨p, v, a1, List.mem_cons_of_mem _ a2, a3⟩
          · intro k v p hm hk
            rcases List.mem_cons.1 hm with e | hm
            · cases e; exact h4 _ (hset _ (.inl rfl))
            · exact h5 k v p hm hk

theorem fillDefaults_came {o : Node} : ∀ {ks : List Str} {m m' : Dict Str (Prim ω)},
    fillDefaults env rec o m ks = .ok m' → Dict.WF m →
    Dict.WF m' ∧ (∀ k x, Dict.get? m' k = some x → Dict.get? m k = some x ∨
      k ∈ ks ∧ ∃ p, Dict.get? o.properties k = some p ∧ (env.node p).defaultSet = true ∧
        nested rec p (env.node p).default = .ok x) ∧
    (∀ k, Dict.get? m k ≠ none → Dict.get? m' k ≠ none)
  | [], m, m', h, hw => by
    simp only [fillDefaults, Except.ok.injEq] at h
    subst h
    exact ⟨hw, fun _ _ h => .inl h, fun _ h => h⟩
  | k0 :: ks, m, m', h, hw => by
    simp only [fillDefaults] at h
    cases hp : Dict.get? o.properties k0 with
    | none =>
      rw [hp] at h
      obtain ⟨h1, h2, h3⟩ := fillDefaults_came h hw
      exact ⟨h1, fun k x hk => (h2 k x hk).imp id fun h => ⟨List.mem_cons_of_mem _ h.1, h.2⟩, h3⟩
    | some p0 =>
      rw [hp] at h
      simp only at h
      by_cases hset : (env.node p0).defaultSet = true
      · rw [if_pos hset] at h
        cases hx : nested rec p0 (env.node p0).default with
        | error e => rw [hx] at h; cases h
        | ok x0 =>
          rw [hx] at h
          obtain ⟨h1, h2, h3⟩ := fillDefaults_came h (Dict.WF_set hw _ _)
          refine ⟨h1, fun k x hk => ?_, fun k hk => h3 k ?_⟩
          · rcases h2 k x hk with h | h
            · by_cases e : k = k0
              · subst e
                rw [Dict.get?_set_self] at h
                cases h
                exact .inr ⟨by simp, p0, hp, hset, hx⟩
              · rw [Dict.get?_set_ne _ _ e] at h
                exact .inl h
            · exact .inr ⟨List.mem_cons_of_mem _ h.1, h.2⟩
          · by_cases e : k = k0
            · subst e; simp [Dict.get?_set_self]
            · rwa [Dict.get?_set_ne _ _ e]
      · rw [if_neg hset] at h
        obtain ⟨h1, h2, h3⟩ := fillDefaults_came h hw
        exact ⟨h1, fun k x hk => (h2 k x hk).imp id fun h => ⟨List.mem_cons_of_mem _ h.1, h.2⟩, h3⟩

/-- where an entry of a model comes from: a supplied value or a default by the schema of a part, or the name under the
discriminator of a part -/
def Entry (env : Env ω) (rec : Rec ω) (d : Dict Str Val) (qs : List Nat) (name : Option (Option Str)) (k : Str)
    (x : Prim ω) : Prop :=
  (∃ j ∈ qs, ∃ p v, Dict.get? (env.node j).properties k = some p ∧
    (Dict.get? d k = some v ∨ (env.node p).defaultSet = true ∧ v = (env.node p).default) ∧ nested rec p v = .ok x) ∨
  (∃ j ∈ qs, (env.node j).discriminator = some k ∧ ∃ nm, name = some nm ∧ x = namePrim nm)

theorem Entry.mono {d : Dict Str Val} {qs qs' : List Nat} {name : Option (Option Str)} {k : Str} {x : Prim ω}
    (h : Entry env rec d qs name k x) (hs : ∀ j ∈ qs, j ∈ qs') : Entry env rec d qs' name k x := by
  rcases h with ⟨j, h1, h2⟩ | ⟨j, h1, h2⟩
  · exact .inl ⟨j, hs j h1, h2⟩
  · exact .inr ⟨j, hs j h1, h2⟩

/-- a model after the schemas `qs` were applied to the value `d` -/
structure Came (env : Env ω) (rec : Rec ω) (d : Dict Str Val) (qs : List Nat) (name : Option (Option Str))
    (s : Dict Str (Prim ω)) (rest : Dict Str Val) (c : Ctx) : Prop where
  wf : Dict.WF s
  entries : ∀ k x, Dict.get? s k = some x → Entry env rec d qs name k x
  required : ∀ j ∈ qs, ∀ k ∈ (env.node j).required, Dict.get? s k ≠ none
  wfRest : Dict.WF rest
  left : ∀ k v, Dict.get? rest k = some v → Dict.get? d k = some v ∧ ∀ j ∈ qs, Dict.get? (env.node j).properties k = none
  supplied : ∀ k v, Dict.get? d k = some v → Dict.get? rest k = some v ∨ Dict.get? s k ≠ none
  /-- the name stands under the discriminators -/
  tags : ∀ j ∈ qs, ∀ k, (env.node j).discriminator = some k → Dict.get? (env.node j).properties k ≠ none →
    ∃ nm, name = some nm ∧ Dict.get? s k = some (namePrim nm)
  name : c.name = name
  schema : c.addpSchema = none

theorem filter_wf {V : Type} {d : Dict Str V} {f : Str × V → Bool} (h : Dict.WF d) : Dict.WF (d.filter f) := by
  unfold Dict.WF Dict.keys at h ⊢
  exact (List.Sublist.map _ List.filter_sublist).nodup h

theorem modelApply_came {d : Dict Str Val} {qs : List Nat} {name : Option (Option Str)} {s s' : Dict Str (Prim ω)}
    {rest : Dict Str Val} {rest' : Val} {c c' : Ctx} {j : Nat} (hc : Came env rec d qs name s rest c)
    (hord : ∀ l, (env.order l).Perm l) (hadd : ∀ q, (env.node j).additional ≠ .schema q)
    (h : modelApply env rec j s (.dict rest) c = .ok (s', rest', c')) :
    ∃ r, rest' = .dict r ∧ Came env rec d (qs ++ [j]) name s' r c' ∧ (s ≠ [] → s' ≠ []) := by
  have hkeep := modelApply_keeps env rec j s _ c h
  unfold modelApply at h
  simp only [bind, Except.bind, pure, Except.pure] at h
  by_cases hsch : (env.node j).isSchema = false
  · rw [if_pos hsch] at h; cases h
  rw [if_neg hsch] at h
  cases hsup : supplyAll env rec j s c rest with
  | error e => rw [hsup] at h; cases h
  | ok r =>
  obtain ⟨s1, c1⟩ := r
  rw [hsup] at h
  simp only at h
  cases hfill : fillDefaults env rec (env.node j) s1
      (env.order ((Dict.keys (env.node j).properties).filter fun k => !Dict.has s1 k)) with
  | error e => rw [hfill] at h; cases h
  | ok s2 =>
  rw [hfill] at h
  simp only at h
  by_cases hreq : ((env.node j).required.any fun k => !Dict.has s2 k) = true
  · rw [if_pos hreq] at h; cases h
  rw [if_neg hreq] at h
  obtain ⟨a1, a2, a3, a4, a5, a6⟩ := supplyAll_came hsup hc.wf
  obtain ⟨b1, b2, b3⟩ := fillDefaults_came hfill a1
  have hent : ∀ k x, Dict.get? s2 k = some x → Entry env rec d (qs ++ [j]) name k x := by
    intro k x hk
    rcases b2 k x hk with h | ⟨-, p, h1, h2, h3⟩
    · rcases a3 k x h with h | ⟨p, v, h1, h2, h3⟩
      · exact (hc.entries k x h).mono (fun i hi => List.mem_append_left _ hi)
      · exact .inl ⟨j, by simp, p, v, h1, .inl (hc.left k v (Dict.get?_of_mem hc.wfRest h2)).1, h3⟩
    · exact .inl ⟨j, by simp, p, _, h1, .inr ⟨h2, rfl⟩, h3⟩
  have same : ∀ i ∈ qs, ∀ k, Dict.get? (env.node i).properties k ≠ none → ∀ x, Dict.get? s k = some x →
      Dict.get? s2 k = some x := by
    intro i hi k hp x hx
    obtain ⟨y, hy⟩ := Option.ne_none_iff_exists'.1 (a4 k (by rw [hx]; simp))
    have hyx : y = x := by
      rcases a3 k y hy with h | ⟨p, v, -, h2, -⟩
      · rw [hx] at h; exact (Option.some.inj h).symm
      · exact absurd ((hc.left k v (Dict.get?_of_mem hc.wfRest h2)).2 i hi) hp
    subst hyx
    obtain ⟨z, hz⟩ := Option.ne_none_iff_exists'.1 (b3 k (by rw [hy]; simp))
    rcases b2 k z hz with h | ⟨h, -⟩
    · rw [hy] at h; rw [hz, ← h]
    · have := (List.mem_filter.1 ((hord _).mem_iff.1 h)).2
      simp [Dict.has, hy] at this
  have key : ∀ s'', Dict.WF s'' → (∀ k x, Dict.get? s'' k = some x → Entry env rec d (qs ++ [j]) name k x) →
      (∀ k, Dict.get? s2 k ≠ none → Dict.get? s'' k ≠ none) →
      (∀ i ∈ qs ++ [j], ∀ k, (env.node i).discriminator = some k → Dict.get? (env.node i).properties k ≠ none →
        ∃ nm, name = some nm ∧ Dict.get? s'' k = some (namePrim nm)) → s' = s'' →
      rest' = .dict (rest.filter fun e => !Dict.has (env.node j).properties e.1) → c' = c1 →
      ∃ r, rest' = .dict r ∧ Came env rec d (qs ++ [j]) name s' r c' ∧ (s ≠ [] → s' ≠ []) := by
    rintro s'' hw he hk ht rfl hr rfl
    refine ⟨_, hr, ⟨hw, he, ?_, filter_wf hc.wfRest, ?_, ?_, ht, a2.trans hc.name, (a6 hadd).trans hc.schema⟩, ?_⟩
    · intro i hi k hik
      rcases List.mem_append.1 hi with hi | hi
      · exact hkeep.2 k (hc.required i hi k hik)
      · rw [List.mem_singleton.1 hi] at hik
        exact hkeep.1 k hik
    · intro k v hkv
      have hm := List.mem_filter.1 (Dict.mem_of_get? hkv)
      obtain ⟨h1, h2⟩ := hc.left k v (Dict.get?_of_mem hc.wfRest hm.1)
      refine ⟨h1, fun i hi => ?_⟩
      rcases List.mem_append.1 hi with hi | hi
      · exact h2 i hi
      · rw [List.mem_singleton.1 hi]
        have h3 := hm.2
        cases hp : Dict.get? (env.node j).properties k with
        | none => rfl
        | some p => simp [Dict.has, hp] at h3
    · intro k v hd
      rcases hc.supplied k v hd with hr' | hs'
      · cases hp : Dict.get? (env.node j).properties k with
        | none =>
          refine .inl (Dict.get?_of_mem (filter_wf hc.wfRest) (List.mem_filter.2 ⟨Dict.mem_of_get? hr', ?_⟩))
          simp [Dict.has, hp]
        | some p => exact .inr (hk k (b3 k (a5 k v p (Dict.mem_of_get? hr') hp)))
      · exact .inr (hkeep.2 k hs')
    · intro hne
      cases hs : s with
      | nil => exact absurd hs hne
      | cons e t =>
        have := hkeep.2 e.1 (by rw [hs, Dict.get?]; simp)
        intro e'
        rw [e'] at this
        exact this rfl
  cases hdisc : (env.node j).discriminator with
  | none =>
    rw [hdisc] at h
    simp only [Except.ok.injEq, Prod.mk.injEq] at h
    refine key s2 b1 hent (fun _ h => h) (fun i hi k hk hp => ?_) h.1.symm h.2.1.symm h.2.2.symm
    rcases List.mem_append.1 hi with hi | hi
    · obtain ⟨nm, h1, h2⟩ := hc.tags i hi k hk hp
      exact ⟨nm, h1, same i hi k hp _ h2⟩
    · rw [List.mem_singleton.1 hi, hdisc] at hk; cases hk
  | some k0 =>
    rw [hdisc] at h
    simp only at h
    cases hname : c1.name with
    | none => rw [hname] at h; cases h
    | some nm =>
      rw [hname] at h
      simp only [Except.ok.injEq, Prod.mk.injEq] at h
      refine key _ (Dict.WF_set b1 _ _) ?_ ?_ ?_ h.1.symm h.2.1.symm h.2.2.symm
      · intro k x hk
        by_cases e : k = k0
        · subst e
          rw [Dict.get?_set_self] at hk
          cases hk
          exact .inr ⟨j, by simp, hdisc, nm, by rw [← hc.name, ← a2, hname], rfl⟩
        · rw [Dict.get?_set_ne _ _ e] at hk
          exact hent k x hk
      · intro k hk
        by_cases e : k = k0
        · subst e; simp [Dict.get?_set_self]
        · rwa [Dict.get?_set_ne _ _ e]
      · intro i hi k hk hp
        by_cases e : k = k0
        · subst e
          exact ⟨nm, by rw [← hc.name, ← a2, hname], Dict.get?_set_self ..⟩
        · rcases List.mem_append.1 hi with hi | hi
          · obtain ⟨nm', h1, h2⟩ := hc.tags i hi k hk hp
            exact ⟨nm', h1, by rw [Dict.get?_set_ne _ _ e]; exact same i hi k hp _ h2⟩
          · rw [List.mem_singleton.1 hi, hdisc] at hk
            exact absurd (Option.some.inj hk).symm e

/-- what the model of a conversion by the schemas `ps` holds: entries of the parts, and entries of the value no part
declares, as they are -/
structure Made (env : Env ω) (rec : Rec ω) (d : Dict Str Val) (ps : List Nat) (name : Option (Option Str))
    (m : Dict Str (Prim ω)) : Prop where
  wf : Dict.WF m
  entries : ∀ k x, Dict.get? m k = some x → Entry env rec d ps name k x ∨
    ∃ v, x = .raw v ∧ Dict.get? d k = some v ∧ ∀ j ∈ ps, Dict.get? (env.node j).properties k = none
  required : ∀ j ∈ ps, ∀ k ∈ (env.node j).required, Dict.get? m k ≠ none
  tags : ∀ j ∈ ps, ∀ k, (env.node j).discriminator = some k → Dict.get? (env.node j).properties k ≠ none →
    ∃ nm, name = some nm ∧ Dict.get? m k = some (namePrim nm)

theorem addRaw_came : ∀ {l : List (Str × Val)} {m : Dict Str (Prim ω)}, Dict.WF m →
    Dict.WF (addRaw m l) ∧ (∀ k x, Dict.get? (addRaw m l) k = some x → Dict.get? m k = some x ∨
      ∃ v, x = .raw v ∧ (k, v) ∈ l) ∧
    ∀ k, k ∉ l.map Prod.fst → Dict.get? (addRaw m l) k = Dict.get? m k
  | [], m, hw => ⟨hw, fun _ _ h => .inl h, fun _ _ => rfl⟩
  | (k0, v0) :: l, m, hw => by
    obtain ⟨h1, h2, h3⟩ := addRaw_came (l := l) (Dict.WF_set hw k0 (.raw v0))
    refine ⟨h1, fun k x hk => ?_, fun k hk => ?_⟩
    rotate_left
    · simp only [List.map_cons, List.mem_cons, not_or] at hk
      exact (h3 k hk.2).trans (Dict.get?_set_ne _ _ hk.1)
    rcases h2 k x hk with h | ⟨v, h, h'⟩
    · by_cases e : k = k0
      · subst e
        rw [Dict.get?_set_self] at h
        cases h
        exact .inr ⟨v0, rfl, by simp⟩
      · rw [Dict.get?_set_ne _ _ e] at h
        exact .inl h
    · exact .inr ⟨v, h, List.mem_cons_of_mem _ h'⟩

theorem cleanup_came {d : Dict Str Val} {qs : List Nat} {name : Option (Option Str)} {s m : Dict Str (Prim ω)}
    {rest : Dict Str Val} {c c' : Ctx} (hc : Came env rec d qs name s rest c)
    (h : cleanup env rec s (.dict rest) c = .ok (m, c')) :
    Made env rec d qs name m ∧ c'.addp = false ∧ c'.addpSchema = none := by
  have hkeep := cleanup_keeps env rec s _ c h
  unfold cleanup at h
  by_cases ha : c.addp = true
  · rw [if_pos ha] at h
    simp only [Except.ok.injEq, Prod.mk.injEq] at h
    obtain ⟨rfl, rfl⟩ := h
    obtain ⟨h1, h2, h3⟩ := addRaw_came (l := rest) hc.wf
    refine ⟨⟨h1, fun k x hk => ?_, fun j hj k hk => hkeep k (hc.required j hj k hk), fun j hj k hk hp => ?_⟩, rfl, hc.schema⟩
    rotate_left
    · obtain ⟨nm, g1, g2⟩ := hc.tags j hj k hk hp
      refine ⟨nm, g1, ?_⟩
      rw [h3 k, g2]
      intro hmem
      obtain ⟨⟨k', v⟩, hv, rfl⟩ := List.mem_map.1 hmem
      exact hp ((hc.left k' v (Dict.get?_of_mem hc.wfRest hv)).2 j hj)
    rcases h2 k x hk with h | ⟨v, h, h'⟩
    · exact .inl (hc.entries k x h)
    · exact .inr ⟨v, h, hc.left k v (Dict.get?_of_mem hc.wfRest h')⟩
  · rw [if_neg ha, hc.schema] at h
    simp only [Except.ok.injEq, Prod.mk.injEq] at h
    obtain ⟨rfl, rfl⟩ := h
    exact ⟨⟨hc.wf, fun k x hk => .inl (hc.entries k x hk), hc.required, hc.tags⟩, by simpa using ha, hc.schema⟩

/-- the parts applied to a model that holds something -/
theorem allOfLoop_came {d : Dict Str Val} {name : Option (Option Str)} (hord : ∀ l, (env.order l).Perm l) :
    ∀ {l : List Nat} {qs : List Nat} {s : Dict Str (Prim ω)} {rest : Dict Str Val} {c : Ctx} {p : Pass ω} {sk : List Nat},
    (∀ a ∈ l, ∀ j, env.deref a = .ok j → ∀ q, (env.node j).additional ≠ .schema q) →
    Came env rec d qs name s rest c → s ≠ [] → allOfLoop env rec (.model s, .dict rest, c) [] l = .ok (p, sk) →
    ∃ ps s' r c', p = (.model s', .dict r, c') ∧ sk = [] ∧ s' ≠ [] ∧
      List.Forall₂ (fun a j => env.deref a = .ok j) l ps ∧ Came env rec d (qs ++ ps) name s' r c'
  | [], qs, s, rest, c, p, sk, _, hc, hne, h => by
    simp only [allOfLoop, Except.ok.injEq, Prod.mk.injEq] at h
    obtain ⟨rfl, rfl⟩ := h
    exact ⟨[], s, rest, c, rfl, rfl, hne, .nil, by simpa using hc⟩
  | a :: l, qs, s, rest, c, p, sk, hno, hc, hne, h => by
    have ht : ∀ {s : Dict Str (Prim ω)}, s ≠ [] → truthy (Prim.model s : Prim ω) = true := by
      intro s hs
      cases s with
      | nil => exact absurd rfl hs
      | cons => rfl
    rw [allOfLoop] at h
    cases hd : env.deref a with
    | error e => rw [hd] at h; cases h
    | ok j =>
      rw [hd] at h
      simp only [ht hne, if_true, applyTo] at h
      cases hm : modelApply env rec j s (.dict rest) c with
      | error e => rw [hm] at h; cases h
      | ok q =>
        obtain ⟨s1, r1, c1⟩ := q
        rw [hm] at h
        obtain ⟨r, rfl, hc', hne'⟩ := modelApply_came hc hord (hno a (by simp) j hd) hm
        simp only [ht (hne' hne), if_true] at h
        obtain ⟨ps, s', r', c', h1, h2, h3, h4, h5⟩ := allOfLoop_came hord
          (fun b hb => hno b (List.mem_cons_of_mem _ hb)) hc' (hne' hne) h
        exact ⟨j :: ps, s', r', c', h1, h2, h3, .cons hd h4, by simpa using h5⟩

theorem first_map {i : Nat} (hm : Props.C36.ReadAsModel env i) : ∃ sc : Option Handler, ∀ (rec : Rec ω) (v : Val) (c : Ctx),
    first env rec i v c = (modelApply env rec i [] v c).map fun r =>
      (.model r.1, r.2.1, { r.2.2 with second := sc.or r.2.2.second }) := by
  obtain ⟨hs, ht | ⟨h1, h2⟩⟩ := hm
  · refine ⟨some .model, fun rec v c => ?_⟩
    rw [first_typed env _ i _ _ ht.1 ht.2]
    simp only [create]
    cases modelApply env rec i [] v c <;> rfl
  · refine ⟨none, fun rec v c => ?_⟩
    have hno : ¬ ((env.node i).type ≠ none ∧ (env.node i).type ≠ some []) := by
      rcases h1 with h | h <;> simp [h]
    unfold first
    simp only
    rw [if_neg hno]
    simp only [hs, Bool.true_eq_false, if_false]
    rw [if_pos h2]
    cases modelApply env rec i [] v c <;> rfl

theorem Came.start {d : Dict Str Val} {c : Ctx} (hw : Dict.WF d) (hs : c.addpSchema = none) :
    Came env rec d [] c.name [] d c :=
  ⟨Dict.WF_nil, fun _ _ h => (by cases h), fun _ h => (by cases h), hw, fun _ _ h => ⟨h, fun _ h => (by cases h)⟩,
    fun _ _ h => .inl h, fun _ h => (by cases h), rfl, hs⟩

theorem Came.ctx {d : Dict Str Val} {qs : List Nat} {name : Option (Option Str)} {s : Dict Str (Prim ω)}
    {rest : Dict Str Val} {c c' : Ctx} (h : Came env rec d qs name s rest c) (h1 : c'.name = c.name)
    (h2 : c'.addpSchema = c.addpSchema) : Came env rec d qs name s rest c' :=
  ⟨h.wf, h.entries, h.required, h.wfRest, h.left, h.supplied, h.tags, h1.trans h.name, h2.trans h.schema⟩

theorem nested_deeper {n : Nat} {p : Nat} {v : Val} {x : Prim ω} (h : nested (produce env n) p v = .ok x) :
    nested (produce env (n + 1)) p v = .ok x := by
  rw [Props.C36.nested_eq] at h ⊢
  exact convert_deeper env (Nat.le_succ n) p v true h (by simp)

theorem Made.deeper {n : Nat} {d : Dict Str Val} {ps : List Nat} {name : Option (Option Str)} {m : Dict Str (Prim ω)}
    (h : Made env (produce env n) d ps name m) : Made env (produce env (n + 1)) d ps name m := by
  refine ⟨h.wf, fun k x hk => (h.entries k x hk).imp (fun he => ?_) id, h.required, h.tags⟩
  rcases he with ⟨j, h1, p, v, h2, h3, h4⟩ | he
  · exact .inl ⟨j, h1, p, v, h2, h3, nested_deeper h4⟩
  · exact .inr he

/-- what a successful conversion by an object schema and the parts of its allOf gives -/
theorem convert_parts {n id i : Nat} {d : Dict Str Val} {read : Bool} {x : Prim ω} (hd : env.deref id = .ok i)
    (hm : Props.C36.ReadAsModel env i) (hw : Dict.WF d) (hname : (env.node i).name ≠ none)
    (hord : ∀ l, (env.order l).Perm l) (hadd : ∀ q, (env.node i).additional ≠ .schema q)
    (hparts : ∀ a ∈ (env.node i).allOf, ∀ j, env.deref a = .ok j → (∀ q, (env.node j).additional ≠ .schema q) ∧
      Props.C36.ReadAsModel env j ∧ (env.node j).allOf = [] ∧ env.deref j = .ok j)
    (hne : (∃ k ∈ (env.node i).required, Dict.get? (env.node i).properties k ≠ none) ∨ ∃ a, (env.node i).allOf = [a])
    (h : convert env (n + 1) id (.dict d) read = .ok x) :
    ∃ m ps, x = .model m ∧ List.Forall₂ (fun a j => env.deref a = .ok j) (env.node i).allOf ps ∧
      Made env (produce env n) d (i :: ps) (env.node i).name m := by
  have hv : effective env id (.dict d) = .dict d := by simp [effective]
  rw [convert_step env n id i (.dict d) read hd (by rw [hv]; simp), hv] at h
  obtain ⟨sc, hfm⟩ := first_map hm
  rw [hfm] at h
  cases hma : modelApply env (produce env n) i [] (.dict d) (topCtx env i read) with
  | error e => rw [hma] at h; cases h
  | ok q =>
  obtain ⟨s, rest, c⟩ := q
  rw [hma] at h
  simp only [Except.map, isFinalAtom, Bool.false_eq_true, if_false] at h
  obtain ⟨r, rfl, hc, -⟩ := modelApply_came (Came.start (rec := produce env n) hw rfl) hord hadd hma
  simp only [List.nil_append] at hc
  have hkeep := modelApply_keeps env _ i [] _ _ hma
  have hc2 : Came env (produce env n) d [i] (env.node i).name s r { c with second := sc.or c.second } := hc.ctx rfl rfl
  generalize { c with second := sc.or c.second } = c2 at h hc2
  unfold applyAllOf at h
  by_cases hs : s = []
  · subst hs
    obtain ⟨a, ha⟩ : ∃ a, (env.node i).allOf = [a] := by
      rcases hne with ⟨k, h1, -⟩ | h
      · exact absurd rfl (hkeep.1 k h1)
      · exact h
    rw [ha] at h ⊢
    rw [allOfLoop] at h
    cases hda : env.deref a with
    | error e => rw [hda] at h; cases h
    | ok j =>
    rw [hda] at h
    simp only [truthy, List.isEmpty_nil, Bool.not_true, Bool.false_eq_true, if_false] at h
    obtain ⟨p1, p2, p3, p4⟩ := hparts a (by rw [ha]; simp) j hda
    cases hrec : produce env n j (.dict r) c2 with
    | error e => rw [hrec] at h; cases h
    | ok q =>
    obtain ⟨y, c3⟩ := q
    rw [hrec] at h
    cases n with
    | zero => cases hrec
    | succ n =>
    have hpb : produce env (n + 1) = produceBody env (produce env n) := rfl
    rw [hpb] at hrec
    generalize hrec' : produce env n = rec at hrec
    unfold produceBody at hrec
    simp only [p4, reduceCtorEq, if_false] at hrec
    cases hg : CycleGuard.update c2.guard j with
    | error e => rw [hg] at hrec; cases hrec
    | ok g =>
    rw [hg] at hrec
    obtain ⟨sc2, hfm2⟩ := first_map p2
    simp only [hfm2] at hrec
    have hc4 : Came env rec d [i] (env.node i).name [] r
        { c2 with name := c2.name.or (env.node j).name, guard := g } := by
      refine ⟨Dict.WF_nil, fun _ _ h => (by cases h), ?_, hc2.wfRest, hc2.left, hc2.supplied, hc2.tags, ?_, hc2.schema⟩
      · intro j' hj' k hk
        exact hc2.required j' hj' k hk
      · show c2.name.or (env.node j).name = _
        rw [hc2.name]
        cases hn : (env.node i).name with
        | none => exact absurd hn hname
        | some _ => rfl
    generalize { c2 with name := c2.name.or (env.node j).name, guard := g } = c4 at hrec hc4
    cases hma2 : modelApply env rec j [] (.dict r) c4 with
    | error e => rw [hma2] at hrec; cases hrec
    | ok q =>
    obtain ⟨s5, rest5, c5⟩ := q
    rw [hma2] at hrec
    simp only [Except.map, isFinalAtom, Bool.false_eq_true, if_false, applyAllOf_nil env rec j _ p3] at hrec
    obtain ⟨r5, rfl, hc5, -⟩ := modelApply_came hc4 hord p1 hma2
    have hc6 : Came env rec d ([i] ++ [j]) (env.node i).name s5 r5 { c5 with second := sc2.or c5.second } := hc5.ctx rfl rfl
    generalize { c5 with second := sc2.or c5.second } = c6 at hrec hc6
    unfold finish at hrec
    cases hcl : cleanup env rec s5 (.dict r5) c6 with
    | error e => simp only [hcl] at hrec; cases hrec
    | ok q =>
    obtain ⟨m, c7⟩ := q
    simp only [hcl, Except.ok.injEq, Prod.mk.injEq] at hrec
    obtain ⟨rfl, rfl⟩ := hrec
    obtain ⟨hmade, k1, k2⟩ := cleanup_came hc6 hcl
    subst hrec'
    have hfin : ∀ (v : Val), finish env (produce env (n + 1)) (.model m, v, c7) = .ok (.model m, c7) := by
      intro v
      simp only [finish, cleanup, k1, k2, Bool.false_eq_true, if_false]
    refine ⟨m, [j], ?_, .cons hda .nil, hmade.deeper⟩
    simp only [allOfLoop] at h
    cases m with
    | nil =>
      simp only [List.isEmpty_nil, Bool.not_true, Bool.false_eq_true, if_false, hfin, Except.ok.injEq] at h
      exact h.symm
    | cons e t =>
      simp only [List.isEmpty_cons, Bool.not_false, if_true, applyLeft, hfin, Except.ok.injEq] at h
      exact h.symm
  · cases hl : allOfLoop env (produce env n) (.model s, .dict r, c2) [] (env.node i).allOf with
    | error e => rw [hl] at h; cases h
    | ok q =>
    obtain ⟨p, sk⟩ := q
    obtain ⟨ps, s', r', c', rfl, rfl, h3, h4, h5⟩ := allOfLoop_came hord (fun a ha j hj => (hparts a ha j hj).1) hc2 hs hl
    rw [hl] at h
    have ht : truthy (Prim.model s' : Prim ω) = true := by
      cases s' with
      | nil => exact absurd rfl h3
      | cons => rfl
    simp only [ht, if_true, applyLeft, finish] at h
    cases hcl : cleanup env (produce env n) s' (.dict r') c' with
    | error e => rw [hcl] at h; cases h
    | ok q =>
      obtain ⟨m, c7⟩ := q
      rw [hcl] at h
      simp only [Except.ok.injEq] at h
      exact ⟨m, ps, h.symm, h4, (cleanup_came h5 hcl).1⟩

end Prim
