import Verif.Proofs.Prim
import Verif.Proofs.Dict
/-! Lemmas about `Model.apply_with` and `cleanup`. -/

namespace Prim
open Py Utils

variable {ω : Type}

/-- the value of a successful computation -/
def okOf {α : Type} : Except Exc α → Option α
  | .ok x => some x
  | .error _ => none

/-- a supplied declared property can be set -/
def Settable (env : Env ω) (rec : Rec ω) (o : Node) (read : Bool) (k : Str) (v : Val) : Prop :=
  ∀ p, Dict.get? o.properties k = some p →
    ¬ ((env.node p).readOnly = true ∧ read = false) ∧ ∃ x, nested rec p v = .ok x

/-- an undeclared property is supplied -/
def hasOther (o : Node) (d : List (Str × Val)) : Bool := d.any fun e => !Dict.has o.properties e.1

/-- the context after the loop over supplied properties -/
def ctxAfter (o : Node) (id : Nat) (d : List (Str × Val)) (ctx : Ctx) : Ctx :=
  if hasOther o d then
    match o.additional with
    | .yes => { ctx with addp := true }
    | .schema _ => { ctx with addpSchema := some id }
    | .no => ctx
  else ctx

theorem has_false_of_none {α β : Type} [DecidableEq α] {d : Dict α β} {k : α} (h : Dict.get? d k = none) :
    Dict.has d k = false := by simp [Dict.has, h]

theorem has_true_of_some {α β : Type} [DecidableEq α] {d : Dict α β} {k : α} {v : β}
    (h : Dict.get? d k = some v) : Dict.has d k = true := by simp [Dict.has, h]

theorem ctxAfter_cons_declared {o : Node} {id : Nat} {k : Str} {v : Val} {l : List (Str × Val)} {ctx : Ctx}
    (h : Dict.has o.properties k = true) : ctxAfter o id ((k, v) :: l) ctx = ctxAfter o id l ctx := by
  have e : hasOther o ((k, v) :: l) = hasOther o l := by
    show (!Dict.has o.properties k || hasOther o l) = _
    rw [h]; rfl
  unfold ctxAfter
  rw [e]

theorem ctxAfter_read (o : Node) (id : Nat) (d : List (Str × Val)) (ctx : Ctx) :
    (ctxAfter o id d ctx).read = ctx.read ∧ (ctxAfter o id d ctx).name = ctx.name ∧
    (ctxAfter o id d ctx).second = ctx.second ∧ (ctxAfter o id d ctx).guard = ctx.guard := by
  unfold ctxAfter
  split
  · split <;> exact ⟨rfl, rfl, rfl, rfl⟩
  · exact ⟨rfl, rfl, rfl, rfl⟩

theorem supplyAll_ok (env : Env ω) (rec : Rec ω) (id : Nat) (d : List (Str × Val)) (hd : Dict.WF d)
    (self : Dict Str (Prim ω)) (hs : Dict.WF self) (ctx : Ctx)
    (h : ∀ e ∈ d, Settable env rec (env.node id) ctx.read e.1 e.2) :
    ∃ self', supplyAll env rec id self ctx d = .ok (self', ctxAfter (env.node id) id d ctx) ∧
      Dict.WF self' ∧
      ∀ k, Dict.get? self' k =
        match Dict.get? (env.node id).properties k, Dict.get? d k with
        | some p, some v => okOf (nested rec p v)
        | _, _ => Dict.get? self k := by
  induction d generalizing self ctx with
  | nil =>
    refine ⟨self, rfl, hs, ?_⟩
    intro k
    cases Dict.get? (env.node id).properties k <;> rfl
  | cons e d ih =>
    obtain ⟨k0, v0⟩ := e
    have hd' : Dict.WF d := by
      unfold Dict.WF Dict.keys at hd ⊢
      exact (List.nodup_cons.1 hd).2
    have hk0 : Dict.get? d k0 = none := by
      rw [Dict.get?_eq_none_iff]
      unfold Dict.WF Dict.keys at hd
      exact (List.nodup_cons.1 hd).1
    have h0 := h _ (List.mem_cons_self ..)
    cases hp : Dict.get? (env.node id).properties k0 with
    | some p =>
      obtain ⟨hr, x, hx⟩ := h0 p hp
      obtain ⟨self', e1, e2, e3⟩ := ih hd' (Dict.set self k0 x) (Dict.WF_set hs _ _) ctx
        (fun e he => h e (List.mem_cons_of_mem _ he))
      refine ⟨self', ?_, e2, ?_⟩
      · simp only [supplyAll, supply, hp, hx, if_neg hr]
        rw [e1, ctxAfter_cons_declared (has_true_of_some hp)]
      · intro k
        rw [e3 k]
        by_cases hk : k = k0
        · subst hk
          simp [hp, hk0, Dict.get?, Dict.get?_set_self, hx, okOf]
        · have hk' : k0 ≠ k := fun h => hk h.symm
          simp only [Dict.get?, if_neg hk', Dict.get?_set_ne _ _ hk]
    | none =>
      have hh := has_false_of_none hp
      -- the context after this round
      have key : ∃ ctx', supply env rec id self ctx k0 v0 = .ok (self, ctx') ∧ ctx'.read = ctx.read ∧
          ctxAfter (env.node id) id d ctx' = ctxAfter (env.node id) id ((k0, v0) :: d) ctx := by
        unfold supply
        simp only [hp]
        cases ha : (env.node id).additional with
        | yes =>
          refine ⟨_, rfl, rfl, ?_⟩
          unfold ctxAfter hasOther
          simp [hh, ha]
        | no =>
          refine ⟨_, rfl, rfl, ?_⟩
          unfold ctxAfter hasOther
          simp [hh, ha]
        | schema p =>
          refine ⟨_, rfl, rfl, ?_⟩
          unfold ctxAfter hasOther
          simp [hh, ha]
      obtain ⟨ctx', k1, k2, k3⟩ := key
      obtain ⟨self', e1, e2, e3⟩ := ih hd' self hs ctx'
        (fun e he => by rw [k2]; exact h e (List.mem_cons_of_mem _ he))
      refine ⟨self', ?_, e2, ?_⟩
      · simp only [supplyAll, k1]
        rw [e1, k3]
      · intro k
        rw [e3 k]
        by_cases hk : k = k0
        · subst hk
          simp [hp]
        · have hk' : k0 ≠ k := fun h => hk h.symm
          simp only [Dict.get?, if_neg hk']

theorem supplyAll_error (env : Env ω) (rec : Rec ω) (id : Nat) (d : List (Str × Val))
    (self : Dict Str (Prim ω)) (ctx : Ctx)
    (h : ¬ ∀ e ∈ d, Settable env rec (env.node id) ctx.read e.1 e.2) :
    ∃ e, supplyAll env rec id self ctx d = .error e ∧
      ((∃ q ∈ d, ∃ p, Dict.get? (env.node id).properties q.1 = some p ∧
        (((env.node p).readOnly = true ∧ ctx.read = false ∧ e = .Exception) ∨ nested rec p q.2 = .error e))) := by
  induction d generalizing self ctx with
  | nil => exact absurd (by simp) h
  | cons q d ih =>
    obtain ⟨k0, v0⟩ := q
    simp only [supplyAll, supply]
    cases hp : Dict.get? (env.node id).properties k0 with
    | some p =>
      simp only
      by_cases hr : (env.node p).readOnly = true ∧ ctx.read = false
      · rw [if_pos hr]
        exact ⟨_, rfl, _, List.mem_cons_self .., p, hp, Or.inl ⟨hr.1, hr.2, rfl⟩⟩
      · rw [if_neg hr]
        cases hx : nested rec p v0 with
        | error e => exact ⟨e, rfl, _, List.mem_cons_self .., p, hp, Or.inr hx⟩
        | ok x =>
          simp only
          obtain ⟨e, h1, q, hq, rest⟩ := ih (Dict.set self k0 x) ctx (by
            intro hall
            apply h
            intro e he
            rcases List.mem_cons.1 he with rfl | he
            · intro p' hp'
              rw [hp] at hp'
              cases hp'
              exact ⟨hr, x, hx⟩
            · exact hall e he)
          exact ⟨e, h1, q, List.mem_cons_of_mem _ hq, rest⟩
    | none =>
      have hno : ∀ ctx' : Ctx, ctx'.read = ctx.read →
          ¬ ∀ e ∈ d, Settable env rec (env.node id) ctx'.read e.1 e.2 := by
        intro ctx' hc hall
        apply h
        intro e he
        rcases List.mem_cons.1 he with rfl | he
        · intro p hp'; rw [hp] at hp'; cases hp'
        · rw [← hc]; exact hall e he
      simp only
      cases (env.node id).additional with
      | yes =>
        obtain ⟨e, h1, q, hq, p, h2, h3⟩ := ih self { ctx with addp := true } (hno _ rfl)
        exact ⟨e, h1, q, List.mem_cons_of_mem _ hq, p, h2, h3⟩
      | no =>
        obtain ⟨e, h1, q, hq, p, h2, h3⟩ := ih self ctx (hno _ rfl)
        exact ⟨e, h1, q, List.mem_cons_of_mem _ hq, p, h2, h3⟩
      | schema s =>
        obtain ⟨e, h1, q, hq, p, h2, h3⟩ := ih self { ctx with addpSchema := some id } (hno _ rfl)
        exact ⟨e, h1, q, List.mem_cons_of_mem _ hq, p, h2, h3⟩

/-- the default of a property, if it has one, converts -/
def Defaultable (env : Env ω) (rec : Rec ω) (o : Node) (k : Str) : Prop :=
  ∀ p, Dict.get? o.properties k = some p → (env.node p).defaultSet = true →
    ∃ x, nested rec p (env.node p).default = .ok x

theorem fillDefaults_ok (env : Env ω) (rec : Rec ω) (o : Node) (ks : List Str) (hks : ks.Nodup)
    (self : Dict Str (Prim ω)) (hs : Dict.WF self) (h : ∀ k ∈ ks, Defaultable env rec o k) :
    ∃ self', fillDefaults env rec o self ks = .ok self' ∧ Dict.WF self' ∧
      ∀ k, Dict.get? self' k =
        if k ∈ ks then
          match Dict.get? o.properties k with
          | some p => if (env.node p).defaultSet then okOf (nested rec p (env.node p).default)
              else Dict.get? self k
          | none => Dict.get? self k
        else Dict.get? self k := by
  induction ks generalizing self with
  | nil => exact ⟨self, rfl, hs, by simp⟩
  | cons k0 ks ih =>
    obtain ⟨hk0, hks'⟩ := List.nodup_cons.1 hks
    have h' := fun k hk => h k (List.mem_cons_of_mem _ hk)
    have h0 := h k0 (List.mem_cons_self ..)
    cases hp : Dict.get? o.properties k0 with
    | none =>
      obtain ⟨self', e1, e2, e3⟩ := ih hks' self hs h'
      refine ⟨self', by simp only [fillDefaults, hp]; exact e1, e2, ?_⟩
      intro k
      rw [e3]
      by_cases hk : k = k0
      · subst hk; simp [hk0, hp]
      · simp [hk]
    | some p =>
      by_cases hdef : (env.node p).defaultSet = true
      · obtain ⟨x, hx⟩ := h0 p hp hdef
        obtain ⟨self', e1, e2, e3⟩ := ih hks' (Dict.set self k0 x) (Dict.WF_set hs _ _) h'
        refine ⟨self', by simp only [fillDefaults, hp, hdef, if_true, hx]; exact e1, e2, ?_⟩
        intro k
        rw [e3]
        by_cases hk : k = k0
        · subst hk
          simp [hk0, hp, hdef, hx, okOf, Dict.get?_set_self]
        · simp only [Dict.get?_set_ne _ _ hk, List.mem_cons, hk, false_or]
      · obtain ⟨self', e1, e2, e3⟩ := ih hks' self hs h'
        refine ⟨self', by simp only [fillDefaults, hp]; rw [if_neg hdef]; exact e1, e2, ?_⟩
        intro k
        rw [e3]
        by_cases hk : k = k0
        · subst hk; simp [hk0, hp, hdef]
        · simp [hk]

theorem fillDefaults_error (env : Env ω) (rec : Rec ω) (o : Node) (ks : List Str)
    (self : Dict Str (Prim ω)) (h : ¬ ∀ k ∈ ks, Defaultable env rec o k) :
    ∃ e, fillDefaults env rec o self ks = .error e ∧
      ∃ k ∈ ks, ∃ p, Dict.get? o.properties k = some p ∧ nested rec p (env.node p).default = .error e := by
  induction ks generalizing self with
  | nil => exact absurd (by simp) h
  | cons k0 ks ih =>
    simp only [fillDefaults]
    cases hp : Dict.get? o.properties k0 with
    | none =>
      obtain ⟨e, h1, k, hk, r⟩ := ih self (by
        intro hall; apply h
        intro k hk
        rcases List.mem_cons.1 hk with rfl | hk
        · intro p hp'; rw [hp] at hp'; cases hp'
        · exact hall k hk)
      exact ⟨e, h1, k, List.mem_cons_of_mem _ hk, r⟩
    | some p =>
      simp only
      by_cases hdef : (env.node p).defaultSet = true
      · rw [if_pos hdef]
        cases hx : nested rec p (env.node p).default with
        | error e => exact ⟨e, rfl, k0, List.mem_cons_self .., p, hp, hx⟩
        | ok x =>
          obtain ⟨e, h1, k, hk, r⟩ := ih (Dict.set self k0 x) (by
            intro hall; apply h
            intro k hk
            rcases List.mem_cons.1 hk with rfl | hk
            · intro p' hp' _; rw [hp] at hp'; cases hp'; exact ⟨x, hx⟩
            · exact hall k hk)
          exact ⟨e, h1, k, List.mem_cons_of_mem _ hk, r⟩
      · rw [if_neg hdef]
        obtain ⟨e, h1, k, hk, r⟩ := ih self (by
          intro hall; apply h
          intro k hk
          rcases List.mem_cons.1 hk with rfl | hk
          · intro p' hp' hd'; rw [hp] at hp'; cases hp'; exact absurd hd' hdef
          · exact hall k hk)
        exact ⟨e, h1, k, List.mem_cons_of_mem _ hk, r⟩

theorem WF_addRaw (self : Dict Str (Prim ω)) (hs : Dict.WF self) (d : List (Str × Val)) :
    Dict.WF (addRaw self d) := by
  unfold addRaw
  induction d generalizing self with
  | nil => exact hs
  | cons e d ih => exact ih _ (Dict.WF_set hs _ _)

theorem get_addRaw (self : Dict Str (Prim ω)) (d : List (Str × Val)) (hd : Dict.WF d) (k : Str) :
    Dict.get? (addRaw self d) k =
      match Dict.get? d k with
      | some v => some (.raw v)
      | none => Dict.get? self k := by
  unfold addRaw
  induction d generalizing self with
  | nil => rfl
  | cons e d ih =>
    obtain ⟨k0, v0⟩ := e
    have hd' : Dict.WF d := by
      unfold Dict.WF Dict.keys at hd ⊢
      exact (List.nodup_cons.1 hd).2
    have hk0 : Dict.get? d k0 = none := by
      rw [Dict.get?_eq_none_iff]
      unfold Dict.WF Dict.keys at hd
      exact (List.nodup_cons.1 hd).1
    rw [List.foldl_cons, ih _ hd']
    by_cases hk : k = k0
    · subst hk
      simp [hk0, Dict.get?, Dict.get?_set_self]
    · have hk' : k0 ≠ k := fun h => hk h.symm
      simp only [Dict.get?, if_neg hk', Dict.get?_set_ne _ _ hk]

theorem addConverted_ok (rec : Rec ω) (p : Nat) (d : List (Str × Val)) (hd : Dict.WF d)
    (self : Dict Str (Prim ω)) (hs : Dict.WF self) (h : ∀ e ∈ d, ∃ x, nested rec p e.2 = .ok x) :
    ∃ self', addConverted rec p self d = .ok self' ∧ Dict.WF self' ∧
      ∀ k, Dict.get? self' k =
        match Dict.get? d k with
        | some v => okOf (nested rec p v)
        | none => Dict.get? self k := by
  induction d generalizing self with
  | nil => exact ⟨self, rfl, hs, fun k => rfl⟩
  | cons e d ih =>
    obtain ⟨k0, v0⟩ := e
    have hd' : Dict.WF d := by
      unfold Dict.WF Dict.keys at hd ⊢
      exact (List.nodup_cons.1 hd).2
    have hk0 : Dict.get? d k0 = none := by
      rw [Dict.get?_eq_none_iff]
      unfold Dict.WF Dict.keys at hd
      exact (List.nodup_cons.1 hd).1
    obtain ⟨x, hx⟩ := h _ (List.mem_cons_self ..)
    obtain ⟨self', e1, e2, e3⟩ := ih hd' (Dict.set self k0 x) (Dict.WF_set hs _ _)
      (fun e he => h e (List.mem_cons_of_mem _ he))
    simp only at hx
    refine ⟨self', by simp only [addConverted, hx]; exact e1, e2, ?_⟩
    intro k
    rw [e3]
    by_cases hk : k = k0
    · subst hk
      simp [hk0, Dict.get?, Dict.get?_set_self, hx, okOf]
    · have hk' : k0 ≠ k := fun h => hk h.symm
      simp only [Dict.get?, if_neg hk', Dict.get?_set_ne _ _ hk]

theorem addConverted_error (rec : Rec ω) (p : Nat) (d : List (Str × Val))
    (self : Dict Str (Prim ω)) (h : ¬ ∀ e ∈ d, ∃ x, nested rec p e.2 = .ok x) :
    ∃ e, addConverted rec p self d = .error e ∧ ∃ q ∈ d, nested rec p q.2 = .error e := by
  induction d generalizing self with
  | nil => exact absurd (by simp) h
  | cons q d ih =>
    obtain ⟨k0, v0⟩ := q
    simp only [addConverted]
    cases hx : nested rec p v0 with
    | error e => exact ⟨e, rfl, _, List.mem_cons_self .., hx⟩
    | ok x =>
      obtain ⟨e, h1, q, hq, h2⟩ := ih (Dict.set self k0 x) (by
        intro hall; apply h
        intro e he
        rcases List.mem_cons.1 he with rfl | he
        · exact ⟨x, hx⟩
        · exact hall e he)
      exact ⟨e, h1, q, List.mem_cons_of_mem _ hq, h2⟩

theorem get_filter (d : List (Str × Val)) (hd : Dict.WF d) (f : Str → Bool) (k : Str) :
    Dict.get? (d.filter fun e => f e.1) k = if f k then Dict.get? d k else none := by
  induction d with
  | nil => simp
  | cons e d ih =>
    obtain ⟨k0, v0⟩ := e
    have hd' : Dict.WF d := by
      unfold Dict.WF Dict.keys at hd ⊢
      exact (List.nodup_cons.1 hd).2
    rw [List.filter_cons]
    by_cases hk : k0 = k
    · subst hk
      by_cases hf : f k0 = true
      · simp [hf, Dict.get?]
      · simp [hf, ih hd']
    · by_cases hf : f k0 = true
      · simp only [hf, if_true, Dict.get?, if_neg hk]
        exact ih hd'
      · simp only [hf, Dict.get?, if_neg hk]
        exact ih hd'

theorem WF_filter (d : List (Str × Val)) (hd : Dict.WF d) (f : Str × Val → Bool) :
    Dict.WF (d.filter f) := by
  unfold Dict.WF Dict.keys at hd ⊢
  exact hd.sublist (List.filter_sublist.map _)

end Prim
