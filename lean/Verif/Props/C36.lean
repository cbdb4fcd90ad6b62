import Verif.Proofs.PrimAllOf
import Verif.Props.C33
/-!
# C36: objects carry exactly the declared, defaulted and permitted additional properties
-/

namespace Props.C36
open Py Prim

variable {ω : Type}

/-- the object is read as a model: by the model handler, or because it has no type but properties
or additional properties -/
def ReadAsModel (env : Env ω) (i : Nat) : Prop :=
  (env.node i).isSchema = true ∧
  (Typed env i .model ∨
    (((env.node i).type = none ∨ (env.node i).type = some []) ∧
      ((env.node i).properties ≠ [] ∨ (env.node i).additional ≠ .no)))

/-- What the schema object `i` demands of the value `d`. -/
structure Accepts (env : Env ω) (n i : Nat) (read : Bool) (d : Dict Str Val) : Prop where
  /-- supplied declared properties are writable and convert -/
  supplied : ∀ k v p, Dict.get? d k = some v → Dict.get? (env.node i).properties k = some p →
    ((env.node p).readOnly = true → read = true) ∧ ∃ x, convert env n p v true = .ok x
  /-- the defaults of the others convert -/
  defaults : ∀ k p, Dict.get? d k = none → Dict.get? (env.node i).properties k = some p →
    (env.node p).defaultSet = true → ∃ x, convert env n p (env.node p).default true = .ok x
  /-- required properties are declared, and supplied or defaulted -/
  required : ∀ k ∈ (env.node i).required, ∃ p, Dict.get? (env.node i).properties k = some p ∧
    (Dict.get? d k ≠ none ∨ (env.node p).defaultSet = true)
  /-- with a discriminator the schema has a name -/
  named : (env.node i).discriminator ≠ none → (env.node i).name ≠ none
  /-- additional properties convert -/
  others : ∀ q, (env.node i).additional = .schema q → ∀ k v, Dict.get? d k = some v →
    Dict.get? (env.node i).properties k = none → ∃ x, convert env n q v true = .ok x

/-- what the discriminator property holds -/
def tag (env : Env ω) (i : Nat) : Prim ω :=
  match (env.node i).name with
  | some (some s) => .str s
  | _ => .none

theorem tag_eq (env : Env ω) (i : Nat) : tag env i = namePrim ((env.node i).name.getD none) := by
  unfold tag
  cases (env.node i).name with
  | none => rfl
  | some n => cases n <;> rfl

/-- Property `k` of the object built from `d`. -/
def content (env : Env ω) (n i : Nat) (d : Dict Str Val) (k : Str) : Option (Prim ω) :=
  match Dict.get? (env.node i).properties k, Dict.get? d k, (env.node i).additional with
  -- undeclared, supplied
  | none, some v, .yes => some (.raw v)
  | none, some v, .schema q => okOf (convert env n q v true)
  | none, some _, .no => if (env.node i).discriminator = some k then some (tag env i) else none
  | none, none, _ => if (env.node i).discriminator = some k then some (tag env i) else none
  -- declared, supplied
  | some p, some v, _ =>
    if (env.node i).discriminator = some k then some (tag env i) else okOf (convert env n p v true)
  -- declared, not supplied
  | some p, none, _ =>
    if (env.node i).discriminator = some k then some (tag env i)
    else if (env.node p).defaultSet then okOf (convert env n p (env.node p).default true)
    else none

theorem nested_eq (env : Env ω) (n p : Nat) (v : Val) :
    nested (produce env n) p v = convert env n p v true := rfl

theorem okOf_isSome {α : Type} {x : Except Exc α} (h : ∃ a, x = .ok a) : ∃ a, okOf x = some a := by
  obtain ⟨a, rfl⟩ := h; exact ⟨a, rfl⟩

/-- the steps of converting a dict -/
theorem convert_dict (env : Env ω) (n id i : Nat) (d : Dict Str Val) (read : Bool)
    (hd : env.deref id = .ok i) (hm : ReadAsModel env i) (ha : (env.node i).allOf = []) :
    convert env (n + 1) id (.dict d) read =
      match modelApply env (produce env n) i [] (.dict d) (topCtx env i read) with
      | .error e => .error e
      | .ok (m, rest, ctx) =>
        match cleanup env (produce env n) m rest ctx with
        | .error e => .error e
        | .ok (m, _) => .ok (.model m) := by
  have hv : effective env id (.dict d) = .dict d := by simp [effective]
  rw [convert_step env n id i (.dict d) read hd (by rw [hv]; simp), hv]
  obtain ⟨hs, ht | ⟨h1, h2⟩⟩ := hm
  · rw [first_typed env _ i _ _ ht.1 ht.2]
    simp only [create]
    cases modelApply env (produce env n) i [] (.dict d) (topCtx env i read) with
    | error e => rfl
    | ok r =>
      obtain ⟨m, rest, ctx⟩ := r
      simp only [isFinalAtom, applyAllOf_nil env _ i _ ha, finish, cleanup]
      by_cases h : ctx.addp = true
      · simp only [h, if_true]
        cases rest <;> rfl
      · simp only [h]
        cases ctx.addpSchema with
        | none => rfl
        | some j =>
          simp only [Bool.false_eq_true, if_false]
          cases rest with
          | dict r =>
            cases (env.node j).additional with
            | schema p =>
              simp only
              cases addConverted (produce env n) p m r <;> rfl
            | _ => rfl
          | _ => rfl
  · have hno : ¬ ((env.node i).type ≠ none ∧ (env.node i).type ≠ some []) := by
      rcases h1 with h | h <;> simp [h]
    unfold first
    simp only
    rw [if_neg hno]
    simp only [hs, Bool.true_eq_false, if_false]
    rw [if_pos h2]
    cases modelApply env (produce env n) i [] (.dict d) (topCtx env i read) with
    | error e => rfl
    | ok r =>
      obtain ⟨m, rest, ctx⟩ := r
      simp only [isFinalAtom, applyAllOf_nil env _ i _ ha, finish, Bool.false_eq_true, if_false]
      cases cleanup env (produce env n) m rest ctx <;> rfl

/-- the properties after the supplied ones and the defaults -/
def base (env : Env ω) (n i : Nat) (d : Dict Str Val) (k : Str) : Option (Prim ω) :=
  match Dict.get? (env.node i).properties k, Dict.get? d k with
  | some p, some v => okOf (convert env n p v true)
  | some p, none =>
    if (env.node p).defaultSet then okOf (convert env n p (env.node p).default true) else none
  | none, _ => none

theorem base_ok (env : Env ω) (n i : Nat) (d : Dict Str Val) (hd : Dict.WF d) (read : Bool)
    (hp : Dict.WF (env.node i).properties) (ho : ∀ l, (env.order l).Perm l)
    (h1 : ∀ k v p, Dict.get? d k = some v → Dict.get? (env.node i).properties k = some p →
      ((env.node p).readOnly = true → read = true) ∧ ∃ x, convert env n p v true = .ok x) :
    ∃ s1, supplyAll env (produce env n) i [] (topCtx env i read) d =
        .ok (s1, ctxAfter (env.node i) i d (topCtx env i read)) ∧
      let ks := env.order ((Dict.keys (env.node i).properties).filter fun k => !Dict.has s1 k)
      (∀ k, k ∈ ks ↔ Dict.get? d k = none ∧ ∃ p, Dict.get? (env.node i).properties k = some p) ∧
      ((∀ k p, Dict.get? d k = none → Dict.get? (env.node i).properties k = some p →
          (env.node p).defaultSet = true → ∃ x, convert env n p (env.node p).default true = .ok x) →
        ∃ s2, fillDefaults env (produce env n) (env.node i) s1 ks = .ok s2 ∧ Dict.WF s2 ∧
          ∀ k, Dict.get? s2 k = base env n i d k) ∧
      (¬ (∀ k p, Dict.get? d k = none → Dict.get? (env.node i).properties k = some p →
          (env.node p).defaultSet = true → ∃ x, convert env n p (env.node p).default true = .ok x) →
        ∃ e, fillDefaults env (produce env n) (env.node i) s1 ks = .error e) := by
  obtain ⟨s1, e1, e2, e3⟩ := supplyAll_ok env (produce env n) i d hd [] Dict.WF_nil (topCtx env i read)
    (by
      intro e he p hp'
      obtain ⟨ha, x, hx⟩ := h1 e.1 e.2 p (Dict.get?_of_mem hd he) hp'
      refine ⟨?_, x, hx⟩
      rintro ⟨hr, hf⟩
      have := ha hr
      simp only [topCtx] at hf
      rw [this] at hf; cases hf)
  refine ⟨s1, e1, ?_⟩
  intro ks
  have hs1 : ∀ k p, Dict.get? (env.node i).properties k = some p →
      (Dict.get? s1 k = none ↔ Dict.get? d k = none) := by
    intro k p hk
    rw [e3 k, hk]
    cases hv : Dict.get? d k with
    | none => simp
    | some v =>
      obtain ⟨a, ha⟩ := okOf_isSome (h1 k v p hv hk).2
      simp [nested_eq, ha]
  have hmem : ∀ k, k ∈ ks ↔ Dict.get? d k = none ∧ ∃ p, Dict.get? (env.node i).properties k = some p := by
    intro k
    rw [(ho _).mem_iff, List.mem_filter, ← Dict.get?_isSome_iff]
    constructor
    · rintro ⟨ha, hb⟩
      obtain ⟨p, hp'⟩ := Option.isSome_iff_exists.1 ha
      refine ⟨(hs1 k p hp').1 ?_, p, hp'⟩
      cases h : Dict.get? s1 k with
      | none => rfl
      | some x => simp [Dict.has, h] at hb
    · rintro ⟨ha, p, hp'⟩
      refine ⟨by simp [hp'], ?_⟩
      simp [Dict.has, (hs1 k p hp').2 ha]
  have hnd : ks.Nodup := by
    apply (ho _).nodup_iff.2
    exact (show (Dict.keys (env.node i).properties).Nodup from hp).sublist List.filter_sublist
  refine ⟨hmem, ?_, ?_⟩
  · intro h2
    obtain ⟨s2, f1, f2, f3⟩ := fillDefaults_ok env (produce env n) (env.node i) ks hnd s1 e2
      (by
        intro k hk p hp' hset
        exact h2 k p ((hmem k).1 hk).1 hp' hset)
    refine ⟨s2, f1, f2, ?_⟩
    intro k
    rw [f3 k]
    unfold base
    cases hp' : Dict.get? (env.node i).properties k with
    | none =>
      have : k ∉ ks := fun hk => by
        obtain ⟨_, p, h⟩ := (hmem k).1 hk
        rw [hp'] at h; cases h
      rw [if_neg this, e3 k, hp']
      rfl
    | some p =>
      cases hv : Dict.get? d k with
      | none =>
        rw [if_pos ((hmem k).2 ⟨hv, p, hp'⟩)]
        simp only [(hs1 k p hp').2 hv, nested_eq]
      | some v =>
        have : k ∉ ks := fun hk => by
          rw [((hmem k).1 hk).1] at hv; cases hv
        rw [if_neg this, e3 k, hp', hv]
        rfl
  · intro h2
    obtain ⟨e, he, _⟩ := fillDefaults_error env (produce env n) (env.node i) ks s1 (by
      intro hall
      apply h2
      intro k p hk hp' hset
      exact hall k ((hmem k).2 ⟨hk, p, hp'⟩) p hp' hset)
    exact ⟨e, he⟩

theorem base_has (env : Env ω) (n i : Nat) (d : Dict Str Val) (k : Str)
    (h1 : ∀ k v p, Dict.get? d k = some v → Dict.get? (env.node i).properties k = some p →
      ∃ x, convert env n p v true = .ok x)
    (h2 : ∀ k p, Dict.get? d k = none → Dict.get? (env.node i).properties k = some p →
      (env.node p).defaultSet = true → ∃ x, convert env n p (env.node p).default true = .ok x) :
    (base env n i d k).isSome = true ↔ ∃ p, Dict.get? (env.node i).properties k = some p ∧
      (Dict.get? d k ≠ none ∨ (env.node p).defaultSet = true) := by
  unfold base
  cases hp : Dict.get? (env.node i).properties k with
  | none => simp
  | some p =>
    cases hv : Dict.get? d k with
    | some v =>
      obtain ⟨a, ha⟩ := okOf_isSome (h1 k v p hv hp)
      simp [ha]
    | none =>
      by_cases hs : (env.node p).defaultSet = true
      · obtain ⟨a, ha⟩ := okOf_isSome (h2 k p hv hp hs)
        simp [ha, hs]
      · simp [hs]

/-- **C36**. A schema object without allOf (typed `object`, or without type but with properties or
additional properties) and a value that meets its demands: the conversion gives a model, and for
every name `k` the model holds exactly what `content` says: supplied declared properties converted
by their own schema, defaults of the others, supplied undeclared properties iff additional
properties are allowed (converted if they have a schema), the schema's name under the
discriminator, and nothing else. -/
theorem C36_content (env : Env ω) (n id i : Nat) (d : Dict Str Val) (read : Bool)
    (hd : env.deref id = .ok i) (hm : ReadAsModel env i) (ha : (env.node i).allOf = [])
    (hw : Dict.WF d) (hp : Dict.WF (env.node i).properties) (ho : ∀ l, (env.order l).Perm l)
    (h : Accepts env n i read d) :
    ∃ m, convert env (n + 1) id (.dict d) read = .ok (.model m) ∧ Dict.WF m ∧
      ∀ k, Dict.get? m k = content env n i d k := by
  rw [convert_dict env n id i d read hd hm ha]
  obtain ⟨s1, e1, _, e2, _⟩ := base_ok env n i d hw read hp ho h.supplied
  obtain ⟨s2, f1, f2, f3⟩ := e2 h.defaults
  have hreq : ((env.node i).required.any fun k => !Dict.has s2 k) = false := by
    rw [List.any_eq_false]
    intro k hk
    have : (Dict.get? s2 k).isSome = true := by
      rw [f3, base_has env n i d k (fun k v p a b => (h.supplied k v p a b).2) h.defaults]
      exact h.required k hk
    simp [Dict.has, this]
  -- the model and the context before cleanup
  have key : ∃ s3, modelApply env (produce env n) i [] (.dict d) (topCtx env i read) =
        .ok (s3, .dict (d.filter fun e => !Dict.has (env.node i).properties e.1),
          ctxAfter (env.node i) i d (topCtx env i read)) ∧ Dict.WF s3 ∧
      ∀ k, Dict.get? s3 k = if (env.node i).discriminator = some k then some (tag env i) else base env n i d k := by
    unfold modelApply
    simp only [hm.1, e1, f1, hreq, Bool.true_eq_false, Bool.false_eq_true, if_false, bind, Except.bind,
      pure, Except.pure]
    cases hdisc : (env.node i).discriminator with
    | none => exact ⟨s2, rfl, f2, by simp [f3]⟩
    | some k0 =>
      simp only
      have hn := h.named (by simp [hdisc])
      have hc := (ctxAfter_read (env.node i) i d (topCtx env i read)).2.1
      cases hname : (env.node i).name with
      | none => exact absurd hname hn
      | some nm =>
        have : (ctxAfter (env.node i) i d (topCtx env i read)).name = some nm := by
          rw [hc]; exact hname
        rw [this]
        refine ⟨_, rfl, Dict.WF_set f2 _ _, ?_⟩
        intro k
        by_cases hk : k = k0
        · subst hk
          rw [Dict.get?_set_self, tag_eq, hname]
          simp
        · have hk' : ¬ k0 = k := fun h => hk h.symm
          simp [Dict.get?_set_ne _ _ hk, hk', f3]
  obtain ⟨s3, g1, g2, g3⟩ := key
  rw [g1]
  simp only
  have hrest : ∀ k, Dict.get? (d.filter fun e => !Dict.has (env.node i).properties e.1) k =
      if Dict.get? (env.node i).properties k = none then Dict.get? d k else none := by
    intro k
    rw [get_filter d hw (fun k => !Dict.has (env.node i).properties k) k]
    cases hx : Dict.get? (env.node i).properties k <;> simp [Dict.has, hx]
  have hrw := WF_filter d hw fun e => !Dict.has (env.node i).properties e.1
  generalize hrr : (d.filter fun e => !Dict.has (env.node i).properties e.1) = rest at hrest hrw
  have hother : hasOther (env.node i) d = true ∨ rest = [] := by
    by_cases hh : hasOther (env.node i) d = true
    · exact Or.inl hh
    · right
      rw [← hrr, List.filter_eq_nil_iff]
      intro e he hc
      exact hh (List.any_eq_true.2 ⟨e, he, hc⟩)
  -- cleanup
  have fin : ∃ m c, cleanup env (produce env n) s3 (.dict rest)
        (ctxAfter (env.node i) i d (topCtx env i read)) = .ok (m, c) ∧ Dict.WF m ∧
      ∀ k, Dict.get? m k = content env n i d k := by
    rcases hother with hoth | hnil
    · unfold ctxAfter
      rw [if_pos hoth]
      cases hadd : (env.node i).additional with
      | yes =>
        refine ⟨addRaw s3 rest, _, rfl, WF_addRaw s3 g2 rest, ?_⟩
        intro k
        rw [get_addRaw s3 rest hrw k, hrest k, g3 k]
        unfold content base
        rw [hadd]
        cases Dict.get? (env.node i).properties k with
        | none => cases Dict.get? d k <;> simp
        | some p => cases Dict.get? d k <;> simp
      | no =>
        refine ⟨s3, _, rfl, g2, ?_⟩
        intro k
        rw [g3 k]
        unfold content base
        rw [hadd]
        cases Dict.get? (env.node i).properties k with
        | none => cases Dict.get? d k <;> simp
        | some p => cases Dict.get? d k <;> simp
      | schema q =>
        obtain ⟨m, a1, a2, a3⟩ := addConverted_ok (produce env n) q rest hrw s3 g2 (by
          intro e he
          have hg := Dict.get?_of_mem hrw (k := e.1) (v := e.2) he
          rw [hrest] at hg
          cases hx : Dict.get? (env.node i).properties e.1 with
          | some p => rw [hx] at hg; simp at hg
          | none =>
            rw [hx] at hg
            simp only [if_true] at hg
            exact h.others q hadd e.1 e.2 hg hx)
        refine ⟨m, { topCtx env i read with addpSchema := none }, ?_, a2, ?_⟩
        · unfold cleanup
          simp only [topCtx, Bool.false_eq_true, if_false, hadd, a1]
        · intro k
          rw [a3 k, hrest k, g3 k]
          unfold content base
          rw [hadd]
          cases Dict.get? (env.node i).properties k with
          | none => cases Dict.get? d k <;> simp [nested_eq]
          | some p => cases Dict.get? d k <;> simp
    · subst hnil
      have hno : hasOther (env.node i) d = false := by
        cases hh : hasOther (env.node i) d with
        | false => rfl
        | true =>
          obtain ⟨e, he, hc⟩ := List.any_eq_true.1 hh
          exact absurd hc (List.filter_eq_nil_iff.1 hrr e he)
      unfold ctxAfter
      rw [hno]
      refine ⟨s3, topCtx env i read, by rfl, g2, ?_⟩
      intro k
      rw [g3 k]
      have := hrest k
      unfold content base
      cases hx : Dict.get? (env.node i).properties k with
      | none =>
        rw [hx] at this
        simp only [if_true, Dict.get?] at this
        rw [← this]
      | some p => cases Dict.get? d k <;> simp
  obtain ⟨m, c, c1, c2, c3⟩ := fin
  exact ⟨m, by rw [c1], c2, c3⟩

/-- **C36** (rejection). A value that does not meet the demands is rejected. If only required
properties are missing the exception is `ValueError`. -/
theorem C36_rejects (env : Env ω) (n id i : Nat) (d : Dict Str Val) (read : Bool)
    (hd : env.deref id = .ok i) (hm : ReadAsModel env i) (ha : (env.node i).allOf = [])
    (hw : Dict.WF d) (hp : Dict.WF (env.node i).properties) (ho : ∀ l, (env.order l).Perm l) :
    (¬ Accepts env n i read d → ∃ e, convert env (n + 1) id (.dict d) read = .error e) ∧
    (∀ k ∈ (env.node i).required,
      (∀ p, Dict.get? (env.node i).properties k = some p →
        Dict.get? d k = none ∧ (env.node p).defaultSet = false) →
      (∀ k v p, Dict.get? d k = some v → Dict.get? (env.node i).properties k = some p →
        ((env.node p).readOnly = true → read = true) ∧ ∃ x, convert env n p v true = .ok x) →
      (∀ k p, Dict.get? d k = none → Dict.get? (env.node i).properties k = some p →
        (env.node p).defaultSet = true → ∃ x, convert env n p (env.node p).default true = .ok x) →
      convert env (n + 1) id (.dict d) read = .error .ValueError) := by
  have miss : ∀ k ∈ (env.node i).required,
      (∀ p, Dict.get? (env.node i).properties k = some p →
        Dict.get? d k = none ∧ (env.node p).defaultSet = false) →
      (∀ k v p, Dict.get? d k = some v → Dict.get? (env.node i).properties k = some p →
        ((env.node p).readOnly = true → read = true) ∧ ∃ x, convert env n p v true = .ok x) →
      (∀ k p, Dict.get? d k = none → Dict.get? (env.node i).properties k = some p →
        (env.node p).defaultSet = true → ∃ x, convert env n p (env.node p).default true = .ok x) →
      convert env (n + 1) id (.dict d) read = .error .ValueError := by
    intro k hk hmiss h1 h2
    rw [convert_dict env n id i d read hd hm ha]
    obtain ⟨s1, e1, _, e2, _⟩ := base_ok env n i d hw read hp ho h1
    obtain ⟨s2, f1, f2, f3⟩ := e2 h2
    have hreq : ((env.node i).required.any fun k => !Dict.has s2 k) = true := by
      rw [List.any_eq_true]
      refine ⟨k, hk, ?_⟩
      cases hs : Dict.get? s2 k with
      | none => simp [Dict.has, hs]
      | some x =>
        have : (Dict.get? s2 k).isSome = true := by rw [hs]; rfl
        rw [f3, base_has env n i d k (fun k v p a b => (h1 k v p a b).2) h2] at this
        obtain ⟨p, hp', hor⟩ := this
        obtain ⟨ha, hb⟩ := hmiss p hp'
        rcases hor with h | h
        · exact absurd ha h
        · rw [hb] at h; cases h
    unfold modelApply
    simp only [hm.1, e1, f1, hreq, Bool.true_eq_false, if_true, if_false, bind, Except.bind]
  refine ⟨?_, miss⟩
  intro hna
  by_cases h1 : ∀ k v p, Dict.get? d k = some v → Dict.get? (env.node i).properties k = some p →
      ((env.node p).readOnly = true → read = true) ∧ ∃ x, convert env n p v true = .ok x
  · by_cases h2 : ∀ k p, Dict.get? d k = none → Dict.get? (env.node i).properties k = some p →
        (env.node p).defaultSet = true → ∃ x, convert env n p (env.node p).default true = .ok x
    · by_cases h3 : ∀ k ∈ (env.node i).required, ∃ p, Dict.get? (env.node i).properties k = some p ∧
          (Dict.get? d k ≠ none ∨ (env.node p).defaultSet = true)
      · rw [convert_dict env n id i d read hd hm ha]
        obtain ⟨s1, e1, _, e2, _⟩ := base_ok env n i d hw read hp ho h1
        obtain ⟨s2, f1, f2, f3⟩ := e2 h2
        unfold modelApply
        simp only [hm.1, e1, f1, Bool.true_eq_false, if_false, bind, Except.bind, pure, Except.pure]
        by_cases hr : ((env.node i).required.any fun k => !Dict.has s2 k) = true
        · simp only [hr, if_true]
          exact ⟨_, rfl⟩
        · simp only [hr, Bool.false_eq_true, if_false]
          have hc := (ctxAfter_read (env.node i) i d (topCtx env i read)).2.1
          have after : ∀ s3 : Dict Str (Prim ω), Dict.WF s3 →
              ((env.node i).discriminator ≠ none → (env.node i).name ≠ none) →
              ∃ e, (match cleanup env (produce env n) s3
                  (.dict (d.filter fun e => !Dict.has (env.node i).properties e.1))
                  (ctxAfter (env.node i) i d (topCtx env i read)) with
                | .error e => (.error e : Except Exc (Prim ω))
                | .ok (m, _) => .ok (.model m)) = .error e := by
            intro s3 hs3 h4
            have h5 : ¬ ∀ q, (env.node i).additional = .schema q → ∀ k v, Dict.get? d k = some v →
                Dict.get? (env.node i).properties k = none → ∃ x, convert env n q v true = .ok x :=
              fun h5 => hna ⟨h1, h2, h3, h4, h5⟩
            simp only [Classical.not_forall] at h5
            obtain ⟨q, hq, k, v, hk, hu, hx⟩ := h5
            have hmem : (k, v) ∈ d := Dict.mem_of_get? hk
            have hoth : hasOther (env.node i) d = true :=
              List.any_eq_true.2 ⟨(k, v), hmem, by simp [Dict.has, hu]⟩
            obtain ⟨e, he, _⟩ := addConverted_error (produce env n) q
              (d.filter fun e => !Dict.has (env.node i).properties e.1) s3 (by
                intro hall
                obtain ⟨x, hx'⟩ := hall (k, v) (List.mem_filter.2 ⟨hmem, by simp [Dict.has, hu]⟩)
                exact hx ⟨x, hx'⟩)
            refine ⟨e, ?_⟩
            unfold ctxAfter
            rw [if_pos hoth]
            unfold cleanup
            simp only [hq, topCtx, Bool.false_eq_true, if_false, he]
          cases hdisc : (env.node i).discriminator with
          | none => exact after s2 f2 (by simp [hdisc])
          | some k0 =>
            simp only
            cases hname : (env.node i).name with
            | none =>
              have : (ctxAfter (env.node i) i d (topCtx env i read)).name = none := by
                rw [hc]; exact hname
              rw [this]
              exact ⟨_, rfl⟩
            | some nm =>
              have : (ctxAfter (env.node i) i d (topCtx env i read)).name = some nm := by
                rw [hc]; exact hname
              rw [this]
              exact after _ (Dict.WF_set f2 _ _) (by simp [hname])
      · simp only [Classical.not_forall] at h3
        obtain ⟨k, hk, hmiss⟩ := h3
        refine ⟨_, miss k hk ?_ h1 h2⟩
        intro p hp'
        constructor
        · exact Classical.byContradiction fun hc => hmiss ⟨p, hp', Or.inl hc⟩
        · cases hs : (env.node p).defaultSet with
          | false => rfl
          | true => exact absurd ⟨p, hp', Or.inr hs⟩ hmiss
    · rw [convert_dict env n id i d read hd hm ha]
      obtain ⟨s1, e1, _, _, e3⟩ := base_ok env n i d hw read hp ho h1
      obtain ⟨e, he⟩ := e3 h2
      unfold modelApply
      simp only [hm.1, e1, he, Bool.true_eq_false, if_false, bind, Except.bind]
      exact ⟨e, rfl⟩
  · rw [convert_dict env n id i d read hd hm ha]
    obtain ⟨e, he, _⟩ := supplyAll_error env (produce env n) i d [] (topCtx env i read) (by
      intro hall
      apply h1
      intro k v p hk hp'
      obtain ⟨ha, hb⟩ := hall (k, v) (Dict.mem_of_get? hk) p hp'
      refine ⟨?_, hb⟩
      intro hr
      cases hrd : read with
      | true => rfl
      | false => exact absurd ⟨hr, by rw [hrd]; rfl⟩ ha)
    unfold modelApply
    simp only [hm.1, he, Bool.true_eq_false, if_false, bind, Except.bind]
    exact ⟨e, rfl⟩

/-- **C36** (not an object). A value that is no mapping raises `AttributeError`. -/
theorem C36_not_object (env : Env ω) (n id i : Nat) (v : Val) (read : Bool)
    (hd : env.deref id = .ok i) (hm : ReadAsModel env i)
    (hv : effective env id v ≠ .none) (hnd : ∀ d, effective env id v ≠ .dict d) :
    convert env (n + 1) id v read = .error .AttributeError := by
  rw [convert_step env n id i v read hd hv]
  have hap : modelApply env (produce env n) i [] (effective env id v) (topCtx env i read) =
      .error .AttributeError := by
    unfold modelApply
    cases hx : effective env id v with
    | dict d => exact absurd hx (hnd d)
    | _ => rfl
  obtain ⟨hs, ht | ⟨h1, h2⟩⟩ := hm
  · rw [first_typed env _ i _ _ ht.1 ht.2]
    simp only [create, hap]
  · have hno : ¬ ((env.node i).type ≠ none ∧ (env.node i).type ≠ some []) := by
      rcases h1 with h | h <;> simp [h]
    unfold first
    simp only
    rw [if_neg hno]
    simp only [hs, Bool.true_eq_false, if_false]
    rw [if_pos h2, hap]

/-! ## allOf -/

theorem first_model (env : Env ω) (rec : Rec ω) (i : Nat) (v : Val) (ctx : Ctx) (hm : ReadAsModel env i) :
    ∃ sec : Ctx → Option Handler, ∀ m rest c, modelApply env rec i [] v ctx = .ok (m, rest, c) →
      first env rec i v ctx = .ok (.model m, rest, { c with second := sec c }) := by
  obtain ⟨hs, ht | ⟨h1, h2⟩⟩ := hm
  · refine ⟨fun _ => some .model, ?_⟩
    intro m rest c h
    rw [first_typed env _ i _ _ ht.1 ht.2]
    simp only [create, h]
  · refine ⟨fun c => c.second, ?_⟩
    intro m rest c h
    have hno : ¬ ((env.node i).type ≠ none ∧ (env.node i).type ≠ some []) := by
      rcases h1 with h | h <;> simp [h]
    unfold first
    simp only
    rw [if_neg hno]
    simp only [hs, Bool.true_eq_false, if_false]
    rw [if_pos h2, h]

/-- **C36** (allOf). A schema object with allOf, whose own declarations give at least one property
of the value: the schema and the parts of its allOf are applied in order. The model holds, for
every name: what the first part that declares it makes of the supplied value; else the default of
the first part that declares one; supplied names no part declares iff some part allows
additional properties (as they are, or converted by the schema stated last); the schema's name
under a discriminator; nothing else. -/
theorem C36_allOf (env : Env ω) (n id i : Nat) (d : Dict Str Val) (read : Bool) (parts : List Nat)
    (hd : env.deref id = .ok i) (hm : ReadAsModel env i)
    (hparts : List.Forall₂ (fun a j => env.deref a = .ok j) (env.node i).allOf parts)
    (hw : Dict.WF d) (ho : ∀ l, (env.order l).Perm l)
    (hne : ∃ k p, Dict.get? (env.node i).properties k = some p ∧
      (Dict.get? d k ≠ none ∨ (env.node p).defaultSet = true))
    (h : AcceptsAll env (produce env n) (i :: parts) (env.node i).name read d) :
    ∃ m, convert env (n + 1) id (.dict d) read = .ok (.model m) ∧ Dict.WF m ∧
      ∀ k, Dict.get? m k =
        if tagged env (i :: parts) k then some (tag env i) else
        match declared env (i :: parts) k, Dict.get? d k with
        | some p, some v => okOf (convert env n p v true)
        | some _, none => (defaulted env (i :: parts) k).bind fun p =>
            okOf (convert env n p (env.node p).default true)
        | none, some v =>
          if open_ env (i :: parts) then some (.raw v)
          else (others env (i :: parts)).bind fun q => okOf (convert env n q v true)
        | none, none => none := by
  have hv : effective env id (.dict d) = .dict d := by simp [effective]
  have h0 : After env (produce env n) [] (env.node i).name read d [] d (topCtx env i read) :=
    ⟨Dict.WF_nil, hw, rfl, rfl, fun _ => rfl, fun _ => rfl, fun _ hx => by simp [topCtx] at hx,
      fun _ => rfl, fun _ => Or.inl ⟨rfl, rfl⟩⟩
  obtain ⟨s1, r1, c1, e1, e2, _⟩ := after_step env (produce env n) (i :: parts) [] parts i _ read d rfl h ho h0
  have hne1 : s1 ≠ [] := by
    obtain ⟨k, p, hp, hor⟩ := hne
    have hdecl : declared env ([] ++ [i]) k = some p := by simp [declared, hp]
    have hk := e2.props k
    intro hnil
    rw [hnil] at hk
    by_cases ht : tagged env ([] ++ [i]) k = true
    · rw [if_pos ht] at hk; simp [Dict.get?] at hk
    · rw [if_neg ht] at hk
      have hdecl' : declared env (i :: parts) k = some p := declared_prefix (qs := [] ++ [i]) (l := parts) hdecl
      unfold member at hk
      rw [hdecl] at hk
      cases hdv : Dict.get? d k with
      | some v =>
        obtain ⟨x, hx⟩ := (h.supplied k v p hdv hdecl').2
        rw [hdv] at hk
        simp [Dict.get?, hx, okOf] at hk
      | none =>
        rcases hor with ho | hs
        · exact ho hdv
        · have hdef : defaulted env ([] ++ [i]) k = some p := by
            simp [defaulted, hp, Option.filter, hs]
          obtain ⟨x, hx⟩ := h.defaults k p hdv (defaulted_prefix (qs := [] ++ [i]) (l := parts) hdef)
          rw [hdv] at hk
          simp only [hdef, Option.bind_some, hx, okOf] at hk
          simp [Dict.get?] at hk
  obtain ⟨sec, hsec⟩ := first_model env (produce env n) i (.dict d) (topCtx env i read) hm
  have hf := hsec _ _ _ e1
  have e2' : After env (produce env n) ([] ++ [i]) (env.node i).name read d s1 r1 { c1 with second := sec c1 } :=
    ⟨e2.wf, e2.wfRest, e2.sameName, e2.sameRead, e2.props, e2.left, e2.valid, e2.addp, e2.addpSchema⟩
  obtain ⟨s2, r2, c2, l1, l2, l3⟩ := after_loop env (produce env n) (i :: parts) _ read d h ho
    (env.node i).allOf parts hparts ([] ++ [i]) rfl hne1 e2'
  obtain ⟨m, c, f1, f2, f3⟩ := after_finish env (produce env n) (i :: parts) _ read d h l2
  refine ⟨m, ?_, f2, ?_⟩
  · rw [convert_step env n id i (.dict d) read hd (by rw [hv]; simp), hv, hf]
    have ht : truthy (Prim.model s2 : Prim ω) = true := by
      cases s2 with
      | nil => exact absurd rfl l3
      | cons => rfl
    simp only [isFinalAtom, Bool.false_eq_true, if_false, applyAllOf, l1, ht, if_true, applyLeft, finish, f1]
  · intro k
    rw [f3 k, tag_eq]
    rfl

/-- **C36** (required). Whatever the schema object (without allOf), the result of a conversion is a
model that holds every required property. -/
theorem C36_required (env : Env ω) (n id i : Nat) (d : Dict Str Val) (read : Bool) (r : Prim ω)
    (hd : env.deref id = .ok i) (hm : ReadAsModel env i) (ha : (env.node i).allOf = [])
    (h : convert env (n + 1) id (.dict d) read = .ok r) :
    ∃ m, r = .model m ∧ ∀ k ∈ (env.node i).required, Dict.get? m k ≠ none := by
  rw [convert_dict env n id i d read hd hm ha] at h
  cases h1 : modelApply env (produce env n) i [] (.dict d) (topCtx env i read) with
  | error e => rw [h1] at h; cases h
  | ok q =>
    obtain ⟨m, rest, ctx⟩ := q
    rw [h1] at h
    simp only at h
    cases h2 : cleanup env (produce env n) m rest ctx with
    | error e => rw [h2] at h; cases h
    | ok q =>
      obtain ⟨m', c⟩ := q
      rw [h2] at h
      simp only [Except.ok.injEq] at h
      refine ⟨m', h.symm, ?_⟩
      intro k hk
      exact cleanup_keeps env _ m rest ctx h2 k ((modelApply_keeps env _ i [] _ _ h1).1 k hk)

/-! ## examples and refutations -/

/-- 0: a pet with a required number and a tag that has a default; 1: number; 2: text with default -/
def pet : Nat → Node
  | 0 => { type := some c!"object", properties := [(c!"id", 1), (c!"tag", 2)], required := [c!"id"] }
  | 1 => { type := some c!"integer" }
  | _ => { type := some c!"string", default := .str c!"none", defaultSet := true }

example : ReadAsModel (C33.world pet) 0 ∧
    Accepts (C33.world pet) 1 0 false [(c!"id", .int 5), (c!"x", .int 1)] ∧
    convert (C33.world pet) 2 0 (.dict [(c!"id", .int 5), (c!"x", .int 1)]) false =
      .ok (.model [(c!"id", .int 5), (c!"tag", .str c!"none"), (c!"x", .raw (.int 1))]) := by
  refine ⟨⟨rfl, Or.inl ⟨by decide, by decide⟩⟩, ⟨?_, ?_, ?_, ?_, ?_⟩, by rfl⟩
  · intro k v p hk hp
    simp only [C33.world, pet, Dict.get?] at hk hp
    by_cases h : c!"id" = k
    · rw [if_pos h] at hk hp
      cases hk; cases hp
      exact ⟨by decide, ⟨_, rfl⟩⟩
    · rw [if_neg h] at hk hp
      by_cases h2 : c!"tag" = k
      · subst h2; simp at hk
      · rw [if_neg h2] at hp; cases hp
  · intro k p hk hp hs
    simp only [C33.world, pet, Dict.get?] at hk hp
    by_cases h : c!"id" = k
    · rw [if_pos h] at hk; cases hk
    · rw [if_neg h] at hp
      by_cases h2 : c!"tag" = k
      · rw [if_pos h2] at hp; cases hp; exact ⟨_, rfl⟩
      · rw [if_neg h2] at hp; cases hp
  · intro k hk
    simp only [C33.world, pet, List.mem_singleton] at hk
    subst hk
    exact ⟨1, rfl, Or.inl (by decide)⟩
  · intro h; exact absurd rfl h
  · intro q hq; simp [C33.world, pet] at hq

/-- 0: a pet with an own property and an allOf; 3: the part, which declares a number -/
def dog : Nat → Node
  | 0 => { type := some c!"object", properties := [(c!"bark", 2)], allOf := [3], additional := .no }
  | 1 => { type := some c!"integer" }
  | 2 => { type := some c!"string" }
  | _ => { type := some c!"object", properties := [(c!"id", 1)], required := [c!"id"], additional := .schema 1 }

example : convert (C33.world dog) 3 0 (.dict [(c!"id", .int 5), (c!"bark", .int 1), (c!"n", .int 9)]) false =
      .ok (.model [(c!"bark", .str c!"1"), (c!"id", .int 5), (c!"n", .int 9)]) ∧
    declared (C33.world dog) [0, 3] c!"id" = some 1 ∧ others (C33.world dog) [0, 3] = some 1 ∧
    List.Forall₂ (fun a j => (C33.world dog).deref a = .ok j) ((C33.world dog).node 0).allOf [3] :=
  ⟨by rfl, by decide, by decide, List.Forall₂.cons rfl .nil⟩

/-- With a schema that consists of an allOf only, the properties of the first part come out
unconverted when a later part allows additional properties (which is the default). -/
theorem C36_allOf_only_false :
    ¬ ∀ (node : Nat → Node) (d : Dict Str Val) (m : List (Str × Prim Nat)) (k : Str) (v : Val) (p : Nat),
      (node 0).allOf = [1, 2] → Dict.get? (node 1).properties k = some p →
      Dict.get? (node 2).properties k = none → Dict.get? d k = some v →
      convert (C33.world node) 5 0 (.dict d) true = .ok (.model m) →
      Dict.get? m k = okOf (convert (C33.world node) 4 p v true) := by
  intro H
  have := H (fun
    | 0 => { allOf := [1, 2] }
    | 1 => { type := some c!"object", properties := [(c!"when", 3)] }
    | 2 => { type := some c!"object", properties := [(c!"name", 4)] }
    | 3 => { type := some c!"string", format := some c!"date" }
    | _ => { type := some c!"string" })
    [(c!"when", .str c!"2020-01-01"), (c!"name", .str c!"x")]
    [(c!"when", .raw (.str c!"2020-01-01")), (c!"name", .str c!"x")] c!"when" (.str c!"2020-01-01") 3
    rfl rfl rfl rfl (by rfl)
  have e : convert (C33.world (fun
    | 0 => { allOf := [1, 2] }
    | 1 => { type := some c!"object", properties := [(c!"when", 3)] }
    | 2 => { type := some c!"object", properties := [(c!"name", 4)] }
    | 3 => { type := some c!"string", format := some c!"date" }
    | _ => { type := some c!"string" })) 4 3 (.str c!"2020-01-01") true = .ok (.atom .date 10) := by rfl
  rw [e] at this
  simp [Dict.get?, okOf] at this

/-- A required property that is supplied but not declared is taken for missing, although additional
properties are allowed. -/
theorem C36_required_undeclared_false :
    ¬ ∀ (o : Node) (d : Dict Str Val), o.type = some c!"object" → o.additional = .yes →
      o.properties = [] → (∀ k ∈ o.required, Dict.get? d k ≠ none) →
      ∃ r, convert (C33.world fun _ => o) 3 0 (.dict d) true = .ok r := by
  intro H
  obtain ⟨r, hr⟩ := H { type := some c!"object", required := [c!"a"] } [(c!"a", .int 1)] rfl rfl rfl
    (by decide)
  have e : convert (C33.world fun _ => { type := some c!"object", required := [c!"a"] }) 3 0
    (.dict [(c!"a", .int 1)]) true = .error .ValueError := by rfl
  rw [e] at hr; cases hr

/-- Parts that state no type and only limits cannot be used on their own: an allOf of such parts
without a type is taken for an object. -/
theorem C36_typeless_false :
    ¬ ∀ (node : Nat → Node) (k : Int), (node 0).type = none → (node 0).allOf = [1] →
      (node 1).type = some c!"integer" →
      ∃ r, convert (C33.world node) 5 0 (.int k) true = .ok r := by
  intro H
  obtain ⟨r, hr⟩ := H (fun | 0 => { allOf := [1] } | _ => { type := some c!"integer" }) 3 rfl rfl rfl
  have e : convert (C33.world (fun | 0 => { allOf := [1] } | _ => { type := some c!"integer" })) 5 0
    (.int 3) true = .error .AttributeError := by rfl
  rw [e] at hr; cases hr

/-! ## a schema that only wraps another one -/

/-- the context with another name, guard and second pass -/
def re (c : Ctx) (nm : Option (Option Str)) (g : List Nat) (s : Option Handler) : Ctx :=
  { c with name := nm, guard := g, second := s }

theorem supplyAll_re (env : Env ω) (rec : Rec ω) (i : Nat) (nm g sc) (d : List (Str × Val)) :
    ∀ (m : Dict Str (Prim ω)) (c : Ctx), supplyAll env rec i m (re c nm g sc) d =
      (supplyAll env rec i m c d).map fun r => (r.1, re r.2 nm g sc) := by
  induction d with
  | nil => intro m c; rfl
  | cons e d ih =>
    obtain ⟨k, v⟩ := e
    intro m c
    have hs : supply env rec i m (re c nm g sc) k v =
        (supply env rec i m c k v).map fun r => (r.1, re r.2 nm g sc) := by
      unfold supply
      simp only
      cases Dict.get? (env.node i).properties k with
      | some p =>
        simp only
        by_cases hr : (env.node p).readOnly = true ∧ c.read = false
        · rw [if_pos hr, if_pos (show (env.node p).readOnly = true ∧ (re c nm g sc).read = false from hr)]
          rfl
        · rw [if_neg hr,
            if_neg (show ¬ ((env.node p).readOnly = true ∧ (re c nm g sc).read = false) from hr)]
          cases nested rec p v <;> rfl
      | none => cases (env.node i).additional <;> rfl
    simp only [supplyAll, hs]
    cases supply env rec i m c k v with
    | error e => rfl
    | ok r => exact ih r.1 r.2

theorem modelApply_re (env : Env ω) (rec : Rec ω) (i : Nat) (nm g sc) (m : Dict Str (Prim ω)) (v : Val)
    (c : Ctx) (hdisc : (env.node i).discriminator = none) :
    modelApply env rec i m v (re c nm g sc) =
      (modelApply env rec i m v c).map fun r => (r.1, r.2.1, re r.2.2 nm g sc) := by
  cases v with
  | dict d =>
    unfold modelApply
    simp only [supplyAll_re, hdisc, bind, Except.bind, pure, Except.pure]
    split
    · rfl
    · cases supplyAll env rec i m c d with
      | error e => rfl
      | ok r =>
        simp only [Except.map]
        cases fillDefaults env rec (env.node i) r.1
          (env.order ((Dict.keys (env.node i).properties).filter fun k => !Dict.has r.1 k)) with
        | error e => rfl
        | ok s =>
          simp only
          cases (env.node i).required.any fun k => !Dict.has s k <;> rfl
  | _ => rfl

theorem cleanup_re (env : Env ω) (rec : Rec ω) (nm g sc) (m : Dict Str (Prim ω)) (v : Val) (c : Ctx) :
    cleanup env rec m v (re c nm g sc) = (cleanup env rec m v c).map fun r => (r.1, re r.2 nm g sc) := by
  obtain ⟨cn, cg, cs, ca, c2, cr⟩ := c
  unfold cleanup
  simp only [re]
  cases ca with
  | true => cases v <;> rfl
  | false =>
    cases cs with
    | none => rfl
    | some j =>
      simp only [Bool.false_eq_true, if_false]
      cases v with
      | dict d =>
        cases (env.node j).additional with
        | schema q =>
          simp only
          cases addConverted rec q m d <;> rfl
        | _ => rfl
      | _ => rfl

theorem supplyAll_one (env : Env ω) (rec : Rec ω) (i : Nat) (d : List (Str × Val)) :
    ∀ (m : Dict Str (Prim ω)) (c : Ctx) {m' c'}, (c.addp = false ∨ c.addpSchema = none) →
      (c.addp = true → (env.node i).additional = .yes) →
      (c.addpSchema ≠ none → ∃ q, (env.node i).additional = .schema q) →
      supplyAll env rec i m c d = .ok (m', c') → c'.addp = false ∨ c'.addpSchema = none := by
  induction d with
  | nil =>
    intro m c m' c' h _ _ he
    simp only [supplyAll, Except.ok.injEq, Prod.mk.injEq] at he
    rw [← he.2]; exact h
  | cons e d ih =>
    obtain ⟨k, v⟩ := e
    intro m c m' c' h h1 h2 he
    rw [supplyAll] at he
    cases hs : supply env rec i m c k v with
    | error e => rw [hs] at he; cases he
    | ok r =>
      obtain ⟨m1, c1⟩ := r
      rw [hs] at he
      have key : (c1.addp = false ∨ c1.addpSchema = none) ∧
          (c1.addp = true → (env.node i).additional = .yes) ∧
          (c1.addpSchema ≠ none → ∃ q, (env.node i).additional = .schema q) := by
        unfold supply at hs
        simp only at hs
        cases hg : Dict.get? (env.node i).properties k with
        | some p =>
          rw [hg] at hs
          simp only at hs
          split at hs
          · cases hs
          · cases hn : nested rec p v with
            | error e => rw [hn] at hs; cases hs
            | ok x =>
              rw [hn] at hs
              simp only [Except.ok.injEq, Prod.mk.injEq] at hs
              rw [← hs.2]; exact ⟨h, h1, h2⟩
        | none =>
          rw [hg] at hs
          cases ha : (env.node i).additional with
          | no =>
            rw [ha] at hs
            simp only [Except.ok.injEq, Prod.mk.injEq] at hs
            rw [← hs.2, ← ha]; exact ⟨h, h1, h2⟩
          | yes =>
            rw [ha] at hs
            simp only [Except.ok.injEq, Prod.mk.injEq] at hs
            have : c.addpSchema = none := Classical.byContradiction fun hc => by
              obtain ⟨q, hq⟩ := h2 hc
              rw [ha] at hq; cases hq
            rw [← hs.2]
            exact ⟨Or.inr this, fun _ => rfl, fun hc => absurd this hc⟩
          | schema q =>
            rw [ha] at hs
            simp only [Except.ok.injEq, Prod.mk.injEq] at hs
            have : c.addp = false := by
              cases hc : c.addp with
              | false => rfl
              | true => have := h1 hc; rw [ha] at this; cases this
            rw [← hs.2]
            exact ⟨Or.inl this, fun hc => by simp [this] at hc, fun _ => ⟨q, rfl⟩⟩
      exact ih m1 c1 key.1 key.2.1 key.2.2 he

theorem modelApply_one (env : Env ω) (rec : Rec ω) (i : Nat) (m : Dict Str (Prim ω)) (v : Val) (c : Ctx)
    (h1 : c.addp = false) (h2 : c.addpSchema = none) {m' rest c'}
    (h : modelApply env rec i m v c = .ok (m', rest, c')) : c'.addp = false ∨ c'.addpSchema = none := by
  cases v with
  | dict d =>
    unfold modelApply at h
    simp only [bind, Except.bind, pure, Except.pure] at h
    split at h
    next => cases h
    · cases hs : supplyAll env rec i m c d with
      | error e => rw [hs] at h; cases h
      | ok r =>
        have hone := supplyAll_one env rec i d m c (m' := r.1) (c' := r.2) (Or.inl h1)
          (fun hc => by simp [h1] at hc) (fun hc => absurd h2 hc) hs
        rw [hs] at h
        simp only at h
        cases hf : fillDefaults env rec (env.node i) r.1
          (env.order ((Dict.keys (env.node i).properties).filter fun k => !Dict.has r.1 k)) with
        | error e => rw [hf] at h; cases h
        | ok s =>
          rw [hf] at h
          simp only at h
          split at h
          next => cases h
          · cases hdisc : (env.node i).discriminator with
            | none =>
              rw [hdisc] at h
              simp only [Except.ok.injEq, Prod.mk.injEq] at h
              rw [← h.2.2]; exact hone
            | some k =>
              rw [hdisc] at h
              cases hn : r.2.name with
              | none => rw [hn] at h; cases h
              | some nm =>
                rw [hn] at h
                simp only [Except.ok.injEq, Prod.mk.injEq] at h
                rw [← h.2.2]; exact hone
  | _ => cases h

theorem cleanup_one (env : Env ω) (rec : Rec ω) (m : Dict Str (Prim ω)) (v : Val) (c : Ctx)
    (h : c.addp = false ∨ c.addpSchema = none) {m' c'} (he : cleanup env rec m v c = .ok (m', c')) :
    c'.addp = false ∧ c'.addpSchema = none := by
  unfold cleanup at he
  cases hp : c.addp with
  | true =>
    have h2 : c.addpSchema = none := by rcases h with h | h; simp [hp] at h; exact h
    simp only [hp, if_true] at he
    cases v with
    | dict d =>
      simp only [Except.ok.injEq, Prod.mk.injEq] at he
      rw [← he.2]; exact ⟨rfl, h2⟩
    | _ => cases he
  | false =>
    simp only [hp, Bool.false_eq_true, if_false] at he
    cases hs : c.addpSchema with
    | none =>
      rw [hs] at he
      simp only [Except.ok.injEq, Prod.mk.injEq] at he
      rw [← he.2]; exact ⟨hp, hs⟩
    | some j =>
      rw [hs] at he
      simp only at he
      split at he
      next q _ d _ =>
        cases ha : addConverted rec _ m _ with
        | error e => rw [ha] at he; cases he
        | ok s =>
          rw [ha] at he
          simp only [Except.ok.injEq, Prod.mk.injEq] at he
          rw [← he.2]; exact ⟨rfl, rfl⟩
      · cases he

/-- **C36** (wrapper). A schema without type and properties that forbids additional properties and
has an object schema as the only part of its allOf converts objects exactly as the part does. -/
theorem C36_wrapper (env : Env ω) (n id w a p : Nat) (d : Dict Str Val) (read : Bool)
    (hw : env.deref id = .ok w) (ht : (env.node w).type = none) (hs : (env.node w).isSchema = true)
    (hps : (env.node w).properties = []) (hadd : (env.node w).additional = .no)
    (hall : (env.node w).allOf = [a]) (hne : p ≠ w)
    (ha : env.deref a = .ok p) (hp : env.deref p = .ok p) (hm : ReadAsModel env p)
    (hpa : (env.node p).allOf = []) (hdisc : (env.node p).discriminator = none) :
    convert env (n + 2) id (.dict d) read = convert env (n + 1) p (.dict d) read := by
  have hv : effective env id (.dict d) = .dict d := by simp [effective]
  rw [convert_step env (n + 1) id w (.dict d) read hw (by rw [hv]; simp), hv,
    convert_dict env n p p d read hp hm hpa]
  have hfirst : first env (produce env (n + 1)) w (.dict d) (topCtx env w read) =
      .ok (.none, .dict d, topCtx env w read) := by
    unfold first
    simp [ht, hs, hps, hadd]
  have hg : Utils.CycleGuard.update (topCtx env w read).guard p = .ok [w, p] := by
    simp [Utils.CycleGuard.update, topCtx, hne]
  -- the first pass over the part, in its own and in the wrapper's context
  have hpass : ∃ sc : Option Handler, ∀ c : Ctx, c.second = none →
      first env (produce env n) p (.dict d) c =
        (modelApply env (produce env n) p [] (.dict d) c).map fun r =>
          (.model r.1, r.2.1, { r.2.2 with second := sc.or r.2.2.second }) := by
    obtain ⟨hs, ht | ⟨h1, h2⟩⟩ := hm
    · refine ⟨some .model, fun c _ => ?_⟩
      rw [first_typed env _ p _ _ ht.1 ht.2]
      simp only [create]
      cases modelApply env (produce env n) p [] (.dict d) c <;> rfl
    · refine ⟨none, fun c _ => ?_⟩
      have hno : ¬ ((env.node p).type ≠ none ∧ (env.node p).type ≠ some []) := by
        rcases h1 with h | h <;> simp [h]
      unfold first
      simp only
      rw [if_neg hno]
      simp only [hs, Bool.true_eq_false, if_false]
      rw [if_pos h2]
      cases modelApply env (produce env n) p [] (.dict d) c <;> rfl
  obtain ⟨sc, hpass⟩ := hpass
  have hpb : produce env (n + 1) = produceBody env (produce env n) := rfl
  have hrec : produce env (n + 1) p (.dict d) (topCtx env w read) =
      match first env (produce env n) p (.dict d)
        (re (topCtx env p read) ((env.node w).name.or (env.node p).name) [w, p] none) with
      | .error e => .error e
      | .ok q =>
        if isFinalAtom q.1 then .ok (q.1, q.2.2)
        else finish env (produce env n) q := by
    rw [hpb]
    generalize produce env n = rec
    unfold produceBody
    simp only [hp, reduceCtorEq, if_false, hg]
    have hcx : (⟨(topCtx env w read).name.or (env.node p).name, [w, p], (topCtx env w read).addpSchema,
        (topCtx env w read).addp, (topCtx env w read).second, (topCtx env w read).read⟩ : Ctx) =
      re (topCtx env p read) ((env.node w).name.or (env.node p).name) [w, p] none := rfl
    rw [hcx]
    cases first env rec p (.dict d)
        (re (topCtx env p read) ((env.node w).name.or (env.node p).name) [w, p] none) with
    | error e => rfl
    | ok q =>
      simp only [applyAllOf_nil env rec p q hpa]
  rw [hpass _ rfl, modelApply_re env _ p _ _ _ _ _ _ hdisc] at hrec
  rw [hfirst]
  simp only [isFinalAtom, Bool.false_eq_true, if_false, applyAllOf, hall, allOfLoop, ha, truthy, hrec]
  cases hma : modelApply env (produce env n) p [] (.dict d) (topCtx env p read) with
  | error e => rfl
  | ok r =>
    obtain ⟨m, rest, c⟩ := r
    have h1 := modelApply_one env _ p [] _ (topCtx env p read) rfl rfl hma
    simp only [Except.map, Bool.false_eq_true, if_false, finish]
    have hre : { re c ((env.node w).name.or (env.node p).name) [w, p] none with
        second := sc.or (re c ((env.node w).name.or (env.node p).name) [w, p] none).second } =
        re c ((env.node w).name.or (env.node p).name) [w, p] (sc.or none) := rfl
    rw [hre, cleanup_re]
    cases hcl : cleanup env (produce env n) m rest c with
    | error e => rfl
    | ok q =>
      obtain ⟨m', c'⟩ := q
      obtain ⟨k1, k2⟩ := cleanup_one env _ m rest c h1 hcl
      simp only [Except.map]
      have hfin : cleanup env (produce env (n + 1)) m' (.dict d)
          (re c' ((env.node w).name.or (env.node p).name) [w, p] (sc.or none)) =
          .ok (m', re c' ((env.node w).name.or (env.node p).name) [w, p] (sc.or none)) := by
        simp only [cleanup, re, k1, k2, Bool.false_eq_true, if_false]
      cases m' with
      | nil =>
        simp only [List.isEmpty_nil, Bool.not_true, Bool.false_eq_true, if_false]
        rw [hfin]
      | cons x m' =>
        simp only [List.isEmpty_cons, Bool.not_false, if_true, applyLeft]
        rw [hfin]

example : convert (C33.world fun
      | 0 => { additional := .no, allOf := [1] }
      | 1 => { type := some c!"object", properties := [(c!"id", 2)] }
      | _ => { type := some c!"integer" }) 3 0 (.dict [(c!"id", .int 5), (c!"n", .int 9)]) true =
    .ok (.model [(c!"id", .int 5), (c!"n", .raw (.int 9))]) := by rfl

end Props.C36
