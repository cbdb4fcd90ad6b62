import Verif.Props.C57
/-!
# C58: generated objects contain all required properties

As in C57, `Run g r` says that some sequence of random draws makes `g` end in `r`, and the theorems
are about all of them.
-/

namespace Props.C58
open Py Prim Render Spec.Rendered Props.C57

/-! ## what is rendered -/

/-- **C58** (objects). For an object schema, exactly the dicts made of the declared properties in
their order (templates as given, required ones always, others left out or, without
`minimal_property`, rendered; with `max_property` all) followed by the additional properties. -/
theorem C58_object (env : Render.Env) (opt : Opt) (rounds fuel id t : Nat) (v : Val)
    (hi : Is env id t c!"object") (hw : Dict.WF (env.node t).properties) :
    Run (generate env opt rounds (fuel + 1) id) (.value v) ↔
      (env.node t).isSchema = true ∧ ∃ d n x, v = .dict (d ++ x) ∧
        Declared opt (env.node t).required (fun p w => Run (generate env opt rounds fuel p) (.value w))
          (env.node t).properties d n ∧
        Extra opt rounds (env.node t) (fun p w => Run (generate env opt rounds fuel p) (.value w))
          (d.map Prod.fst) n x := by
  rw [generate_object env opt rounds fuel id t hi.1 hi.2, run_object hw]

/-- **C58** (errors). What rendering an object raises: `AttributeError` for a parameter or header
of type object; what rendering a declared property raises, if it may be rendered and all before it
could be completed; and what adding properties raises. -/
theorem C58_raises (env : Render.Env) (opt : Opt) (rounds fuel id t : Nat) (e : Exc)
    (hi : Is env id t c!"object") (hw : Dict.WF (env.node t).properties) :
    Run (generate env opt rounds (fuel + 1) id) (.raises e) ↔
      ((env.node t).isSchema = false ∧ e = .AttributeError) ∨
      ((env.node t).isSchema = true ∧
        ((∃ l1 name p l2 d n, (env.node t).properties = l1 ++ (name, p) :: l2 ∧
          Declared opt (env.node t).required (fun p w => Run (generate env opt rounds fuel p) (.value w)) l1 d n ∧
          May opt (env.node t).required name ∧ Run (generate env opt rounds fuel p) (.raises e)) ∨
        (∃ d n, Declared opt (env.node t).required (fun p w => Run (generate env opt rounds fuel p) (.value w))
            (env.node t).properties d n ∧
          ExtraRaises opt rounds (env.node t) (fun p => Run (generate env opt rounds fuel p))
            (d.map Prod.fst) n e))) := by
  rw [generate_object env opt rounds fuel id t hi.1 hi.2, run_object_raises hw]

/-- **C58** (contents). A rendered object is a dict without duplicate names. Every declared
property that is required, in the template, or (with `max_property`) any, is there; a declared
property has the template's value, or a value rendered for it, and then, with
`minimal_property` and without `max_property`, it is required. Other names come from the additional
properties: they are made of letters and their values are rendered for the schema given. -/
theorem C58_contents (env : Render.Env) (opt : Opt) (rounds fuel id t : Nat) (v : Val)
    (hi : Is env id t c!"object") (hw : Dict.WF (env.node t).properties)
    (h : Run (generate env opt rounds (fuel + 1) id) (.value v)) :
    ∃ d : Dict Str Val, v = .dict d ∧ Dict.WF d ∧
      (∀ k p, Dict.get? (env.node t).properties k = some p →
        k ∈ (env.node t).required ∨ Dict.get? opt.objectTemplate k ≠ none ∨ opt.maxProperty = true →
        Dict.get? d k ≠ none) ∧
      (∀ k w, Dict.get? d k = some w →
        (∃ p, Dict.get? (env.node t).properties k = some p ∧
          (Dict.get? opt.objectTemplate k = some w ∨
            (Dict.get? opt.objectTemplate k = none ∧ Run (generate env opt rounds fuel p) (.value w) ∧
              (opt.minimalProperty = true → opt.maxProperty = false → k ∈ (env.node t).required)))) ∨
        (∃ p, (env.node t).additional = .schema p ∧ Run (generate env opt rounds fuel p) (.value w) ∧
          k.length ≤ opt.maxNameLength ∧ ∀ c ∈ k, Letter c)) := by
  obtain ⟨_, d, n, x, rfl, hd, hx⟩ := (C58_object env opt rounds fuel id t v hi hw).1 h
  have hxm : (x.map Prod.fst).Nodup ∧ ∀ k v, (k, v) ∈ x → k ∉ d.map Prod.fst ∧
      ∃ q, (env.node t).additional = .schema q ∧ Run (generate env opt rounds fuel q) (.value v) ∧
        k.length ≤ opt.maxNameLength ∧ ∀ c ∈ k, Letter c := by
    cases ha : (env.node t).additional with
    | schema q =>
      obtain ⟨lo, hi, total, _, _, _, _, _, _, _, hmore⟩ := hx.1 q ha
      obtain ⟨m1, m2⟩ := more_mem hmore
      refine ⟨m1, fun k v hkv => ?_⟩
      obtain ⟨a1, a2, a3, a4⟩ := m2 k v hkv
      exact ⟨a1, q, rfl, a4, a2, a3⟩
    | no => have := hx.2 (by rw [ha]; simp); subst this; simp
    | yes => have := hx.2 (by rw [ha]; simp); subst this; simp
  refine ⟨d ++ x, rfl, ?_, ?_, ?_⟩
  · unfold Dict.WF Dict.keys
    rw [List.map_append, List.nodup_append]
    refine ⟨(declared_sub hd).nodup hw, hxm.1, ?_⟩
    rintro a h1 b h2 rfl
    obtain ⟨⟨k, w⟩, h3, rfl⟩ := List.mem_map.1 h2
    exact (hxm.2 k w h3).1 h1
  · intro k p hk hor hnone
    rw [Dict.get?_eq_none_iff] at hnone
    apply hnone
    unfold Dict.keys
    rw [List.map_append]
    refine List.mem_append_left _ (declared_has hd (Dict.mem_of_get? hk) ?_)
    rcases hor with h | h | h
    · exact .inr (.inr h)
    · exact .inl h
    · exact .inr (.inl h)
  · intro k w hk
    rcases get_of_mem_append hk with hm | hm
    · obtain ⟨p, hp, hor⟩ := declared_mem hd hm
      refine .inl ⟨p, Dict.get?_of_mem hw hp, ?_⟩
      rcases hor with h | ⟨⟨h1, h2⟩, h3⟩
      · exact .inl h
      · refine .inr ⟨h1, h3, fun a b => ?_⟩
        rcases h2 with h2 | h2 | h2
        · rw [b] at h2; cases h2
        · exact h2
        · rw [a] at h2; cases h2
    · exact .inr (hxm.2 k w hm).2

/-- **C58** (every choice). Without `max_property` and `minimal_property`, whether an optional
property is there is left to chance: for any set of names there is a run with exactly the required,
the templated and these, provided each property has a value. -/
theorem C58_any (env : Render.Env) (opt : Opt) (rounds fuel id t : Nat) (want : Str → Bool)
    (hi : Is env id t c!"object") (hw : Dict.WF (env.node t).properties)
    (hs : (env.node t).isSchema = true) (ha : ∀ p, (env.node t).additional ≠ .schema p)
    (h1 : opt.maxProperty = false) (h2 : opt.minimalProperty = false)
    (hv : ∀ k p, Dict.get? (env.node t).properties k = some p →
      ∃ v, Run (generate env opt rounds fuel p) (.value v)) :
    ∃ d : Dict Str Val, Run (generate env opt rounds (fuel + 1) id) (.value (.dict d)) ∧
      ∀ k, Dict.get? d k ≠ none ↔ Dict.get? (env.node t).properties k ≠ none ∧
        (k ∈ (env.node t).required ∨ Dict.get? opt.objectTemplate k ≠ none ∨ want k = true) := by
  have key : ∀ l : List (Str × Nat), (∀ e ∈ l, ∃ v, Run (generate env opt rounds fuel e.2) (.value v)) →
      ∃ d n, Declared opt (env.node t).required (fun p w => Run (generate env opt rounds fuel p) (.value w)) l d n ∧
        ∀ k, k ∈ d.map Prod.fst ↔ k ∈ l.map Prod.fst ∧
          (k ∈ (env.node t).required ∨ Dict.get? opt.objectTemplate k ≠ none ∨ want k = true) := by
    intro l
    induction l with
    | nil => intro _; exact ⟨[], 0, .nil, by simp⟩
    | cons e l ih =>
      obtain ⟨name, p⟩ := e
      intro hl
      obtain ⟨d, n, hd, hk⟩ := ih fun e he => hl e (List.mem_cons_of_mem _ he)
      cases hT : Dict.get? opt.objectTemplate name with
      | some v =>
        refine ⟨_, _, .template name p v _ _ _ hT hd, ?_⟩
        intro k
        simp only [List.map_cons, List.mem_cons, hk]
        constructor
        · rintro (rfl | ⟨a, b⟩)
          · exact ⟨.inl rfl, .inr (.inl (by simp [hT]))⟩
          · exact ⟨.inr a, b⟩
        · rintro ⟨rfl | a, b⟩
          · exact .inl rfl
          · exact .inr ⟨a, b⟩
      | none =>
        by_cases hc : name ∈ (env.node t).required ∨ want name = true
        · obtain ⟨v, hv⟩ := hl (name, p) List.mem_cons_self
          refine ⟨_, _, .made name p v _ _ _ hT (.inr (.inr h2)) hv hd, ?_⟩
          intro k
          simp only [List.map_cons, List.mem_cons, hk]
          constructor
          · rintro (rfl | ⟨a, b⟩)
            · exact ⟨.inl rfl, by rcases hc with h | h <;> simp [h]⟩
            · exact ⟨.inr a, b⟩
          · rintro ⟨rfl | a, b⟩
            · exact .inl rfl
            · exact .inr ⟨a, b⟩
        · refine ⟨_, _, .skip name p _ _ _ hT h1 (fun x => hc (.inl x)) hd, ?_⟩
          intro k
          simp only [List.map_cons, List.mem_cons, hk]
          constructor
          · rintro ⟨a, b⟩; exact ⟨.inr a, b⟩
          · rintro ⟨rfl | a, b⟩
            · rcases b with b | b | b
              · exact absurd (.inl b) hc
              · exact absurd hT b
              · exact absurd (.inr b) hc
            · exact ⟨a, b⟩
  obtain ⟨d, n, hd, hk⟩ := key (env.node t).properties
    (fun e he => hv e.1 e.2 (Dict.get?_of_mem hw he))
  refine ⟨d, (C58_object env opt rounds fuel id t _ hi hw).2
    ⟨hs, d, n, [], by simp, hd, fun p hp => absurd hp (ha p), fun _ => rfl⟩, ?_⟩
  intro k
  have e1 : Dict.get? d k ≠ none ↔ k ∈ d.map Prod.fst := by
    rw [ne_eq, Dict.get?_eq_none_iff]; exact Decidable.not_not
  have e2 : Dict.get? (env.node t).properties k ≠ none ↔ k ∈ (env.node t).properties.map Prod.fst := by
    rw [ne_eq, Dict.get?_eq_none_iff]; exact Decidable.not_not
  rw [e1, e2, hk]

/-! ## rendering succeeds -/

/-- Objects that can be rendered within `n` stack frames: their limits leave something to choose,
and so do those of their items and properties. `loops`: additional properties and exclusive minima
of numbers are allowed, for which the renderer tries until it finds a fitting draw. -/
inductive Sound (env : Render.Env) (opt : Opt) (loops : Prop) : Nat → Nat → Prop where
  | integer (n id t : Nat) : Is env id t c!"integer" →
      (env.node t).format ∈ [none, some c!"", some c!"int32", some c!"int64"] →
      (∃ d, Drawn (env.node t) d) → Sound env opt loops (n + 1) id
  | number (n id t : Nat) : Is env id t c!"number" →
      (env.node t).format ∈ [none, some c!"", some c!"float", some c!"double"] →
      (loops ∨ (env.node t).exclusiveMinimum = false) → Sound env opt loops (n + 1) id
  | string (n id t : Nat) : Is env id t c!"string" →
      (env.node t).format ∈ [none, some c!"", some c!"password"] →
      (∃ k, LengthBetween (env.node t).minLength (env.node t).maxLength opt.maxStrLength k) →
      Sound env opt loops (n + 1) id
  | email (n id t : Nat) : Is env id t c!"string" → (env.node t).format = some c!"email" →
      Sound env opt loops (n + 1) id
  | boolean (n id t : Nat) : Is env id t c!"boolean" → (env.node t).format ∈ [none, some c!""] →
      Sound env opt loops (n + 1) id
  | array (n id t it : Nat) : Is env id t c!"array" → (env.node t).items = some it →
      (∃ k, LengthBetween (env.node t).minItems (env.node t).maxItems opt.maxArrayLength k) →
      Sound env opt loops n it → Sound env opt loops (n + 1) id
  | object (n id t : Nat) : Is env id t c!"object" → (env.node t).isSchema = true →
      (∀ k p, (k, p) ∈ (env.node t).properties → May opt (env.node t).required k → Sound env opt loops n p) →
      (∀ p, (env.node t).additional = .schema p → loops ∧ ∃ lo hi, (env.node t).minProperties = some lo ∧
        lo ≠ 0 ∧ LimitOr (env.node t).maxProperties opt.maxPropCount hi ∧ lo ≤ hi) →
      (∀ p, (env.node t).additional = .schema p → Sound env opt loops n p) →
      Sound env opt loops (n + 1) id

/-- ends in a value, or is (if `loops`) still running -/
def Good {α : Type} (loops : Prop) (g : Gen α) : Prop :=
  ∀ r, Run g r → (∃ v, r = .value v) ∨ (loops ∧ r = .running)

theorem Good.ret {α : Type} {loops : Prop} (a : α) : Good loops (.ret a) :=
  fun _ h => .inl ⟨a, run_ret.1 h⟩

theorem Good.bind {α β : Type} {loops : Prop} {g : Gen α} {f : α → Gen β} (hg : Good loops g)
    (hf : ∀ a, Run g (.value a) → Good loops (f a)) : Good loops (g.bind f) := by
  intro r h
  rw [run_bind] at h
  rcases h with ⟨a, ha, h⟩ | ⟨e, he, _⟩ | ⟨h, rfl⟩
  · exact hf a ha r h
  · rcases hg _ he with ⟨v, h⟩ | ⟨_, h⟩ <;> cases h
  · rcases hg _ h with ⟨v, h⟩ | ⟨h, _⟩
    · cases h
    · exact .inr ⟨h, rfl⟩

theorem Good.times {α : Type} {loops : Prop} {g : Gen α} (hg : Good loops g) (n : Nat) : Good loops (times g n) := by
  induction n with
  | zero => exact .ret _
  | succ n ih => exact hg.bind fun a _ => ih.bind fun l _ => .ret _

theorem Good.randint {loops : Prop} {a b : Int} (h : a ≤ b) : Good loops (randint a b) := by
  intro r hr
  rcases run_randint.1 hr with ⟨n, _, _, rfl⟩ | ⟨h', _⟩
  · exact .inl ⟨n, rfl⟩
  · omega

theorem Good.choice {α : Type} {loops : Prop} {d : α} {l : List α} (h : l ≠ []) : Good loops (choice d l) := by
  intro r hr
  obtain ⟨a, _, rfl⟩ := (run_choice h).1 hr
  exact .inl ⟨a, rfl⟩

theorem Good.text {loops : Prop} {l : Str} (h : l ≠ []) (n : Nat) : Good loops (text l n) :=
  Good.times (Good.choice h) n

theorem good_email {loops : Prop} (v : Val) : Good loops (makeEmail v) := by
  unfold makeEmail
  split
  · exact .ret _
  · have hl : letters ≠ [] := by decide
    have hn : nameChars ≠ [] := by decide
    refine (Good.randint (by decide)).bind fun _ _ => (Good.randint (by decide)).bind fun _ _ =>
      (Good.randint (by decide)).bind fun _ _ => (Good.times ?_ _).bind fun _ _ => (Good.choice hl).bind fun _ _ =>
      (Good.text hn _).bind fun _ _ => (Good.choice hl).bind fun _ _ => (Good.text hn _).bind fun _ _ => .ret _
    exact (Good.choice hl).bind fun _ _ => (Good.randint (by decide)).bind fun _ _ =>
      (Good.text hn _).bind fun _ _ => (Good.choice hl).bind fun _ _ => .ret _

theorem good_declared {loops : Prop} {rec : Rec} {opt : Opt} {o : Render.Node} (l : List (Str × Nat))
    (hl : ∀ k p, (k, p) ∈ l → May opt o.required k → Good loops (rec p)) (st : Dict Str Val × Nat) :
    Good loops (declared rec opt o l st) := by
  induction l generalizing st with
  | nil => exact .ret _
  | cons e l ih =>
    obtain ⟨name, p⟩ := e
    obtain ⟨out, c⟩ := st
    have ih' := ih fun k p h => hl k p (List.mem_cons_of_mem _ h)
    intro r h
    rw [run_declared_cons] at h
    rcases h with ⟨v, _, h⟩ | ⟨_, _, _, h⟩ | ⟨hm, h⟩
    · exact ih' _ r h
    · exact ih' _ r h
    · exact (Good.bind (hl name p List.mem_cons_self hm) fun v _ => ih' _) r h

theorem good_oneMore {loops : Prop} (hloops : loops) {rec : Rec} {opt : Opt} {p : Nat} (hp : Good loops (rec p))
    (out : Dict Str Val) (n : Nat) : Good loops (oneMore rec opt p out n) := by
  induction n with
  | zero => exact fun r h => .inr ⟨hloops, run_stuck.1 h⟩
  | succ n ih =>
    intro r h
    rw [run_oneMore_step] at h
    rcases h with ⟨_, _, _, _, h⟩ | ⟨_, _, h⟩
    · exact ih r h
    · exact (hp.bind fun v _ => .ret _) r h

theorem good_manyMore {loops : Prop} (hloops : loops) {rec : Rec} {opt : Opt} {p rounds : Nat} (hp : Good loops (rec p))
    (n : Nat) (out : Dict Str Val) : Good loops (manyMore rec opt rounds p n out) := by
  induction n generalizing out with
  | zero => exact .ret _
  | succ n ih => exact (good_oneMore hloops hp out rounds).bind fun a _ => ih a

theorem good_leaf {loops : Prop} {env : Render.Env} {opt : Opt} {rounds t : Nat} {type : Str} {m : Maker}
    (hm : maker type (env.node t).format = some m) (h : ∀ v, Good loops (make env opt rounds t v m)) :
    Good loops (leaf env opt rounds t type) := by
  intro r hr
  rw [run_leaf] at hr
  obtain ⟨v, _, ⟨hn, _⟩ | ⟨m', hm', hr⟩⟩ := hr
  · rw [hm] at hn; cases hn
  · rw [hm] at hm'; cases hm'
    exact h v r hr

/-- **C58** (success). Whatever is drawn, rendering an object that is `Sound` raises nothing: it
ends in a value, or it is still looking for a fitting draw. Without such loops (additional
properties, exclusive minima of numbers) it always ends in a value. -/
theorem C58_succeeds (env : Render.Env) (opt : Opt) (rounds fuel n id : Nat) (loops : Prop)
    (hs : Sound env opt loops n id) (hf : n ≤ fuel) (hr : 0 < rounds) (r : Ends Val)
    (h : Run (generate env opt rounds fuel id) r) :
    (∃ v, r = .value v) ∨ (loops ∧ r = .running) := by
  suffices hg : Good loops (generate env opt rounds fuel id) from hg r h
  clear h r
  induction hs generalizing fuel with
  | integer n id t hi hfo hd =>
    obtain ⟨fuel, rfl⟩ := Nat.exists_eq_add_of_le' (Nat.lt_of_lt_of_le (Nat.succ_pos n) hf)
    have hk : maker c!"integer" (env.node t).format = some .int := by
      simp only [List.mem_cons, List.not_mem_nil, or_false] at hfo
      rcases hfo with h | h | h | h <;> rw [h] <;> decide
    rw [generate_leaf env opt rounds fuel id t _ hi.1 hi.2 (by decide) (by decide)]
    refine good_leaf hk fun v => ?_
    show Good loops (makeInt (env.node t) v)
    intro r hr'
    by_cases hv : truth v = true
    · unfold makeInt at hr'
      rw [if_pos hv] at hr'
      exact .inl ⟨_, run_ret.1 hr'⟩
    · have : makeInt (env.node t) v = makeInt (env.node t) .none := by
        unfold makeInt; rw [if_neg hv, if_neg (by simp [truth])]
      rw [this, run_makeInt] at hr'
      rcases hr' with ⟨d, _, rfl⟩ | ⟨h, _⟩
      · exact .inl ⟨_, rfl⟩
      · exact absurd hd h
  | number n id t hi hfo hx =>
    obtain ⟨fuel, rfl⟩ := Nat.exists_eq_add_of_le' (Nat.lt_of_lt_of_le (Nat.succ_pos n) hf)
    have hk : maker c!"number" (env.node t).format = some .float := by
      simp only [List.mem_cons, List.not_mem_nil, or_false] at hfo
      rcases hfo with h | h | h | h <;> rw [h] <;> decide
    rw [generate_leaf env opt rounds fuel id t _ hi.1 hi.2 (by decide) (by decide)]
    refine good_leaf hk fun v => ?_
    show Good loops (makeFloat rounds (env.node t) v)
    unfold makeFloat
    split
    · exact .ret _
    · intro r hr'
      rw [run_floatLoop] at hr'
      rcases hr' with ⟨_, k, _, _, rfl⟩ | ⟨rfl, h0 | ⟨k, _, _, h⟩⟩
      · exact .inl ⟨_, rfl⟩
      · omega
      · rcases hx with hx | hx
        · exact .inr ⟨hx, rfl⟩
        · rw [hx] at h; cases h
  | string n id t hi hfo hd =>
    obtain ⟨fuel, rfl⟩ := Nat.exists_eq_add_of_le' (Nat.lt_of_lt_of_le (Nat.succ_pos n) hf)
    have hk : maker c!"string" (env.node t).format = some .str := by
      simp only [List.mem_cons, List.not_mem_nil, or_false] at hfo
      rcases hfo with h | h | h <;> rw [h] <;> decide
    rw [generate_leaf env opt rounds fuel id t _ hi.1 hi.2 (by decide) (by decide)]
    refine good_leaf hk fun v => ?_
    show Good loops (makeStr opt (env.node t) v)
    intro r hr'
    by_cases hv : truth v = true
    · unfold makeStr at hr'
      rw [if_pos hv] at hr'
      exact .inl ⟨_, run_ret.1 hr'⟩
    · have : makeStr opt (env.node t) v = makeStr opt (env.node t) .none := by
        unfold makeStr; rw [if_neg hv, if_neg (by simp [truth])]
      rw [this, run_makeStr] at hr'
      rcases hr' with ⟨s, rfl, _⟩ | ⟨⟨lo, hi', h1, h2, h3⟩, _⟩
      · exact .inl ⟨_, rfl⟩
      · obtain ⟨k, lo', hi'', a1, a2, a3, a4⟩ := hd
        rw [← orElse_iff] at h1 h2 a1 a2
        omega
  | email n id t hi hfo =>
    obtain ⟨fuel, rfl⟩ := Nat.exists_eq_add_of_le' (Nat.lt_of_lt_of_le (Nat.succ_pos n) hf)
    have hk : maker c!"string" (env.node t).format = some .email := by rw [hfo]; decide
    rw [generate_leaf env opt rounds fuel id t _ hi.1 hi.2 (by decide) (by decide)]
    exact good_leaf hk fun v => good_email v
  | boolean n id t hi hfo =>
    obtain ⟨fuel, rfl⟩ := Nat.exists_eq_add_of_le' (Nat.lt_of_lt_of_le (Nat.succ_pos n) hf)
    have hk : maker c!"boolean" (env.node t).format = some .bool := by
      simp only [List.mem_cons, List.not_mem_nil, or_false] at hfo
      rcases hfo with h | h <;> rw [h] <;> decide
    rw [generate_leaf env opt rounds fuel id t _ hi.1 hi.2 (by decide) (by decide)]
    exact good_leaf hk fun v r h => .inl (let ⟨b, hb⟩ := run_makeBool h; ⟨_, hb⟩)
  | array n id t it hi hit hd _ ih =>
    obtain ⟨fuel, rfl⟩ := Nat.exists_eq_add_of_le' (Nat.lt_of_lt_of_le (Nat.succ_pos n) hf)
    rw [generate_array env opt rounds fuel id t hi.1 hi.2]
    unfold array
    rw [hit]
    refine (Good.randint ?_).bind fun _ _ => (Good.times (ih fuel (by omega)) _).bind fun _ _ => .ret _
    obtain ⟨k, lo', hi'', a1, a2, a3, a4⟩ := hd
    rw [← orElse_iff] at a1 a2
    omega
  | object n id t hi hsc _ hadd _ ihp iha =>
    obtain ⟨fuel, rfl⟩ := Nat.exists_eq_add_of_le' (Nat.lt_of_lt_of_le (Nat.succ_pos n) hf)
    rw [generate_object env opt rounds fuel id t hi.1 hi.2]
    unfold object
    rw [if_neg (by simp [hsc])]
    refine (good_declared _ (fun k p hk hm => ihp k p hk hm fuel (by omega)) _).bind fun st _ =>
      Good.bind ?_ fun _ _ => .ret _
    unfold additional
    cases ha : (env.node t).additional with
    | no => exact .ret _
    | yes => exact .ret _
    | schema p =>
      obtain ⟨hl, lo, hi', h1, h2, h3, h4⟩ := hadd p ha
      have e : orElse 0 (env.node t).minProperties 0 = lo := (orElse_iff _ _ _).2 (.inl ⟨h1, h2⟩)
      rw [← orElse_iff] at h3
      simp only [e, h3]
      cases lo with
      | zero => exact absurd rfl h2
      | succ lo =>
        exact (Good.randint (by omega)).bind fun k _ => good_manyMore hl (iha p ha fuel (by omega)) _ _

/-- every program has some outcome -/
theorem run_total {α : Type} (g : Gen α) : ∃ r, Run g r := by
  induction g with
  | ret a => exact ⟨_, .ret a⟩
  | fail e => exact ⟨_, .fail e⟩
  | stuck => exact ⟨_, .stuck⟩
  | pick n k ih => obtain ⟨r, h⟩ := ih 0; exact ⟨r, .pick _ _ 0 _ (Nat.zero_le _) h⟩

/-- **C58** (a value). An object that is `Sound` without loops has a rendered value. -/
theorem C58_value (env : Render.Env) (opt : Opt) (rounds fuel n id : Nat)
    (hs : Sound env opt False n id) (hf : n ≤ fuel) (hr : 0 < rounds) :
    ∃ v, Run (generate env opt rounds fuel id) (.value v) := by
  obtain ⟨r, h⟩ := run_total (generate env opt rounds fuel id)
  rcases C58_succeeds env opt rounds fuel n id False hs hf hr r h with ⟨v, rfl⟩ | ⟨h, _⟩
  · exact ⟨v, h⟩
  · exact h.elim

/-! ## concrete cases -/

theorem is_pet : Is (only pet) 0 0 c!"object" := ⟨rfl, rfl⟩

theorem fifteen : Run (generate (only pet) {} 1 1 1) (.value (.int 15)) :=
  (C57_integer (only pet) {} 1 0 1 1 _ ⟨rfl, rfl⟩ rfl (by decide) (by decide)).2
    (.inl ⟨17, 15, drawn_fives 17 (by decide) (by decide), by
      refine ⟨by rintro (h | h) <;> revert h <;> decide, ?_⟩
      intro m _ hm h0
      have e : ((5 : Int) : Rat) = (m : Rat) := hm
      have := Rat.intCast_inj.1 e
      subst this
      omega, rfl⟩)

/-- A pet without tags. -/
example : Run (generate (only pet) {} 1 2 0) (.value (.dict [(c!"id", .int 15)])) :=
  (C58_object (only pet) {} 1 1 0 0 _ is_pet (by decide)).2
    ⟨rfl, [(c!"id", .int 15)], 1, [], rfl,
      .made _ _ _ _ _ _ rfl (.inr (.inl List.mem_cons_self)) fifteen
        (.skip _ _ _ _ _ rfl rfl (by decide) .nil), (fun p h => by cases h), fun _ => rfl⟩

/-- Every pet has an id. -/
example (rounds fuel : Nat) (v : Val) (h : Run (generate (only pet) {} rounds (fuel + 1) 0) (.value v)) :
    ∃ d : Dict Str Val, v = .dict d ∧ Dict.get? d c!"id" ≠ none := by
  obtain ⟨d, h1, _, h2, _⟩ := C58_contents (only pet) {} rounds fuel 0 0 v is_pet (by decide) h
  exact ⟨d, h1, h2 c!"id" 1 rfl (.inl List.mem_cons_self)⟩

/-- Rendering a pet always succeeds within three stack frames. -/
theorem sound_pet : Sound (only pet) {} False 3 0 := by
  have hstr : Sound (only pet) {} False 1 3 :=
    .string _ _ 3 ⟨rfl, rfl⟩ (by decide) ⟨2, 2, 4, .inl ⟨rfl, by decide⟩, .inl ⟨rfl, by decide⟩, by decide, by decide⟩
  refine .object _ _ 0 is_pet rfl ?_ (fun p h => by cases h) (fun p h => by cases h)
  intro k p hk _
  simp only [only, pet, List.mem_cons, List.not_mem_nil, or_false, Prod.mk.injEq] at hk
  rcases hk with ⟨_, rfl⟩ | ⟨_, rfl⟩
  · exact .integer _ _ 1 ⟨rfl, rfl⟩ (by decide) ⟨10, drawn_fives 10 (by decide) (by decide)⟩
  · exact .array _ _ 2 3 ⟨rfl, rfl⟩ rfl
      ⟨0, 0, 2, .inr ⟨.inl rfl, rfl⟩, .inl ⟨rfl, by decide⟩, by decide, by decide⟩ hstr

example : ∃ v, Run (generate (only pet) {} 1 3 0) (.value v) :=
  C58_value (only pet) {} 1 3 3 0 sound_pet (Nat.le_refl _) (by decide)

/-- A map from names to `short` texts with one or two entries: the additional properties. -/
def bag : Nat → Render.Node
  | 0 => { type := some c!"object", isSchema := true, additional := .schema 1, minProperties := some 1,
           maxProperties := some 2 }
  | _ => short

example : Run (generate (only bag) {} 1 2 0) (.value (.dict [(c!"x", .str c!"ab")])) := by
  refine (C58_object (only bag) {} 1 1 0 0 _ ⟨rfl, rfl⟩ (by decide)).2
    ⟨rfl, [], 0, [(c!"x", .str c!"ab")], rfl, .nil, ?_, fun h => absurd rfl (h 1)⟩
  intro p hp
  cases hp
  refine ⟨1, 2, 1, rfl, by decide, .inl ⟨rfl, by decide⟩, by decide, by decide, rfl, by decide, ?_⟩
  refine .cons _ _ _ _ (by decide) (by decide) (by unfold Letter; decide) ?_ (.nil _)
  exact (C57_string (only bag) {} 1 0 1 1 _ ⟨rfl, rfl⟩ rfl (by decide)).2
    (.inl ⟨_, rfl, by unfold Letter; decide, 2, 4, .inl ⟨rfl, by decide⟩, .inl ⟨rfl, by decide⟩, by decide, by decide⟩)

/-! ## what does not hold -/

/-- With a schema for additional properties but no `minProperties`, rendering always raises
`TypeError`. -/
theorem C58_additional_false :
    ¬ ∀ node : Nat → Render.Node, (node 0).type = some c!"object" → (node 0).isSchema = true →
      (∃ x, convert (fac node) 2 0 (.dict []) true = .ok x) →
      ∃ v, Run (generate (only node) {} 1 2 0) (.value v) := by
  intro H
  obtain ⟨v, hv⟩ := H (fun i => if i = 0 then
    { type := some c!"object", isSchema := true, additional := .schema 1 } else short) rfl rfl ⟨_, rfl⟩
  obtain ⟨_, d, n, x, _, _, hx, _⟩ := (C58_object (only _) {} 1 1 0 0 _ ⟨rfl, rfl⟩ (by decide)).1 hv
  obtain ⟨lo, _, _, h, _⟩ := hx 1 rfl
  cases h

/-- A required property that is not declared is not rendered, and the object is refused. -/
theorem C58_undeclared_false :
    ¬ ∀ (o : Render.Node) (v : Val), o.type = some c!"object" → o.isSchema = true →
      Run (generate (only fun _ => o) {} 1 2 0) (.value v) →
      ∃ x, convert (fac fun _ => o) 3 0 v true = .ok x := by
  intro H
  obtain ⟨x, hx⟩ := H { type := some c!"object", isSchema := true, required := [c!"id"] } (.dict []) rfl rfl
    (.ret _)
  have : ∀ y : Except Exc (Prim.Prim Nat), (∃ e, y = .error e) → y = .ok x → False := by
    rintro y ⟨e, rfl⟩ h; cases h
  exact this _ ⟨_, rfl⟩ hx

/-- `maxProperties` is not kept by the declared properties. -/
theorem C58_maxProperties_false :
    ¬ ∀ (node : Nat → Render.Node) (d : Dict Str Val) (m : Nat), (node 0).type = some c!"object" →
      (node 0).isSchema = true → (node 0).required = [] → (node 0).maxProperties = some m →
      Run (generate (only node) {} 1 2 0) (.value (.dict d)) → d.length ≤ m := by
  intro H
  have hr : ∀ node : Nat → Render.Node, node = (fun i => if i = 0 then
      { type := some c!"object", isSchema := true, maxProperties := some 1,
        properties := [(c!"a", 1), (c!"b", 1)] } else { type := some c!"boolean" }) →
      Run (generate (only node) {} 1 2 0) (.value (.dict [(c!"a", .bool true), (c!"b", .bool true)])) := by
    rintro node rfl
    have hb : Run (generate (only fun i => if i = 0 then
        { type := some c!"object", isSchema := true, maxProperties := some 1,
          properties := [(c!"a", 1), (c!"b", 1)] } else { type := some c!"boolean" }) {} 1 1 1)
        (.value (.bool true)) := .pick 1 _ 0 _ (Nat.zero_le 1) (.ret _)
    exact (C58_object (only _) {} 1 1 0 0 _ ⟨rfl, rfl⟩ (by decide)).2
      ⟨rfl, _, 2, [], rfl, .made _ _ _ _ _ _ rfl (.inr (.inr rfl)) hb
        (.made _ _ _ _ _ _ rfl (.inr (.inr rfl)) hb .nil), (fun p h => by cases h), fun _ => rfl⟩
  have := H _ _ 1 rfl rfl rfl rfl (hr _ rfl)
  revert this; decide

/-- `minProperties` is not kept without a schema for additional properties. -/
theorem C58_minProperties_false :
    ¬ ∀ (o : Render.Node) (d : Dict Str Val) (m : Nat), o.type = some c!"object" → o.isSchema = true →
      o.additional = .yes → o.minProperties = some m →
      Run (generate (only fun _ => o) {} 1 2 0) (.value (.dict d)) → m ≤ d.length := by
  intro H
  have := H { type := some c!"object", isSchema := true, additional := .yes, minProperties := some 1 } [] 1 rfl rfl
    rfl rfl (.ret _)
  revert this; decide

/-- a list of optional length: an object with an optional property of its own kind -/
def chain (_ : Nat) : Render.Node :=
  { type := some c!"object", isSchema := true, properties := [(c!"next", 0)] }

/-- A recursive schema: the optional property can be rendered again and again, so that for every
depth of the stack there are draws that exceed it, although `{}` would do. -/
theorem C58_recursive_false :
    ¬ ∃ fuel, ∀ e, ¬ Run (generate (only chain) {} 1 fuel 0) (.raises e) := by
  rintro ⟨fuel, h⟩
  apply h .RecursionError
  clear h
  induction fuel with
  | zero => exact .fail _
  | succ fuel ih =>
    exact (C58_raises (only chain) {} 1 fuel 0 0 _ ⟨rfl, rfl⟩ (by decide)).2
      (.inr ⟨rfl, .inl ⟨[], c!"next", 0, [], [], 0, rfl, .nil, ⟨rfl, .inr (.inr rfl)⟩, ih⟩⟩)

/-- A template for a property that is not declared is not used. -/
theorem C58_template_false :
    ¬ ∀ (o : Render.Node) (opt : Opt) (d : Dict Str Val) (k : Str) (w : Val), o.type = some c!"object" →
      Dict.get? opt.objectTemplate k = some w →
      Run (generate (only fun _ => o) opt 1 1 0) (.value (.dict d)) → Dict.get? d k = some w := by
  intro H
  have := H { type := some c!"object", isSchema := true, additional := .yes }
    { objectTemplate := [(c!"id", .int 1)] } [] c!"id" (.int 1) rfl rfl (.ret _)
  cases this

/-- With `minimal_property` names that are not required are still added for additional
properties. -/
theorem C58_minimal_false :
    ¬ ∀ (node : Nat → Render.Node) (opt : Opt) (d : Dict Str Val) (k : Str), (node 0).type = some c!"object" →
      opt.minimalProperty = true → Run (generate (only node) opt 1 2 0) (.value (.dict d)) →
      Dict.get? d k ≠ none → k ∈ (node 0).required := by
  intro H
  have := H bag { minimalProperty := true } [(c!"x", .str c!"ab")] c!"x" rfl rfl (by
    refine (C58_object (only bag) _ 1 1 0 0 _ ⟨rfl, rfl⟩ (by decide)).2
      ⟨rfl, [], 0, [(c!"x", .str c!"ab")], rfl, .nil, ?_, fun h => absurd rfl (h 1)⟩
    intro p hp
    cases hp
    refine ⟨1, 2, 1, rfl, by decide, .inl ⟨rfl, by decide⟩, by decide, by decide, rfl, by decide, ?_⟩
    refine .cons _ _ _ _ (by decide) (by decide) (by unfold Letter; decide) ?_ (.nil _)
    exact (C57_string (only bag) _ 1 0 1 1 _ ⟨rfl, rfl⟩ rfl (by decide)).2
      (.inl ⟨_, rfl, by unfold Letter; decide, 2, 4, .inl ⟨rfl, by decide⟩, .inl ⟨rfl, by decide⟩, by decide,
        by decide⟩)) (by decide)
  revert this; decide

/-- The search for new names can go on for ever: when names have at most 0 letters there is only
one, and two are wanted. No number of rounds yields a value. -/
theorem C58_names_false :
    ¬ ∀ (node : Nat → Render.Node) (opt : Opt), (node 0).type = some c!"object" → Sound (only node) opt True 2 0 →
      ∃ rounds v, Run (generate (only node) opt rounds 2 0) (.value v) := by
  intro H
  obtain ⟨rounds, v, hv⟩ := H (fun i => if i = 0 then
      { type := some c!"object", isSchema := true, additional := .schema 1, minProperties := some 2 } else short)
    { maxNameLength := 0 } rfl (by
      refine .object _ _ 0 ⟨rfl, rfl⟩ rfl (fun k p h => by cases h) ?_ ?_
      · intro p hp
        exact ⟨trivial, 2, 32, rfl, by decide, .inr ⟨.inl rfl, rfl⟩, by decide⟩
      · intro p hp
        cases hp
        exact .string _ _ 1 ⟨rfl, rfl⟩ (by decide)
          ⟨2, 2, 4, .inl ⟨rfl, by decide⟩, .inl ⟨rfl, by decide⟩, by decide, by decide⟩)
  obtain ⟨_, d, n, x, _, hd, hx, _⟩ := (C58_object (only _) _ rounds 1 0 0 _ ⟨rfl, rfl⟩ (by decide)).1 hv
  have hd : Declared _ _ _ [] d n := hd
  cases hd
  obtain ⟨lo, hi, total, h1, _, _, h2, _, h3, _, hm⟩ := hx 1 rfl
  cases h1
  have hx2 : 2 ≤ x.length := by rw [h3]; exact h2
  cases hm with
  | nil => exact absurd hx2 (by decide)
  | cons _ a va x' a1 a2 a3 a4 a5 =>
    cases a5 with
    | nil => exact absurd hx2 (by simp)
    | cons _ b vb x'' b1 b2 b3 b4 b5 =>
      have ea := List.length_eq_zero_iff.1 (Nat.le_zero.1 a2)
      have eb := List.length_eq_zero_iff.1 (Nat.le_zero.1 b2)
      subst ea; subst eb
      exact b1 List.mem_cons_self

/-- Read-only properties are rendered, and refused by the operation. -/
theorem C58_readOnly_false :
    ¬ ∀ (node : Nat → Render.Node) (v : Val), (node 0).type = some c!"object" → (node 0).isSchema = true →
      Run (generate (only node) {} 1 2 0) (.value v) →
      ∃ x, convert (fac node) 3 0 v false = .ok x := by
  intro H
  have hr : ∀ node : Nat → Render.Node, node = (fun i => if i = 0 then
      { type := some c!"object", isSchema := true, properties := [(c!"a", 1)] }
      else { type := some c!"boolean", readOnly := true }) →
      Run (generate (only node) {} 1 2 0) (.value (.dict [(c!"a", .bool true)])) := by
    rintro node rfl
    have hb : Run (generate (only fun i => if i = 0 then
        { type := some c!"object", isSchema := true, properties := [(c!"a", 1)] }
        else { type := some c!"boolean", readOnly := true }) {} 1 1 1)
        (.value (.bool true)) := .pick 1 _ 0 _ (Nat.zero_le 1) (.ret _)
    exact (C58_object (only _) {} 1 1 0 0 _ ⟨rfl, rfl⟩ (by decide)).2
      ⟨rfl, _, 1, [], rfl, .made _ _ _ _ _ _ rfl (.inr (.inr rfl)) hb .nil, (fun p h => by cases h), fun _ => rfl⟩
  obtain ⟨x, hx⟩ := H _ _ rfl rfl (hr _ rfl)
  have : ∀ y : Except Exc (Prim.Prim Nat), y = .error .Exception → y = .ok x → False := by
    rintro y rfl h; cases h
  exact this _ (by rfl) hx

end Props.C58
