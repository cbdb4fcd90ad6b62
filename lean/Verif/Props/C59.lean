import Verif.Props.C58
import Verif.Props.C31
/-!
# C59: generated parameter sets can be passed to the operation

As in C57, `Run g r` says that some sequence of random draws makes `g` end in `r`, and the theorems
are about all of them.
-/

namespace Props.C59
open Py Prim Render Spec.Rendered Props.C57 Spec.Calls

variable {ω : Type}

/-- What rendering one parameter can end in: the schema of a body is rendered, any other parameter
itself; a body without schema raises `AttributeError`. -/
def Made (env : Render.Env) (opt : Opt) (rounds fuel : Nat) (p : Param) (r : Ends Val) : Prop :=
  (p.in_ ≠ some c!"body" ∧ Run (generate env opt rounds fuel p.obj) r) ∨
  (p.in_ = some c!"body" ∧ ((∃ s, p.schema = some s ∧ Run (generate env opt rounds fuel s) r) ∨
    (p.schema = none ∧ r = .raises .AttributeError)))

theorem run_render {env : Render.Env} {opt : Opt} {rounds fuel : Nat} {p : Param} {r : Ends Val} :
    Run (render env opt rounds fuel p) r ↔ Made env opt rounds fuel p r := by
  unfold render Made
  by_cases h : p.in_ = some c!"body"
  · rw [if_pos h]
    simp only [h, ne_eq, not_true_eq_false, false_and, false_or, true_and]
    cases hs : p.schema with
    | none => simp [item, run_fail]
    | some s => simp [item]
  · rw [if_neg h]
    simp [h]

/-- the dict made of the events in order: a later one of the same name replaces an earlier -/
def collect (d : Dict (Option Str) Val) (ev : List (Option Str × Val)) : Dict (Option Str) Val :=
  ev.foldl (fun d e => Dict.set d e.1 e.2) d

theorem excluded_iff {exclude : List Str} {p : Param} : p.name ∈ exclude.map some ↔ Excluded exclude p := by
  unfold Excluded
  rw [List.mem_map]
  constructor
  · rintro ⟨a, h, e⟩; exact ⟨a, h, e.symm⟩
  · rintro ⟨a, h, e⟩; exact ⟨a, h, e.symm⟩

theorem lookup_some {opt : Opt} {p : Param} {v : Val} :
    lookup opt.parameterTemplate p.name = some v ↔ ∃ n, p.name = some n ∧ Dict.get? opt.parameterTemplate n = some v := by
  unfold lookup
  cases p.name <;> simp

theorem lookup_none {opt : Opt} {p : Param} : lookup opt.parameterTemplate p.name = none ↔ Plain opt p := by
  unfold lookup Plain
  cases p.name <;> simp

theorem loop_cons {env : Render.Env} {opt : Opt} {rounds fuel : Nat} {exclude : List Str} {p : Param} {l : List Param}
    {out : Dict (Option Str) Val} {r : Ends (Dict (Option Str) Val)} :
    Run (renderLoop env opt rounds fuel exclude (p :: l) out) r ↔
      (Excluded exclude p ∧ Run (renderLoop env opt rounds fuel exclude l out) r) ∨
      (¬ Excluded exclude p ∧ ∃ n v, p.name = some n ∧ Dict.get? opt.parameterTemplate n = some v ∧
        Run (renderLoop env opt rounds fuel exclude l (Dict.set out p.name v)) r) ∨
      (¬ Excluded exclude p ∧ Plain opt p ∧ opt.maxParameter = false ∧ p.required = false ∧
        Run (renderLoop env opt rounds fuel exclude l out) r) ∨
      (¬ Excluded exclude p ∧ Plain opt p ∧
        (opt.maxParameter = true ∨ p.required = true ∨ opt.minimalParameter = false) ∧
        Run ((render env opt rounds fuel p).bind fun v =>
          renderLoop env opt rounds fuel exclude l (Dict.set out p.name v)) r) := by
  rw [renderLoop]
  by_cases hx : p.name ∈ exclude.map some
  · rw [if_pos hx]
    have := excluded_iff.1 hx
    simp [this]
  · rw [if_neg hx]
    have hx' : ¬ Excluded exclude p := fun h => hx (excluded_iff.2 h)
    simp only [hx', false_and, not_false_eq_true, true_and, false_or]
    cases hT : lookup opt.parameterTemplate p.name with
    | some v =>
      obtain ⟨n, hn, hv⟩ := lookup_some.1 hT
      simp only
      constructor
      · intro h; exact .inl ⟨n, v, hn, hv, h⟩
      · rintro (⟨n', v', hn', hv', h⟩ | ⟨h, _⟩ | ⟨h, _⟩)
        · rw [hn] at hn'; cases hn'
          rw [hv] at hv'; cases hv'
          exact h
        · rw [← lookup_none, hT] at h; cases h
        · rw [← lookup_none, hT] at h; cases h
    | none =>
      have hp := lookup_none.1 hT
      simp only
      have hno : ¬ ∃ n v, p.name = some n ∧ Dict.get? opt.parameterTemplate n = some v ∧
          Run (renderLoop env opt rounds fuel exclude l (Dict.set out p.name v)) r := by
        rintro ⟨n, v, hn, hv, _⟩
        rw [hp n hn] at hv; cases hv
      simp only [hno, false_or, hp, true_and]
      by_cases hc : opt.maxParameter = false ∧ p.required = false
      · rw [if_pos hc, run_flip]
        simp [hc.1, hc.2]
      · rw [if_neg hc]
        have hc' : opt.maxParameter = true ∨ p.required = true := by
          cases h1 : opt.maxParameter <;> cases h2 : p.required <;> simp_all
        constructor
        · intro h
          refine .inr ⟨?_, h⟩
          rcases hc' with h | h <;> simp [h]
        · rintro (⟨h1, h2, _⟩ | ⟨_, h⟩)
          · exact absurd ⟨h1, h2⟩ hc
          · exact h

/-- **C59** (exactly). The parameter sets rendered are exactly those that give each parameter, in
order, what it is due: nothing if it is excluded; the value of the template if there is one; a
rendered value if it is required or `max_parameter` is set; otherwise nothing or, unless
`minimal_parameter` is set, a rendered value. Among parameters of one name the last one counts. -/
theorem C59_exact (env : Render.Env) (opt : Opt) (rounds fuel : Nat) (exclude : List Str) (ps : List Param)
    (d : Dict (Option Str) Val) :
    Run (renderAll env opt rounds fuel exclude ps) (.value d) ↔
      ∃ ev, Chosen opt exclude (fun p v => Made env opt rounds fuel p (.value v)) ps ev ∧ d = collect [] ev := by
  unfold renderAll
  suffices h : ∀ out, Run (renderLoop env opt rounds fuel exclude ps out) (.value d) ↔
      ∃ ev, Chosen opt exclude (fun p v => Made env opt rounds fuel p (.value v)) ps ev ∧ d = collect out ev from h []
  induction ps with
  | nil =>
    intro out
    simp only [renderLoop, run_ret, Ends.value.injEq]
    constructor
    · rintro rfl; exact ⟨[], .nil, rfl⟩
    · rintro ⟨ev, h, rfl⟩; cases h; rfl
  | cons p l ih =>
    intro out
    rw [loop_cons]
    simp only [run_bind_value, run_render, ih]
    constructor
    · rintro (⟨h, ev, h1, h2⟩ | ⟨h, n, v, hn, hv, ev, h1, h2⟩ | ⟨h, hp, a, b, ev, h1, h2⟩ | ⟨h, hp, a, v, hv, ev, h1, h2⟩)
      · exact ⟨ev, .excluded p l ev h h1, h2⟩
      · exact ⟨_, .template p n v l ev h hn hv h1, h2⟩
      · exact ⟨ev, .skip p l ev h hp a b h1, h2⟩
      · exact ⟨_, .made p v l ev h hp a hv h1, h2⟩
    · rintro ⟨ev, h, h2⟩
      cases h with
      | excluded _ _ _ h h1 => exact .inl ⟨h, ev, h1, h2⟩
      | template _ n v _ ev h hn hv h1 => exact .inr (.inl ⟨h, n, v, hn, hv, ev, h1, h2⟩)
      | skip _ _ _ h hp a b h1 => exact .inr (.inr (.inl ⟨h, hp, a, b, ev, h1, h2⟩))
      | made _ v _ ev h hp a hv h1 => exact .inr (.inr (.inr ⟨h, hp, a, v, hv, ev, h1, h2⟩))

/-- **C59** (errors). What rendering the parameters raises: what rendering one of them raises,
provided it may be rendered and those before it could be completed. -/
theorem C59_raises (env : Render.Env) (opt : Opt) (rounds fuel : Nat) (exclude : List Str) (ps : List Param) (e : Exc) :
    Run (renderAll env opt rounds fuel exclude ps) (.raises e) ↔
      ∃ l1 p l2 ev, ps = l1 ++ p :: l2 ∧
        Chosen opt exclude (fun p v => Made env opt rounds fuel p (.value v)) l1 ev ∧
        ¬ Excluded exclude p ∧ Plain opt p ∧
        (opt.maxParameter = true ∨ p.required = true ∨ opt.minimalParameter = false) ∧
        Made env opt rounds fuel p (.raises e) := by
  unfold renderAll
  generalize ([] : Dict (Option Str) Val) = out
  induction ps generalizing out with
  | nil =>
    simp only [renderLoop, run_ret]
    constructor
    · intro h; cases h
    · rintro ⟨l1, p, l2, ev, h, _⟩; simp at h
  | cons p l ih =>
    rw [loop_cons]
    simp only [run_bind_raises, run_render, ih]
    constructor
    · rintro (⟨h, l1, q, l2, ev, rfl, h1, h2⟩ | ⟨h, n, v, hn, hv, l1, q, l2, ev, rfl, h1, h2⟩ |
        ⟨h, hp, a, b, l1, q, l2, ev, rfl, h1, h2⟩ | ⟨h, hp, a, ⟨v, hv, l1, q, l2, ev, rfl, h1, h2⟩ | he⟩)
      · exact ⟨p :: l1, q, l2, ev, rfl, .excluded _ _ _ h h1, h2⟩
      · exact ⟨p :: l1, q, l2, _, rfl, .template p n v _ _ h hn hv h1, h2⟩
      · exact ⟨p :: l1, q, l2, ev, rfl, .skip p _ ev h hp a b h1, h2⟩
      · exact ⟨p :: l1, q, l2, _, rfl, .made p v _ ev h hp a hv h1, h2⟩
      · exact ⟨[], p, l, [], rfl, .nil, h, hp, a, he⟩
    · rintro ⟨l1, q, l2, ev, he, h, h2⟩
      cases l1 with
      | nil =>
        cases he
        exact .inr (.inr (.inr ⟨h2.1, h2.2.1, h2.2.2.1, .inr h2.2.2.2⟩))
      | cons x l1 =>
        cases he
        cases h with
        | excluded _ _ _ h h1 => exact .inl ⟨h, l1, q, l2, _, rfl, h1, h2⟩
        | template _ n v _ ev h hn hv h1 => exact .inr (.inl ⟨h, n, v, hn, hv, l1, q, l2, ev, rfl, h1, h2⟩)
        | skip _ _ _ h hp a b h1 => exact .inr (.inr (.inl ⟨h, hp, a, b, l1, q, l2, ev, rfl, h1, h2⟩))
        | made _ v _ ev h hp a hv h1 => exact .inr (.inr (.inr ⟨h, hp, a, .inl ⟨v, hv, l1, q, l2, ev, rfl, h1, h2⟩⟩))

/-! ## reading it -/

theorem chosen_sub {opt : Opt} {exclude : List Str} {made : Param → Val → Prop} {ps : List Param}
    {ev : List (Option Str × Val)} (h : Chosen opt exclude made ps ev) :
    (ev.map Prod.fst).Sublist (ps.map Param.name) := by
  induction h with
  | nil => exact List.Sublist.slnil
  | excluded p l ev _ _ ih => exact ih.cons _
  | template p n v l ev _ _ _ _ ih => exact ih.cons_cons _
  | skip p l ev _ _ _ _ _ ih => exact ih.cons _
  | made p v l ev _ _ _ _ _ ih => exact ih.cons_cons _

theorem collect_nodup (ev : List (Option Str × Val)) (d : Dict (Option Str) Val)
    (h : (d.keys ++ ev.map Prod.fst).Nodup) : collect d ev = d ++ ev := by
  induction ev generalizing d with
  | nil => simp [collect]
  | cons e ev ih =>
    obtain ⟨k, v⟩ := e
    have hk : k ∉ d.keys := by
      intro hm
      exact (List.nodup_append.1 h).2.2 k hm k List.mem_cons_self rfl
    show collect (Dict.set d k v) ev = _
    rw [Dict.set_of_not_mem v hk, ih]
    · simp
    · simpa [Dict.keys] using h

theorem chosen_mem {opt : Opt} {exclude : List Str} {made : Param → Val → Prop} {ps : List Param}
    {ev : List (Option Str × Val)} (h : Chosen opt exclude made ps ev) {k : Option Str} {v : Val} (hm : (k, v) ∈ ev) :
    ∃ p ∈ ps, p.name = k ∧ ¬ Excluded exclude p ∧
      ((∃ n, p.name = some n ∧ Dict.get? opt.parameterTemplate n = some v) ∨
       (Plain opt p ∧ (opt.maxParameter = true ∨ p.required = true ∨ opt.minimalParameter = false) ∧ made p v)) := by
  induction h with
  | nil => simp at hm
  | excluded p l ev _ _ ih => obtain ⟨q, h, r⟩ := ih hm; exact ⟨q, List.mem_cons_of_mem _ h, r⟩
  | skip p l ev _ _ _ _ _ ih => obtain ⟨q, h, r⟩ := ih hm; exact ⟨q, List.mem_cons_of_mem _ h, r⟩
  | template p n w l ev h1 h2 h3 _ ih =>
    rcases List.mem_cons.1 hm with h | h
    · cases h; exact ⟨p, List.mem_cons_self, rfl, h1, .inl ⟨n, h2, h3⟩⟩
    · obtain ⟨q, h, r⟩ := ih h; exact ⟨q, List.mem_cons_of_mem _ h, r⟩
  | made p w l ev h1 h2 h3 h4 _ ih =>
    rcases List.mem_cons.1 hm with h | h
    · cases h; exact ⟨p, List.mem_cons_self, rfl, h1, .inr ⟨h2, h3, h4⟩⟩
    · obtain ⟨q, h, r⟩ := ih h; exact ⟨q, List.mem_cons_of_mem _ h, r⟩

theorem chosen_has {opt : Opt} {exclude : List Str} {made : Param → Val → Prop} {ps : List Param}
    {ev : List (Option Str × Val)} (h : Chosen opt exclude made ps ev) {p : Param} (hm : p ∈ ps)
    (hx : ¬ Excluded exclude p) (hk : ¬ Plain opt p ∨ opt.maxParameter = true ∨ p.required = true) :
    p.name ∈ ev.map Prod.fst := by
  induction h with
  | nil => simp at hm
  | excluded q l ev h _ ih =>
    rcases List.mem_cons.1 hm with rfl | hm
    · exact absurd h hx
    · exact ih hm
  | skip q l ev _ h1 h2 h3 _ ih =>
    rcases List.mem_cons.1 hm with rfl | hm
    · rcases hk with hk | hk | hk
      · exact absurd h1 hk
      · rw [h2] at hk; cases hk
      · rw [h3] at hk; cases hk
    · exact ih hm
  | template q n w l ev h1 h2 h3 _ ih =>
    rcases List.mem_cons.1 hm with rfl | hm
    · exact List.mem_cons_self
    · exact List.mem_cons_of_mem _ (ih hm)
  | made q w l ev h1 h2 h3 h4 _ ih =>
    rcases List.mem_cons.1 hm with rfl | hm
    · exact List.mem_cons_self
    · exact List.mem_cons_of_mem _ (ih hm)

theorem name_inj (ps : List Param) (hn : (ps.map Param.name).Nodup) :
    ∀ p ∈ ps, ∀ q ∈ ps, p.name = q.name → p = q := by
  induction ps with
  | nil => intro p hp; cases hp
  | cons a l ih =>
    rw [List.map_cons, List.nodup_cons] at hn
    intro p hp q hq e
    rcases List.mem_cons.1 hp with h1 | h1 <;> rcases List.mem_cons.1 hq with h2 | h2
    · rw [h1, h2]
    · subst h1; exact absurd (by rw [e]; exact List.mem_map_of_mem h2) hn.1
    · subst h2; exact absurd (by rw [← e]; exact List.mem_map_of_mem h1) hn.1
    · exact ih hn.2 p h1 q h2 e

/-- **C59** (contents). When the names of the parameters differ, the set rendered gives: none of
the excluded ones a value; every other one that is in the template, required, or (with
`max_parameter`) any, a value; the template's value where there is one, and a value rendered for
the parameter otherwise; with `minimal_parameter` and without `max_parameter` only required
parameters are rendered. Nothing else is in it. -/
theorem C59_contents (env : Render.Env) (opt : Opt) (rounds fuel : Nat) (exclude : List Str) (ps : List Param)
    (d : Dict (Option Str) Val) (hn : (ps.map Param.name).Nodup)
    (h : Run (renderAll env opt rounds fuel exclude ps) (.value d)) :
    Dict.WF d ∧
    (∀ p ∈ ps, Excluded exclude p → Dict.get? d p.name = none) ∧
    (∀ p ∈ ps, ¬ Excluded exclude p →
      (∀ n v, p.name = some n → Dict.get? opt.parameterTemplate n = some v → Dict.get? d p.name = some v) ∧
      (Plain opt p → p.required = true ∨ opt.maxParameter = true → Dict.get? d p.name ≠ none) ∧
      (Plain opt p → ∀ v, Dict.get? d p.name = some v → Made env opt rounds fuel p (.value v) ∧
        (opt.minimalParameter = true → opt.maxParameter = false → p.required = true))) ∧
    (∀ k, Dict.get? d k ≠ none → ∃ p ∈ ps, p.name = k) := by
  obtain ⟨ev, hc, rfl⟩ := (C59_exact env opt rounds fuel exclude ps d).1 h
  have hnd : (ev.map Prod.fst).Nodup := (chosen_sub hc).nodup hn
  have he : collect [] ev = ev := by
    rw [collect_nodup ev [] (by simpa [Dict.keys] using hnd)]; simp
  rw [he]
  have hwf : Dict.WF ev := hnd
  have huniq : ∀ p ∈ ps, ∀ q ∈ ps, p.name = q.name → p = q := by
    intro p hp q hq e
    exact name_inj ps hn p hp q hq e
  refine ⟨hwf, ?_, ?_, ?_⟩
  · intro p hp hx
    cases hg : Dict.get? ev p.name with
    | none => rfl
    | some v =>
      obtain ⟨q, hq, hqn, hnx, _⟩ := chosen_mem hc (Dict.mem_of_get? hg)
      rw [huniq q hq p hp hqn] at hnx
      exact absurd hx hnx
  · intro p hp hx
    have get : ∀ v, Dict.get? ev p.name = some v →
        ((∃ n, p.name = some n ∧ Dict.get? opt.parameterTemplate n = some v) ∨
         (Plain opt p ∧ (opt.maxParameter = true ∨ p.required = true ∨ opt.minimalParameter = false) ∧
          Made env opt rounds fuel p (.value v))) := by
      intro v hg
      obtain ⟨q, hq, hqn, _, hor⟩ := chosen_mem hc (Dict.mem_of_get? hg)
      rw [huniq q hq p hp hqn] at hor
      exact hor
    have has : ¬ Plain opt p ∨ opt.maxParameter = true ∨ p.required = true → Dict.get? ev p.name ≠ none := by
      intro h hg
      rw [Dict.get?_eq_none_iff] at hg
      exact hg (chosen_has hc hp hx h)
    refine ⟨?_, ?_, ?_⟩
    · intro n v hpn hv
      have hnp : ¬ Plain opt p := fun h => by rw [h n hpn] at hv; cases hv
      cases hg : Dict.get? ev p.name with
      | none => exact absurd hg (has (.inl hnp))
      | some w =>
        rcases get w hg with ⟨n', hn', hw⟩ | ⟨hpl, _⟩
        · rw [hpn] at hn'; cases hn'
          rw [hv] at hw; exact hw.symm
        · exact absurd hpl hnp
    · intro _ h
      exact has (.inr (h.elim .inr .inl))
    · intro hpl v hg
      rcases get v hg with ⟨n', hn', hw⟩ | ⟨_, hor, hm⟩
      · rw [hpl n' hn'] at hw; cases hw
      · refine ⟨hm, fun a b => ?_⟩
        rcases hor with h | h | h
        · rw [b] at h; cases h
        · exact h
        · rw [a] at h; cases h
  · intro k hk
    cases hg : Dict.get? ev k with
    | none => exact absurd hg hk
    | some v =>
      obtain ⟨q, hq, hqn, _⟩ := chosen_mem hc (Dict.mem_of_get? hg)
      exact ⟨q, hq, hqn⟩

/-- **C59** (success). If every parameter that may be rendered is `Sound`, rendering raises
nothing. -/
theorem C59_succeeds (env : Render.Env) (opt : Opt) (rounds fuel n : Nat) (loops : Prop) (exclude : List Str)
    (ps : List Param) (hf : n ≤ fuel) (hr : 0 < rounds)
    (hs : ∀ p ∈ ps, ¬ Excluded exclude p → Plain opt p →
      (opt.maxParameter = true ∨ p.required = true ∨ opt.minimalParameter = false) →
      (p.in_ ≠ some c!"body" → C58.Sound env opt loops n p.obj) ∧
      (p.in_ = some c!"body" → ∃ s, p.schema = some s ∧ C58.Sound env opt loops n s)) (e : Exc) :
    ¬ Run (renderAll env opt rounds fuel exclude ps) (.raises e) := by
  rw [C59_raises]
  rintro ⟨l1, p, l2, ev, rfl, _, h1, h2, h3, h4⟩
  obtain ⟨a, b⟩ := hs p (by simp) h1 h2 h3
  rcases h4 with ⟨hb, hrun⟩ | ⟨hb, ⟨s, hsch, hrun⟩ | ⟨hsch, _⟩⟩
  · rcases C58.C58_succeeds env opt rounds fuel n _ loops (a hb) hf hr _ hrun with ⟨v, h⟩ | ⟨_, h⟩ <;> cases h
  · obtain ⟨s', hs', hsound⟩ := b hb
    rw [hsch] at hs'; cases hs'
    rcases C58.C58_succeeds env opt rounds fuel n _ loops hsound hf hr _ hrun with ⟨v, h⟩ | ⟨_, h⟩ <;> cases h
  · obtain ⟨s', hs', _⟩ := b hb
    rw [hsch] at hs'; cases hs'

/-! ## the set is accepted -/

/-- a declared parameter that is no reference, as the renderer sees it -/
def seen (p : Call.Decl) : Param := ⟨some p.name, some p.in_, p.required, p.obj, p.schema⟩

/-- **C59** (accepted). Take an operation whose parameters have different names, are no references
and are `Fit` (the schema of a body, any other itself), with defaults and template values that are
accepted and no required parameter excluded. If what is accepted can be written at its location,
every parameter set rendered is accepted by the operation. -/
theorem C59_accepted (e : Render.Env) (p : Prim.Env ω) (leaf : Prim.Prim ω → Except Exc Str) (opt : Opt)
    (rounds fuel : Nat) (S : Nat → Prop) (exclude : List Str) (ps : List Call.Decl) (hl : Linked e p)
    (hS : ∀ id, S id → ∃ t, e.target id = .ok t ∧ (e.node t).allOf = [] ∧ Fit opt e.node S (e.node t))
    (hT : ∀ fuel name v id, Dict.get? opt.objectTemplate name = some v → S id →
      ∃ x, convert p (fuel + 1) id v true = .ok x)
    (hn : (ps.map Call.Decl.name).Nodup)
    (hps : ∀ q ∈ ps, (q.in_ = c!"body" → ∃ s, q.schema = some s ∧ S s) ∧ (q.in_ ≠ c!"body" → S q.obj))
    (hdef : ∀ q ∈ ps, (p.node q.obj).defaultSet = true →
      ∃ c, Call.prim p (fuel + 1) q (p.node q.obj).default = .ok c)
    (htmp : ∀ q ∈ ps, ∀ v, Dict.get? opt.parameterTemplate q.name = some v →
      ∃ c, Call.prim p (fuel + 1) q v = .ok c)
    (hreq : ∀ q ∈ ps, q.required = true → q.name ∉ exclude)
    (hwrite : ∀ q ∈ ps, ∀ v c, Call.prim p (fuel + 1) q v = .ok c → ∃ en, Becomes p leaf q c en)
    (d : Dict (Option Str) Val)
    (h : Run (renderAll e opt rounds fuel exclude (ps.map seen)) (.value d)) :
    ∃ k : Dict Str Val, d = k.map (fun x => (some x.1, x.2)) ∧
      ∃ s, Call.call p leaf (fuel + 1) ps k = .ok s := by
  have hn' : ((ps.map seen).map Param.name).Nodup := by
    have : (ps.map seen).map Param.name = (ps.map Call.Decl.name).map some := by
      simp [List.map_map, seen, Function.comp_def]
    rw [this, List.nodup_iff_pairwise_ne, List.pairwise_map]
    rw [List.nodup_iff_pairwise_ne] at hn
    exact hn.imp fun h e => h (Option.some.inj e)
  obtain ⟨ev, hc, rfl⟩ := (C59_exact e opt rounds fuel exclude _ d).1 h
  have hnd : (ev.map Prod.fst).Nodup := (chosen_sub hc).nodup hn'
  have he : collect [] ev = ev := by
    rw [collect_nodup ev [] (by simpa [Dict.keys] using hnd)]; simp
  obtain ⟨hwfd, hex, hin, hall⟩ := C59_contents e opt rounds fuel exclude _ _ hn' h
  rw [he] at hex hin hall ⊢
  -- all keys are names
  have hkeys : ∀ x ∈ ev, ∃ n, x.1 = some n := by
    rintro ⟨k, v⟩ hx
    obtain ⟨q, hq, hqn, _⟩ := chosen_mem hc hx
    obtain ⟨q', _, rfl⟩ := List.mem_map.1 hq
    exact ⟨q'.name, hqn.symm⟩
  obtain ⟨k, hk⟩ : ∃ k : Dict Str Val, ev = k.map (fun x => (some x.1, x.2)) := by
    clear hc h hnd he hex hin hall hwfd
    induction ev with
    | nil => exact ⟨[], rfl⟩
    | cons x ev ih =>
      obtain ⟨k, rfl⟩ := ih fun y hy => hkeys y (List.mem_cons_of_mem _ hy)
      obtain ⟨n, hxn⟩ := hkeys x List.mem_cons_self
      exact ⟨(n, x.2) :: k, by simp [← hxn]⟩
  have hget : ∀ n, Dict.get? k n = Dict.get? ev (some n) := by
    intro n
    rw [hk]
    clear hk
    induction k with
    | nil => rfl
    | cons y k ih =>
      obtain ⟨a, b⟩ := y
      simp only [List.map_cons, Dict.get?, Option.some.injEq]
      by_cases hy : a = n
      · simp [hy]
      · simp [hy, ih]
  refine ⟨k, hk, (C31.C31_succeeds p leaf (fuel + 1) ps k).2 ⟨?_, ?_, ?_⟩⟩
  · rintro q hq ⟨h1, h2, _⟩
    rw [hget] at h2
    have hq' : seen q ∈ ps.map seen := List.mem_map_of_mem hq
    have hx : ¬ Excluded exclude (seen q) := by
      rintro ⟨n, hne, hsn⟩
      cases hsn
      exact hreq q hq h1 hne
    by_cases hp : Plain opt (seen q)
    · exact (hin _ hq' hx).2.1 hp (.inl h1) h2
    · unfold Plain at hp
      obtain ⟨n, hp⟩ := Classical.not_forall.1 hp
      obtain ⟨hsn, hp⟩ := Classical.not_imp.1 hp
      cases hg : Dict.get? opt.parameterTemplate n with
      | none => exact hp hg
      | some v =>
        have := (hin _ hq' hx).1 n v hsn hg
        rw [show (seen q).name = some q.name from rfl, h2] at this
        cases this
  · rintro ⟨n, hnk, hno⟩
    have : Dict.get? k n ≠ none := by rw [ne_eq, Dict.get?_eq_none_iff]; exact fun h => h hnk
    rw [hget] at this
    obtain ⟨q, hq, hqn⟩ := hall _ this
    obtain ⟨q', hq', rfl⟩ := List.mem_map.1 hq
    exact hno q' hq' (Option.some.inj hqn)
  · intro q hq
    unfold Fine Sends given
    rw [hget]
    have good : ∀ v, (∃ c, Call.prim p (fuel + 1) q v = .ok c) →
        ∃ en v' c, some v = some v' ∧ Call.prim p (fuel + 1) q v' = .ok c ∧ Becomes p leaf q c en := by
      rintro v ⟨c, hc⟩
      obtain ⟨en, hen⟩ := hwrite q hq v c hc
      exact ⟨en, v, c, rfl, hc, hen⟩
    cases hg : Dict.get? ev (some q.name) with
    | none =>
      simp only
      cases hds : (p.node q.obj).defaultSet with
      | false => left; simp
      | true => right; simpa using good _ (hdef q hq hds)
    | some v =>
      right
      refine good v ?_
      have hq' : seen q ∈ ps.map seen := List.mem_map_of_mem hq
      have hx : ¬ Excluded exclude (seen q) := by
        intro hx
        have := hex _ hq' hx
        rw [show (seen q).name = some q.name from rfl, hg] at this
        cases this
      cases hgt : Dict.get? opt.parameterTemplate q.name with
      | some w =>
        have := (hin _ hq' hx).1 q.name w rfl hgt
        rw [show (seen q).name = some q.name from rfl, hg] at this
        cases this
        exact htmp q hq _ hgt
      | none =>
        have hp : Plain opt (seen q) := by
          intro n hsn; cases hsn; exact hgt
        obtain ⟨hm, _⟩ := (hin _ hq' hx).2.2 hp v hg
        unfold Call.prim
        rcases hm with ⟨hb, hrun⟩ | ⟨hb, ⟨s, hsch, hrun⟩ | ⟨_, hbad⟩⟩
        · have hb' : q.in_ ≠ c!"body" := fun hx => hb (by simp [seen, hx])
          rw [if_neg hb']
          exact C57_accepted e p opt rounds S hl hS hT fuel _ v false ((hps q hq).2 hb') hrun
        · have hb' : q.in_ = c!"body" := Option.some.inj hb
          obtain ⟨s', hs', hSs⟩ := (hps q hq).1 hb'
          have : q.schema = some s := hsch
          rw [if_pos hb', this]
          rw [this] at hs'; cases hs'
          exact C57_accepted e p opt rounds S hl hS hT fuel _ v false hSs hrun
        · cases hbad

/-! ## concrete cases -/

/-- an operation with a body `Pet` and a query parameter `id` -/
def decls : List Call.Decl :=
  [⟨c!"pet", c!"body", true, 9, some 0⟩, ⟨c!"id", c!"query", false, 1, none⟩]

/-- `id` left out, the pet from the template -/
example : Run (renderAll (only pet) { parameterTemplate := [(c!"pet", .dict [])] } 1 2 [] (decls.map seen))
    (.value [(some c!"pet", .dict [])]) :=
  (C59_exact (only pet) { parameterTemplate := [(c!"pet", .dict [])] } 1 2 [] _ _).2
    ⟨[(some c!"pet", .dict [])],
      .template _ c!"pet" _ _ _ (by rintro ⟨n, h, _⟩; cases h) rfl rfl
        (.skip _ _ _ (by rintro ⟨n, h, _⟩; cases h) (by intro n h; cases h; rfl) rfl rfl .nil), rfl⟩

/-- the same with `id` rendered -/
example : Run (renderAll (only pet) { parameterTemplate := [(c!"pet", .dict [])] } 1 1 [] (decls.map seen))
    (.value [(some c!"pet", .dict []), (some c!"id", .int 15)]) :=
  (C59_exact (only pet) { parameterTemplate := [(c!"pet", .dict [])] } 1 1 [] _ _).2
    ⟨[(some c!"pet", .dict []), (some c!"id", .int 15)],
      .template _ c!"pet" _ _ _ (by rintro ⟨n, h, _⟩; cases h) rfl rfl
        (.made _ _ _ _ (by rintro ⟨n, h, _⟩; cases h) (by intro n h; cases h; rfl) (.inr (.inr rfl))
          (.inl ⟨by decide, (C57_integer (only pet) _ 1 0 1 1 _ ⟨rfl, rfl⟩ rfl (by decide) (by decide)).2
            (.inl ⟨17, 15, drawn_fives 17 (by decide) (by decide), by
              refine ⟨by rintro (h | h) <;> revert h <;> decide, ?_⟩
              intro m _ hm h0
              have e : ((5 : Int) : Rat) = (m : Rat) := hm
              have := Rat.intCast_inj.1 e
              subst this
              omega, rfl⟩)⟩) .nil), rfl⟩

/-- texts of everything -/
def write : Prim.Prim Nat → Except Exc Str := fun _ => .ok c!"x"

/-- Every parameter set rendered for the operation is accepted by it. -/
example (rounds fuel : Nat) (d : Dict (Option Str) Val)
    (h : Run (renderAll (only pet) {} rounds fuel [] (decls.map seen)) (.value d)) :
    ∃ k : Dict Str Val, d = k.map (fun x => (some x.1, x.2)) ∧
      ∃ s, Call.call (fac pet) write (fuel + 1) decls k = .ok s := by
  refine C59_accepted (only pet) (fac pet) write {} rounds fuel (fun _ => True) [] decls (linked pet) ?_
    (fun _ _ _ _ h => by cases h) (by decide) ?_ ?_ (fun _ _ _ h => by cases h) (fun _ _ _ h => by cases h) ?_ d h
  · intro id _
    exact ⟨id, rfl, by
      match id with
      | 0 => rfl
      | 1 => rfl
      | 2 => rfl
      | _ + 3 => rfl, fit_pet id⟩
  · intro q hq
    simp only [decls, List.mem_cons, List.not_mem_nil, or_false] at hq
    rcases hq with rfl | rfl
    · exact ⟨fun _ => ⟨0, rfl, trivial⟩, fun _ => trivial⟩
    · exact ⟨fun h => absurd h (show ¬ c!"query" = c!"body" by decide), fun _ => trivial⟩
  · intro q hq hd
    simp only [decls, List.mem_cons, List.not_mem_nil, or_false] at hq
    rcases hq with rfl | rfl <;> cases hd
  · intro q hq v c hc
    simp only [decls, List.mem_cons, List.not_mem_nil, or_false] at hq
    rcases hq with rfl | rfl
    · exact ⟨_, .body c (by decide) rfl⟩
    · obtain ⟨t, hd⟩ : ∃ t, (fac pet).deref 1 = .ok t ∧ t = 1 := ⟨1, rfl, rfl⟩
      have hty : Typed (fac pet) 1 .int := ⟨by decide, by decide⟩
      have hint : c = .none ∨ ∃ n, c = .int n := by
        have hc : convert (fac pet) (fuel + 1) 1 v false = .ok c := hc
        by_cases hv : effective (fac pet) 1 v = .none
        · left
          rw [convert_none (fac pet) fuel 1 v false hv] at hc; cases hc; rfl
        · right
          obtain ⟨a, b⟩ := C33.C33_integer (fac pet) fuel 1 1 v false rfl hty rfl hv
          cases hi : (fac pet).toInt (effective (fac pet) 1 v) with
          | error e => rw [a e hi] at hc; cases hc
          | ok n =>
            by_cases hr : Spec.InRange ((fac pet).node 1) n
            · rw [(b n hi).1 hr] at hc; cases hc; exact ⟨n, rfl⟩
            · rw [(b n hi).2 hr] at hc; cases hc
      rcases hint with rfl | ⟨n, rfl⟩
      · exact ⟨_, .query _ c!"x" (by decide) rfl (by rintro f l h; cases h) rfl⟩
      · exact ⟨_, .query _ c!"x" (by decide) rfl (by rintro f l h; cases h) rfl⟩

/-! ## what does not hold -/

/-- References: the name and `required` are read from the reference object, so that a required
parameter declared by reference is left out by `minimal_parameter`, and the call is refused. -/
theorem C59_reference_false :
    ¬ ∀ (e : Render.Env) (q : Param) (p : Call.Decl) (d : Dict (Option Str) Val),
      q.obj = p.obj → p.required = true →
      Run (renderAll e { minimalParameter := true } 1 1 [] [q]) (.value d) →
      Dict.get? d (some p.name) ≠ none := by
  intro H
  have := H (only pet) ⟨none, none, false, 1, none⟩ ⟨c!"id", c!"query", true, 1, none⟩ [] rfl rfl
    ((C59_exact _ _ 1 1 [] _ _).2 ⟨[], .skip _ _ _ (by rintro ⟨n, h, _⟩; cases h) (by intro n h; cases h) rfl rfl .nil, rfl⟩)
  exact this rfl

/-- If it is rendered, its value is filed under the name `None`. -/
theorem C59_reference_name_false :
    ¬ ∀ (e : Render.Env) (q : Param) (p : Call.Decl) (d : Dict (Option Str) Val),
      q.obj = p.obj → Run (renderAll e {} 1 1 [] [q]) (.value d) → ∀ k ∈ d.keys, k = some p.name := by
  intro H
  have := H (only fun _ => { type := some c!"boolean" }) ⟨none, none, false, 1, none⟩
    ⟨c!"id", c!"query", true, 1, none⟩ [(none, .bool true)] rfl
    ((C59_exact _ _ 1 1 [] _ _).2 ⟨[(none, .bool true)], .made _ _ _ _ (by rintro ⟨n, h, _⟩; cases h)
      (by intro n h; cases h) (.inr (.inr rfl))
      (.inl ⟨by decide, .pick 1 _ 0 _ (Nat.zero_le 1) (.ret _)⟩) .nil, rfl⟩)
  have := this none (by decide)
  cases this

/-- Two parameters of one name at different places, which Swagger allows, share one value: the one
rendered for the last. -/
theorem C59_same_name_false :
    ¬ ∀ (node : Nat → Render.Node) (ps : List Call.Decl) (k : Dict Str Val),
      (ps.map fun p => (p.name, p.in_)).Nodup →
      Run (renderAll (only node) {} 1 1 [] (ps.map seen)) (.value (k.map fun x => (some x.1, x.2))) →
      ∃ s, Call.call (fac node) write 2 ps k = .ok s := by
  intro H
  have hr : ∀ node : Nat → Render.Node, node = (fun i => if i = 0 then { type := some c!"integer" }
      else { type := some c!"boolean" }) →
      Run (renderAll (only node) {} 1 1 [] (([⟨c!"id", c!"path", true, 0, none⟩, ⟨c!"id", c!"query", true, 1, none⟩] :
        List Call.Decl).map seen)) (.value (([(c!"id", .bool true)] : Dict Str Val).map fun x => (some x.1, x.2))) := by
    rintro node rfl
    refine (C59_exact _ _ 1 1 [] _ _).2 ⟨[(some c!"id", .int 1), (some c!"id", .bool true)], ?_, rfl⟩
    refine .made _ _ _ _ (by rintro ⟨n, h, _⟩; cases h) (by intro n h; rfl) (.inr (.inr rfl)) (.inl ⟨by decide, ?_⟩)
      (.made _ _ _ _ (by rintro ⟨n, h, _⟩; cases h) (by intro n h; rfl) (.inr (.inr rfl))
        (.inl ⟨by decide, .pick 1 _ 0 _ (Nat.zero_le 1) (.ret _)⟩) .nil)
    exact (C57_integer _ {} 1 0 0 0 _ ⟨rfl, rfl⟩ rfl (by decide) (by decide)).2
      (.inl ⟨1, 1, ⟨2 ^ 30, -2 ^ 30, 2 ^ 30, .inl ⟨.inl rfl, rfl⟩, .inr ⟨.inl rfl, by decide +kernel⟩,
        .inr ⟨.inl rfl, by decide +kernel⟩, by decide, by decide⟩,
        ⟨fun _ => rfl, fun m _ hm h0 => absurd (Rat.intCast_inj.1 (show ((0 : Int) : Rat) = m from hm)).symm h0⟩,
        rfl⟩)
  obtain ⟨s, hs⟩ := H _ _ _ (by decide) (hr _ rfl)
  have : ∀ y : Except Exc (Call.Sent Nat), (∃ e, y = .error e) → y = .ok s → False := by
    rintro y ⟨e, rfl⟩ h; cases h
  exact this _ ⟨_, rfl⟩ hs

/-- An excluded required parameter makes the set unacceptable. -/
theorem C59_excluded_false :
    ¬ ∀ (node : Nat → Render.Node) (ps : List Call.Decl) (exclude : List Str) (k : Dict Str Val),
      Run (renderAll (only node) {} 1 1 exclude (ps.map seen)) (.value (k.map fun x => (some x.1, x.2))) →
      ∃ s, Call.call (fac node) write 2 ps k = .ok s := by
  intro H
  obtain ⟨s, hs⟩ := H pet [⟨c!"id", c!"query", true, 1, none⟩] [c!"id"] []
    ((C59_exact _ _ 1 1 _ _ _).2 ⟨[], .excluded _ _ _ ⟨c!"id", List.mem_cons_self, rfl⟩ .nil, rfl⟩)
  have : ∀ y : Except Exc (Call.Sent Nat), (∃ e, y = .error e) → y = .ok s → False := by
    rintro y ⟨e, rfl⟩ h; cases h
  exact this _ ⟨_, rfl⟩ hs

/-- A template for a name the operation does not know is not in the set. -/
theorem C59_template_false :
    ¬ ∀ (opt : Opt) (ps : List Param) (d : Dict (Option Str) Val) (n : Str) (v : Val),
      Dict.get? opt.parameterTemplate n = some v →
      Run (renderAll (only pet) opt 1 1 [] ps) (.value d) → Dict.get? d (some n) = some v := by
  intro H
  have := H { parameterTemplate := [(c!"x", .int 1)] } [] [] c!"x" (.int 1) rfl (.ret _)
  cases this

end Props.C59
