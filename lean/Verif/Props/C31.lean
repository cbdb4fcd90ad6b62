import Verif.Proofs.Call
import Verif.Props.C33
/-!
# C31: calling an operation rejects missing and unknown parameters
-/

namespace Props.C31
open Py Prim Call Spec.Calls

variable {ω : Type}

/-- a keyword that is no parameter of the operation -/
def Unknown (ps : List Decl) (k : Dict Str Val) : Prop :=
  ∃ n ∈ Dict.keys k, ∀ p ∈ ps, p.name ≠ n

theorem unknown_iff {env : Env ω} {leaf : Prim ω → Except Exc Str} {fuel : Nat} {k : Dict Str Val}
    {ps : List Decl} {es : List (Str × Entry ω)} (h : Entries env leaf fuel k ps es) :
    ((Dict.keys k).any fun n => n ∉ es.map Prod.fst) = true ↔ Unknown ps k := by
  simp only [List.any_eq_true, decide_eq_true_eq, entries_names h, Unknown]
  constructor
  · rintro ⟨n, hn, hx⟩
    refine ⟨n, hn, fun p hp e => hx ⟨p, hp, e, ?_⟩⟩
    obtain ⟨v, hv⟩ := Option.isSome_iff_exists.1 ((Dict.get?_isSome_iff k n).2 hn)
    simp [given, e, hv]
  · rintro ⟨n, hn, hx⟩
    exact ⟨n, hn, fun ⟨p, hp, e, _⟩ => hx p hp e⟩

/-- **C31**. A call succeeds iff no required parameter is missing, no keyword is unknown, and every
supplied or defaulted value converts and fits its location. -/
theorem C31_succeeds (env : Env ω) (leaf : Prim ω → Except Exc Str) (fuel : Nat) (ps : List Decl)
    (k : Dict Str Val) :
    (∃ s, call env leaf fuel ps k = .ok s) ↔
      (∀ p ∈ ps, ¬ Missing env k p) ∧ ¬ Unknown ps k ∧ ∀ p ∈ ps, Fine env leaf fuel k p := by
  obtain ⟨a, b⟩ := convertAll_spec env leaf fuel k ps ({}, [])
  unfold call
  by_cases h : ∀ p ∈ ps, ¬ Missing env k p ∧ Fine env leaf fuel k p
  · obtain ⟨es, h1, h2⟩ := a h
    rw [h2]
    simp only [List.nil_append]
    by_cases hu : Unknown ps k
    · rw [if_pos ((unknown_iff h1).2 hu)]
      exact ⟨(fun ⟨s, hs⟩ => by cases hs), fun hx => absurd hu hx.2.1⟩
    · rw [if_neg (fun hx => hu ((unknown_iff h1).1 hx))]
      exact ⟨fun _ => ⟨fun p hp => (h p hp).1, hu, fun p hp => (h p hp).2⟩, fun _ => ⟨_, rfl⟩⟩
  · obtain ⟨e, h1, _⟩ := b h
    rw [h1]
    exact ⟨(fun ⟨s, hs⟩ => by cases hs), fun hx => absurd (fun p hp => ⟨hx.1 p hp, hx.2.2 p hp⟩) h⟩

/-- **C31** (`ValueError`). When every value given converts and fits, a missing parameter or an
unknown keyword makes the call raise `ValueError`. -/
theorem C31_value_error (env : Env ω) (leaf : Prim ω → Except Exc Str) (fuel : Nat) (ps : List Decl)
    (k : Dict Str Val) (hf : ∀ p ∈ ps, Fine env leaf fuel k p)
    (h : (∃ p ∈ ps, Missing env k p) ∨ Unknown ps k) :
    call env leaf fuel ps k = .error .ValueError := by
  obtain ⟨a, b⟩ := convertAll_spec env leaf fuel k ps ({}, [])
  unfold call
  by_cases hm : ∀ p ∈ ps, ¬ Missing env k p ∧ Fine env leaf fuel k p
  · obtain ⟨es, h1, h2⟩ := a hm
    have hu : Unknown ps k := by
      rcases h with ⟨p, hp, hx⟩ | h
      · exact absurd hx (hm p hp).1
      · exact h
    rw [h2]
    simp only [List.nil_append]
    rw [if_pos ((unknown_iff h1).2 hu)]
  · obtain ⟨e, h1, h2⟩ := b hm
    rw [h1, h2 fun p hp => Or.inr (hf p hp)]

/-- **C31** (always). A missing parameter or an unknown keyword makes every call raise. -/
theorem C31_raises (env : Env ω) (leaf : Prim ω → Except Exc Str) (fuel : Nat) (ps : List Decl)
    (k : Dict Str Val) (h : (∃ p ∈ ps, Missing env k p) ∨ Unknown ps k) :
    ∃ e, call env leaf fuel ps k = .error e := by
  cases hc : call env leaf fuel ps k with
  | error e => exact ⟨e, rfl⟩
  | ok s =>
    obtain ⟨h1, h2, _⟩ := (C31_succeeds env leaf fuel ps k).1 ⟨s, hc⟩
    rcases h with ⟨p, hp, hx⟩ | h
    · exact absurd hx (h1 p hp)
    · exact absurd h h2

/-- A call without arguments succeeds if nothing is required and there are no defaults. -/
theorem C31_empty (env : Env ω) (leaf : Prim ω → Except Exc Str) (fuel : Nat) (ps : List Decl)
    (h : ∀ p ∈ ps, p.required = false ∧ (env.node p.obj).defaultSet = false) :
    call env leaf fuel ps [] = .ok {} := by
  obtain ⟨a, _⟩ := convertAll_spec env leaf fuel [] ps ({}, [])
  have hg : ∀ p ∈ ps, given env [] p = none := fun p hp => by simp [given, (h p hp).2]
  obtain ⟨es, h1, h2⟩ := a fun p hp => ⟨(fun hm => by have := hm.1; rw [(h p hp).1] at this; cases this), Or.inl (hg p hp)⟩
  have he : es = [] := by
    rw [List.eq_nil_iff_forall_not_mem]
    rintro ⟨n, e⟩ hx
    obtain ⟨p, hp, _, v, c, hv, _⟩ := (mem_entries h1 n e).1 hx
    rw [hg p hp] at hv; cases hv
  unfold call
  rw [h2, he]
  rfl

/-! ## examples and refutations -/

def leaf : Prim Nat → Except Exc Str
  | .none => .ok c!"None"
  | .int n => .ok (toString n).toList
  | .str s => .ok s
  | _ => .error .Exception

/-- an operation: `id` in the path, `limit` in the query with default 20 -/
def objs : Nat → Node
  | 0 => { type := some c!"integer" }
  | _ => { type := some c!"integer", maximum := some 100, default := .int 20, defaultSet := true }

def ops : List Decl := [⟨c!"id", c!"path", true, 0, none⟩, ⟨c!"limit", c!"query", false, 1, none⟩]

example : call (C33.world objs) leaf 2 ops [(c!"id", .int 5)] =
    .ok { path := [(c!"id", c!"5")], query := [(c!"limit", c!"20")] } := by rfl
example : call (C33.world objs) leaf 2 ops [] = .error .ValueError := by rfl
example : call (C33.world objs) leaf 2 ops [(c!"id", .int 5), (c!"x", .int 1)] = .error .ValueError := by rfl

/-- Not always `ValueError`: a value that does not convert is noticed before a missing parameter
declared later. -/
theorem C31_first_error_false :
    ¬ ∀ (ps : List Decl) (k : Dict Str Val), (∃ p ∈ ps, Missing (C33.world objs) k p) →
      call (C33.world objs) leaf 2 ps k = .error .ValueError := by
  intro H
  have := H ops.reverse [(c!"limit", .int 101)] ⟨ops[0], by simp [ops], rfl, rfl, rfl⟩
  have e : call (C33.world objs) leaf 2 ops.reverse [(c!"limit", .int 101)] =
    .error .ValidationError := by rfl
  rw [e] at this; cases this

end Props.C31
