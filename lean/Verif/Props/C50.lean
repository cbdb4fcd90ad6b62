import Verif.Model.Patch
/-!
# C50: operations inherit path-level parameters unless they override them

The library takes two parameters with the same name for the same parameter; the documented rule
(and the specification) is name and location. What is proved: the exact result by names; the
documented rule whenever a name is used for one location only. Refuted: the documented rule in
general, and independence of path-level parameters from the presence of own ones.
-/

namespace Props.C50
open Py Utils Patch

variable {ρ σ : Type}

/-- the parameters whose name has not been seen yet, first come first served -/
def fresh (name : ρ → Option Str) (seen : List (Option Str)) : List ρ → List ρ
  | [] => []
  | p :: ps => if name p ∈ seen then fresh name seen ps else p :: fresh name (name p :: seen) ps

theorem fresh_congr (name : ρ → Option Str) (ps : List ρ) {s t : List (Option Str)}
    (h : ∀ n, n ∈ s ↔ n ∈ t) : fresh name s ps = fresh name t ps := by
  induction ps generalizing s t with
  | nil => rfl
  | cons p ps ih =>
    simp only [fresh, h (name p)]
    rw [ih h, ih (s := name p :: s) (t := name p :: t) (by simp [h])]

theorem append_eq (name : ρ → Option Str) (own path : List ρ) :
    appendMissing name own path = own ++ fresh name (own.map name) path := by
  unfold appendMissing
  induction path generalizing own with
  | nil => simp [fresh]
  | cons p path ih =>
    rw [List.foldl_cons, fresh]
    by_cases h : name p ∈ own.map name
    · rw [if_pos h]
      have : own.any (fun pp => decide (name p = name pp)) = true := by
        simp only [List.mem_map] at h
        obtain ⟨q, hq, e⟩ := h
        exact List.any_eq_true.2 ⟨q, hq, by simp [e]⟩
      rw [this, if_pos rfl, ih]
    · rw [if_neg h]
      have : own.any (fun pp => decide (name p = name pp)) = false := by
        rw [List.any_eq_false]
        intro q hq e
        simp only [decide_eq_true_eq] at e
        exact h (List.mem_map.2 ⟨q, hq, e.symm⟩)
      rw [this, if_neg (by simp), ih, List.append_assoc]
      congr 1
      simp only [List.singleton_append, List.cons.injEq, true_and]
      apply fresh_congr
      simp [or_comm]

/-- **C50** (exact result). Own parameters come first, in order; then the path-level ones with a new
name. An operation without parameters of its own takes all path-level ones. -/
theorem C50_exact (name : ρ → Option Str) (app : App σ) (o : Op ρ σ) (path : List ρ)
    (hp : o.parent = some path) :
    (operation name app o).parameters =
      if o.parameters = [] then path else o.parameters ++ fresh name (o.parameters.map name) path := by
  simp only [operation, parameters, hp]
  cases h : o.parameters with
  | nil => rfl
  | cons q l => simp only [List.isEmpty_cons, Bool.false_eq_true, if_false, append_eq, reduceCtorEq]

/-- An operation outside a path item keeps its parameters. -/
theorem C50_alone (name : ρ → Option Str) (app : App σ) (o : Op ρ σ) (hp : o.parent = none) :
    (operation name app o).parameters = o.parameters := by
  simp [operation, parameters, hp]

theorem fresh_filter (name : ρ → Option Str) (seen : List (Option Str)) (ps : List ρ)
    (h : (ps.map name).Nodup) : fresh name seen ps = ps.filter fun p => name p ∉ seen := by
  induction ps generalizing seen with
  | nil => rfl
  | cons p ps ih =>
    rw [List.map_cons, List.nodup_cons] at h
    have hx : ps.filter (fun q => decide (name q ∉ name p :: seen)) = ps.filter fun q => decide (name q ∉ seen) := by
      apply List.filter_congr
      intro q hq
      have : name q ≠ name p := fun e => h.1 (by rw [← e]; exact List.mem_map_of_mem hq)
      simp [this]
    rw [fresh, List.filter_cons, ih _ h.2, ih _ h.2, hx]
    by_cases hp : name p ∈ seen <;> simp [hp]

/-- **C50** (the documented rule). If a name is used for one location only, an own parameter
overrides exactly the path-level one with its name and location, and all others are inherited in
order. -/
theorem C50_override {ι : Type} [DecidableEq ι] (name : ρ → Option Str) (loc : ρ → ι) (app : App σ)
    (o : Op ρ σ) (path : List ρ) (hp : o.parent = some path)
    (hd : (path.map fun p => (name p, loc p)).Nodup)
    (h1 : ∀ p ∈ path, ∀ q ∈ path, name p = name q → loc p = loc q)
    (h2 : ∀ p ∈ path, ∀ q ∈ o.parameters, name p = name q → loc p = loc q) :
    (operation name app o).parameters = o.parameters ++
      path.filter fun p => (name p, loc p) ∉ o.parameters.map fun q => (name q, loc q) := by
  have hn : (path.map name).Nodup := by
    rw [List.nodup_iff_pairwise_ne, List.pairwise_map] at hd ⊢
    refine hd.imp_of_mem ?_
    intro a b ha hb hne e
    exact hne (by rw [e, h1 a ha b hb e])
  rw [C50_exact name app o path hp]
  have hf : path.filter (fun p => decide (name p ∉ o.parameters.map name)) =
      path.filter fun p => decide ((name p, loc p) ∉ o.parameters.map fun q => (name q, loc q)) := by
    apply List.filter_congr
    intro p hpm
    apply decide_eq_decide.2
    apply not_congr
    simp only [List.mem_map, Prod.mk.injEq]
    constructor
    · rintro ⟨q, hq, e⟩
      exact ⟨q, hq, e, (h2 p hpm q hq e.symm).symm⟩
    · rintro ⟨q, hq, e, _⟩
      exact ⟨q, hq, e⟩
  by_cases h0 : o.parameters = []
  · rw [if_pos h0, h0, List.nil_append]
    symm
    rw [List.filter_eq_self]
    intro a _
    simp
  · rw [if_neg h0, fresh_filter name _ path hn, hf]

/-- **C50** (nothing lost by name). Every own parameter stays, in place, and every path-level name is
there. -/
theorem C50_names (name : ρ → Option Str) (app : App σ) (o : Op ρ σ) (path : List ρ)
    (hp : o.parent = some path) :
    o.parameters <+: (operation name app o).parameters ∧
    (∀ p ∈ path, ∃ q ∈ (operation name app o).parameters, name q = name p) ∧
    ∀ q ∈ (operation name app o).parameters, q ∈ o.parameters ∨ q ∈ path := by
  have hin : ∀ (ps : List ρ) (seen : List (Option Str)), ∀ p ∈ ps,
      name p ∈ seen ∨ ∃ q ∈ fresh name seen ps, name q = name p := by
    intro ps
    induction ps with
    | nil => intro _ p h; cases h
    | cons a ps ih =>
      intro seen p h
      rw [fresh]
      by_cases ha : name a ∈ seen
      · rw [if_pos ha]
        rcases List.mem_cons.1 h with rfl | h
        · exact Or.inl ha
        · exact ih seen p h
      · rw [if_neg ha]
        rcases List.mem_cons.1 h with rfl | h
        · exact Or.inr ⟨p, List.mem_cons_self .., rfl⟩
        · rcases ih (name a :: seen) p h with h | ⟨q, hq, e⟩
          · rcases List.mem_cons.1 h with e | h
            · exact Or.inr ⟨a, List.mem_cons_self .., e.symm⟩
            · exact Or.inl h
          · exact Or.inr ⟨q, List.mem_cons_of_mem _ hq, e⟩
  have hsub : ∀ (ps : List ρ) (seen : List (Option Str)), ∀ q ∈ fresh name seen ps, q ∈ ps := by
    intro ps
    induction ps with
    | nil => intro _ q h; cases h
    | cons a ps ih =>
      intro seen q h
      rw [fresh] at h
      by_cases ha : name a ∈ seen
      · rw [if_pos ha] at h
        exact List.mem_cons_of_mem _ (ih _ q h)
      · rw [if_neg ha] at h
        rcases List.mem_cons.1 h with rfl | h
        · exact List.mem_cons_self ..
        · exact List.mem_cons_of_mem _ (ih _ q h)
  rw [C50_exact name app o path hp]
  by_cases h0 : o.parameters = []
  · rw [if_pos h0, h0]
    exact ⟨List.nil_prefix, fun p h => ⟨p, h, rfl⟩, fun q h => Or.inr h⟩
  · rw [if_neg h0]
    refine ⟨List.prefix_append .., fun p h => ?_, fun q h => ?_⟩
    · rcases hin path (o.parameters.map name) p h with h | ⟨q, hq, e⟩
      · obtain ⟨q, hq, e⟩ := List.mem_map.1 h
        exact ⟨q, List.mem_append_left _ hq, e⟩
      · exact ⟨q, List.mem_append_right _ hq, e⟩
    · rcases List.mem_append.1 h with h | h
      · exact Or.inl h
      · exact Or.inr (hsub _ _ q h)

/-- **C50** (preparing again). A second run changes no parameter. -/
theorem C50_again (name : ρ → Option Str) (app app' : App σ) (o : Op ρ σ) :
    (operation name app' (operation name app o)).parameters = (operation name app o).parameters := by
  cases hp : o.parent with
  | none =>
    rw [C50_alone name app' _ (by simpa [operation] using hp)]
  | some path =>
    have hp' : (operation name app o).parent = some path := by simpa [operation] using hp
    rw [C50_exact name app' _ path hp']
    obtain ⟨_, h2, _⟩ := C50_names name app o path hp
    have hnil : fresh name ((operation name app o).parameters.map name) path = [] := by
      have : ∀ (ps : List ρ) (seen : List (Option Str)), (∀ p ∈ ps, name p ∈ seen) →
          fresh name seen ps = [] := by
        intro ps
        induction ps with
        | nil => intro _ _; rfl
        | cons a ps ih =>
          intro seen h
          rw [fresh, if_pos (h a (List.mem_cons_self ..))]
          exact ih seen fun p hp => h p (List.mem_cons_of_mem _ hp)
      apply this
      intro p hp
      obtain ⟨q, hq, e⟩ := h2 p hp
      exact List.mem_map.2 ⟨q, hq, e⟩
    rw [hnil, List.append_nil]
    by_cases h0 : (operation name app o).parameters = []
    · rw [if_pos h0, h0]
      cases path with
      | nil => rfl
      | cons p path =>
        obtain ⟨q, hq, _⟩ := h2 p (List.mem_cons_self ..)
        rw [h0] at hq
        cases hq
    · rw [if_neg h0]

/-! ## examples: parameters are pairs of name and location -/

abbrev Par := Str × Str
def nameOf (p : Par) : Option Str := some p.1
def app : App Nat := { root := none, url := c!"http://h/s.json", schemes := [] }
def op (own path : List Par) : Op Par Nat := { parameters := own, parent := some path }

example : (operation nameOf app (op [(c!"id", c!"path"), (c!"q", c!"query")]
    [(c!"v", c!"header"), (c!"id", c!"path")])).parameters =
    [(c!"id", c!"path"), (c!"q", c!"query"), (c!"v", c!"header")] := by decide

example : let path := [(c!"v", c!"header"), (c!"id", c!"path")]
    let own := [(c!"id", c!"path"), (c!"q", c!"query")]
    (path.map fun p : Par => (nameOf p, p.2)).Nodup ∧
    (∀ p ∈ path, ∀ q ∈ path, nameOf p = nameOf q → p.2 = q.2) ∧
    (∀ p ∈ path, ∀ q ∈ own, nameOf p = nameOf q → p.2 = q.2) := by decide

/-- The documented rule fails: an own query parameter `id` makes the path parameter `id` of the
path item disappear, so the template can no longer be filled. -/
theorem C50_location_false : ∃ (o : Op Par Nat) (path : List Par), o.parent = some path ∧
    (c!"id", c!"path") ∈ path ∧ (c!"id", c!"path") ∉ o.parameters ∧
    (c!"id", c!"path") ∉ (operation nameOf app o).parameters :=
  ⟨op [(c!"id", c!"query")] [(c!"id", c!"path")], _, rfl, by decide, by decide, by decide⟩

/-- Path-level parameters with one name and two locations: both are inherited by an operation
without parameters, but only one by an operation with an unrelated parameter. -/
theorem C50_unrelated_false : ∃ (path : List Par) (p q : Par), p ∈ path ∧ nameOf q ∉ path.map nameOf ∧
    p ∈ (operation nameOf app (op [] path)).parameters ∧
    p ∉ (operation nameOf app (op [q] path)).parameters :=
  ⟨[(c!"id", c!"path"), (c!"id", c!"query")], (c!"id", c!"query"), (c!"x", c!"query"),
    by decide, by decide, by decide, by decide⟩

end Props.C50
