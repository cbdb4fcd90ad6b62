import Mathlib.Data.List.Basic
import Mathlib.Data.List.Nodup
import Mathlib.Data.List.Perm.Subperm
import Verif.Model.Deref
/-!
# C09: dereferencing terminates, ends at a non-reference, and detects every cycle

Spec side: `chain refObj k a`, the object reached from `a` after following `k` references.
-/

namespace Props.C09
open Py Utils

variable {α : Type} [DecidableEq α]

/-- The object reached after following `k` references, if there are that many. -/
def chain (refObj : α → Option α) : Nat → α → Option α
  | 0, a => some a
  | k + 1, a => (refObj a).bind (chain refObj k)

/-- `o` is the end of the reference chain of `a`, `k` references away. -/
def EndsAt (refObj : α → Option α) (a o : α) (k : Nat) : Prop :=
  chain refObj k a = some o ∧ refObj o = none

omit [DecidableEq α] in
theorem chain_succ_end {refObj : α → Option α} {a o : α} {k : Nat} (h : EndsAt refObj a o k) :
    chain refObj (k + 1) a = none := by
  obtain ⟨h1, h2⟩ := h
  induction k generalizing a with
  | zero => simp [chain] at h1; subst h1; simp [chain, h2]
  | succ k ih =>
    simp only [chain] at h1
    cases hr : refObj a with
    | none => rw [hr] at h1; simp at h1
    | some b =>
      rw [hr] at h1
      simp only [chain, hr, Option.bind_some] at ih ⊢
      exact ih h1

omit [DecidableEq α] in
theorem chain_none_mono {refObj : α → Option α} (m : Nat) (x : α) (h : chain refObj m x = none) :
    ∀ d, chain refObj (m + d) x = none := by
  have one : ∀ m x, chain refObj m x = none → chain refObj (m + 1) x = none := by
    intro m
    induction m with
    | zero => intro x hx; simp [chain] at hx
    | succ m ih =>
      intro x hx
      simp only [chain] at hx ⊢
      cases hr : refObj x with
      | none => rfl
      | some z => rw [hr] at hx; exact ih z hx
  intro d
  induction d with
  | zero => exact h
  | succ d ih => exact one _ _ ih

omit [DecidableEq α] in
theorem chain_none_of_end {refObj : α → Option α} {a o : α} {k n : Nat} (h : EndsAt refObj a o k)
    (hn : k < n) : chain refObj n a = none := by
  have := chain_none_mono (k + 1) a (chain_succ_end h) (n - (k + 1))
  rwa [show k + 1 + (n - (k + 1)) = n by omega] at this

omit [DecidableEq α] in
/-- a chain that ends never visits an object twice -/
theorem chain_inj_of_end {refObj : α → Option α} {a o : α} {k : Nat} (h : EndsAt refObj a o k)
    (i j : Nat) (hij : i < j) (hj : j ≤ k) : chain refObj i a ≠ chain refObj j a := by
  intro e
  have add : ∀ m n x y, chain refObj m x = some y → chain refObj (m + n) x = chain refObj n y := by
    intro m
    induction m with
    | zero => intro n x y h; simp [chain] at h; subst h; simp
    | succ m ih =>
      intro n x y h
      simp only [chain] at h
      cases hr : refObj x with
      | none => rw [hr] at h; simp at h
      | some z =>
        rw [hr] at h
        rw [show m + 1 + n = (m + n) + 1 by omega]
        simp only [chain, hr, Option.bind_some]
        exact ih n z y h
  have some_of : ∀ i ≤ k, ∃ y, chain refObj i a = some y := by
    intro i hi
    have : ∀ n i x, chain refObj (i + n) x ≠ none → chain refObj i x ≠ none := by
      intro n i
      induction i with
      | zero => intro x _; simp [chain]
      | succ i ih =>
        intro x hx
        rw [show i + 1 + n = (i + n) + 1 by omega] at hx
        simp only [chain] at hx ⊢
        cases hr : refObj x with
        | none => rw [hr] at hx; simp at hx
        | some z => rw [hr] at hx; exact ih z hx
    have h2 := this (k - i) i a (by rw [show i + (k - i) = k by omega, h.1]; simp)
    exact Option.ne_none_iff_exists'.1 h2
  obtain ⟨y, hy⟩ := some_of j hj
  rw [hy] at e
  -- end is reached k - j after y, but also k - i after y
  have e1 := add j (k + 1 - j) a y hy
  rw [show j + (k + 1 - j) = k + 1 by omega, chain_succ_end h] at e1
  have e2 := add i (k + 1 - j) a y e
  rw [← e1] at e2
  obtain ⟨z, hz⟩ := some_of (i + (k + 1 - j)) (by omega)
  rw [hz] at e2; cases e2

/-- What the loop does from a current object, in terms of the chain. -/
theorem loop_spec (refObj : α → Option α) (fuel : Nat) (cur : α) (visited : List α)
    (r : Except Exc (α × List α)) (h : derefLoop refObj fuel cur visited = some r) :
    (∃ o k, r = .ok (o, visited ++ (List.range k).filterMap (fun i => chain refObj (i + 1) cur)) ∧
      EndsAt refObj cur o k ∧
      ∀ i < k, ∀ x, chain refObj (i + 1) cur = some x → x ∉ visited) ∨
    (r = .error .CycleDetectionError ∧ ∃ i x, chain refObj (i + 1) cur = some x ∧
      (x ∈ visited ∨ ∃ j < i, chain refObj (j + 1) cur = some x)) := by
  induction fuel generalizing cur visited with
  | zero => simp [derefLoop] at h
  | succ fuel ih =>
    simp only [derefLoop] at h
    cases hr : refObj cur with
    | none =>
      rw [hr] at h; simp at h; subst h
      left
      exact ⟨cur, 0, by simp, ⟨rfl, hr⟩, by simp⟩
    | some nxt =>
      rw [hr] at h
      simp only [CycleGuard.update] at h
      by_cases hv : nxt ∈ visited
      · simp only [hv, if_true, Option.some.injEq] at h
        right
        refine ⟨h.symm, 0, nxt, by simp [chain, hr], Or.inl hv⟩
      · simp only [hv, if_false] at h
        have hc : ∀ i, chain refObj (i + 1) cur = chain refObj i nxt := by
          intro i; simp [chain, hr]
        rcases ih nxt (visited ++ [nxt]) h with ⟨o, k, h1, h2, h3⟩ | ⟨h1, i, x, h2, h3⟩
        · left
          refine ⟨o, k + 1, ?_, ⟨by rw [hc]; exact h2.1, h2.2⟩, ?_⟩
          · rw [h1, List.range_succ_eq_map, List.filterMap_cons]
            rw [List.filterMap_map]
            simp [chain, hr, Function.comp_def]
          · intro i hi x hx
            rw [hc] at hx
            cases i with
            | zero => simp [chain] at hx; subst hx; exact hv
            | succ i =>
              intro hxv
              exact h3 i (by omega) x hx (by simp [hxv])
        · right
          refine ⟨h1, i + 1, x, by rw [hc]; exact h2, ?_⟩
          rcases h3 with h3 | ⟨j, hj, h3⟩
          · rcases List.mem_append.1 h3 with h3 | h3
            · exact Or.inl h3
            · simp at h3; subst h3
              exact Or.inr ⟨0, by omega, by rw [hc]; rfl⟩
          · exact Or.inr ⟨j + 1, by omega, by rw [hc]; exact h3⟩

/-- **C09** (termination). On every finite object graph dereferencing stops, for every start
object and every guard history, within one round per object. -/
theorem C09_terminates (refObj : α → Option α) (V : List α)
    (hV : ∀ v ∈ V, ∀ w, refObj v = some w → w ∈ V) (a : α) (ha : a ∈ V) (visited : List α) :
    ∀ n, V.length ≤ n → ∃ r, deref n refObj a visited = some r := by
  have key : ∀ fuel cur vis (seen : List α), cur ∈ V → seen.Nodup → (∀ x ∈ seen, x ∈ V) →
      (∀ x ∈ seen, x ∈ vis) → cur ∈ seen → V.length + 1 ≤ seen.length + fuel →
      ∃ r, derefLoop refObj fuel cur vis = some r := by
    intro fuel
    induction fuel with
    | zero =>
      intro cur vis seen _ hn hs _ _ hl
      have := (List.Nodup.subperm hn hs).length_le
      omega
    | succ fuel ih =>
      intro cur vis seen hc hn hs hsv hcs hl
      simp only [derefLoop]
      cases hr : refObj cur with
      | none => exact ⟨_, rfl⟩
      | some nxt =>
        simp only [CycleGuard.update]
        by_cases hv : nxt ∈ vis
        · simp [hv]
        · simp only [hv, if_false]
          have hnV := hV cur hc nxt hr
          apply ih nxt (vis ++ [nxt]) (seen ++ [nxt]) hnV
          · rw [List.nodup_append]
            refine ⟨hn, by simp, ?_⟩
            intro x hx y hy; simp at hy; subst hy; rintro rfl; exact hv (hsv _ hx)
          · intro x hx
            rcases List.mem_append.1 hx with hx | hx
            · exact hs x hx
            · simp at hx; subst hx; exact hnV
          · intro x hx
            rcases List.mem_append.1 hx with hx | hx
            · simp [hsv x hx]
            · simp [hx]
          · simp
          · simp; omega
  intro n hn
  simp only [deref, CycleGuard.update]
  by_cases hv : a ∈ visited
  · simp [hv]
  · simp only [hv, if_false]
    exact key n a (visited ++ [a]) [a] ha (by simp) (by simpa using ha) (by simp) (by simp)
      (by simp; omega)

/-- **C09** (result). A finished dereferencing returned `o` exactly when `o` is the end of the
start object's reference chain (a non-reference) and no object of the chain was known to the
guard. -/
theorem C09_result_iff (refObj : α → Option α) (a o : α) (visited : List α) (n : Nat)
    (r : Except Exc (α × List α)) (h : deref n refObj a visited = some r) :
    (∃ vis, r = .ok (o, vis)) ↔
      ∃ k, EndsAt refObj a o k ∧ ∀ i ≤ k, ∀ x, chain refObj i a = some x → x ∉ visited := by
  simp only [deref, CycleGuard.update] at h
  by_cases hv : a ∈ visited
  · simp only [hv, if_true, Option.some.injEq] at h
    subst h
    constructor
    · rintro ⟨_, h⟩; cases h
    · rintro ⟨k, _, h⟩; exact absurd hv (h 0 (by omega) a rfl)
  · simp only [hv, if_false] at h
    rcases loop_spec refObj n a _ r h with ⟨o', k, h1, h2, h3⟩ | ⟨h1, i, x, h2, h3⟩
    · constructor
      · rintro ⟨vis, hr⟩
        rw [h1] at hr; simp at hr
        obtain ⟨rfl, _⟩ := hr
        refine ⟨k, h2, ?_⟩
        intro i hi x hx hxv
        cases i with
        | zero => simp [chain] at hx; subst hx; exact hv hxv
        | succ i => exact h3 i (by omega) x hx (by simp [hxv])
      · rintro ⟨k', h2', _⟩
        have : k' = k := by
          rcases Nat.lt_trichotomy k' k with hlt | heq | hgt
          · have h4 := chain_none_of_end h2' hlt
            rw [h2.1] at h4; cases h4
          · exact heq
          · have h4 := chain_none_of_end h2 hgt
            rw [h2'.1] at h4; cases h4
        subst this
        have : o' = o := by have := h2.1; rw [h2'.1] at this; simpa using this.symm
        subst this
        exact ⟨_, h1⟩
    · constructor
      · rintro ⟨vis, hr⟩; rw [h1] at hr; cases hr
      · rintro ⟨k, hk, hnv⟩
        exfalso
        have hik : i + 1 ≤ k := by
          apply Classical.byContradiction
          intro hgt
          have h4 := chain_none_of_end hk (n := i + 1) (by omega)
          rw [h2] at h4; cases h4
        rcases h3 with h3 | ⟨j, hj, h3⟩
        · rcases List.mem_append.1 h3 with h3 | h3
          · exact hnv (i + 1) hik x h2 h3
          · simp at h3; subst h3
            exact chain_inj_of_end hk 0 (i + 1) (by omega) hik (by rw [h2]; rfl)
        · exact chain_inj_of_end hk (j + 1) (i + 1) (by omega) hik (by rw [h2, h3])

/-- **C09** (only failure). The only exception is `CycleDetectionError`, so by the two theorems
above it is raised on a finite graph exactly when the chain does not end or meets an object the
guard has already seen. -/
theorem C09_error (refObj : α → Option α) (a : α) (visited : List α) (n : Nat) (e : Exc)
    (h : deref n refObj a visited = some (.error e)) : e = .CycleDetectionError := by
  simp only [deref, CycleGuard.update] at h
  by_cases hv : a ∈ visited
  · simp only [hv, if_true, Option.some.injEq, Except.error.injEq] at h; exact h.symm
  · simp only [hv, if_false] at h
    rcases loop_spec refObj n a _ _ h with ⟨_, _, h1, _⟩ | ⟨h1, _⟩
    · cases h1
    · simpa using h1

/-- **C09** (guard). After a successful dereferencing the guard has seen, besides what it had seen
before, exactly the objects of the chain, in order. -/
theorem C09_guard (refObj : α → Option α) (a o : α) (visited vis : List α) (n : Nat)
    (h : deref n refObj a visited = some (.ok (o, vis))) :
    ∃ k, EndsAt refObj a o k ∧
      vis = visited ++ (List.range (k + 1)).filterMap (fun i => chain refObj i a) := by
  simp only [deref, CycleGuard.update] at h
  by_cases hv : a ∈ visited
  · simp [hv] at h
  · simp only [hv, if_false] at h
    rcases loop_spec refObj n a _ _ h with ⟨o', k, h1, h2, _⟩ | ⟨h1, _⟩
    · simp only [Except.ok.injEq, Prod.mk.injEq] at h1
      obtain ⟨rfl, rfl⟩ := h1
      refine ⟨k, h2, ?_⟩
      rw [List.range_succ_eq_map, List.filterMap_cons]
      simp [chain, List.filterMap_map, Function.comp_def]
    · cases h1

/-- **C09** (effective object). `final` gives the merged object when there is one and the object
itself otherwise. -/
theorem C09_final {β : Type} (fin : β → Option β) (o : β) :
    (∀ m, fin o = some m → final fin o = m) ∧ (fin o = none → final fin o = o) := by
  constructor
  · intro m h; simp [final, h]
  · intro h; simp [final, h]

/-! Non-vacuity: a chain 0 → 1 → 2, a cycle 3 → 4 → 3, and a guard that has seen 1. -/
def g : Nat → Option Nat
  | 0 => some 1
  | 1 => some 2
  | 3 => some 4
  | 4 => some 3
  | _ => none
example : deref 5 g 0 = some (.ok (2, [0, 1, 2])) := by decide
example : deref 5 g 3 = some (.error .CycleDetectionError) := by decide
example : deref 5 g 0 [1] = some (.error .CycleDetectionError) := by decide
example : ∀ v ∈ [0, 1, 2, 3, 4], ∀ w, g v = some w → w ∈ [0, 1, 2, 3, 4] := by
  intro v hv w hw
  simp only [List.mem_cons, List.not_mem_nil, or_false] at hv
  rcases hv with rfl | rfl | rfl | rfl | rfl <;> simp [g] at hw <;> subst hw <;> decide
example : EndsAt g 0 2 2 := ⟨rfl, rfl⟩

end Props.C09
