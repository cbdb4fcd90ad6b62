import Mathlib.Order.Defs.LinearOrder
import Mathlib.Data.Nat.Basic
import Verif.Proofs.Walk
/-!
# C07: cycle search terminates and reports exactly the reachable simple cycles

Spec side: `Spec.Reach`, `Spec.IsCycle` (`Verif/Spec/Cycle.lean`). The graph is given by its
edge function `ofn` and a finite vertex list `V` closed under it; parallel edges and self loops
are allowed.
-/

namespace Props.C07
open Utils Spec Proofs.Walk

variable {α : Type} [LinearOrder α]

/-- **C07** On every finite graph the search terminates without exception (for every large enough
number of iterations the result is the same); the result is the list of cycles known before,
followed by new entries, none of them twice or already known; and an entry is in the result if
and only if it was known before or is a simple cycle reachable from the start vertex, written
from its smallest vertex back to it. -/
theorem C07_walk (ofn : α → List α) (V : List α) (hV : ∀ v ∈ V, ∀ w ∈ ofn v, w ∈ V)
    (start : α) (hs : start ∈ V) (known : List (List α)) :
    ∃ fuel res, (∀ n, fuel ≤ n → walk n start ofn (some known) = some (.ok res)) ∧
      (∃ new, res = known ++ new ∧ new.Nodup ∧ ∀ c ∈ new, c ∉ known) ∧
      ∀ r, r ∈ res ↔ r ∈ known ∨
        ∃ v l, r = v :: l ++ [v] ∧ IsCycle ofn v l ∧ Reach ofn start v := by
  obtain ⟨k, hk⟩ := walk_eq_expl ofn V hV start hs known
  refine ⟨k, expl ofn V.length [start] (ofn start) known, ?_, ext_expl _ _ _ _ _, ?_⟩
  · intro n hn
    have := hk (n - k)
    rw [show k + (n - k) = n by omega] at this
    exact this
  · intro r
    constructor
    · intro hr
      exact expl_sound ofn V.length [] start (ofn start) known start (by simp) trivial
        (fun _ h => h) (by intro x hx; simp at hx; subst hx; exact Reach.refl _) r hr
    · rintro (h | ⟨v, l, rfl, hc, hr⟩)
      · exact (ext_expl ofn _ _ _ known).mem h
      · exact expl_all ofn V hV start hs known v l hc hr

/-- **C07** The result does not depend on the cut-off: two runs that finish agree. -/
theorem C07_deterministic (ofn : α → List α) (V : List α) (hV : ∀ v ∈ V, ∀ w ∈ ofn v, w ∈ V)
    (start : α) (hs : start ∈ V) (known res : List (List α)) (n : Nat)
    (h : walk n start ofn (some known) = some (.ok res)) :
    ∀ r, r ∈ res ↔ r ∈ known ∨
      ∃ v l, r = v :: l ++ [v] ∧ IsCycle ofn v l ∧ Reach ofn start v := by
  obtain ⟨k, res', h1, _, h3⟩ := C07_walk ofn V hV start hs known
  have mono : ∀ n s (x : Except Py.Exc (List (List α))), walkRun ofn n s = some x →
      ∀ j, walkRun ofn (n + j) s = some x := by
    intro n
    induction n with
    | zero => intro s x hx; simp [walkRun] at hx
    | succ n ih =>
      intro s x hx j
      rw [show n + 1 + j = (n + j) + 1 by omega]
      simp only [walkRun] at hx ⊢
      cases hstep : walkStep ofn s with
      | none => rw [hstep] at hx; exact hx
      | some y =>
        rw [hstep] at hx
        cases y with
        | error e => exact hx
        | ok s' => exact ih _ _ hx j
  have e1 := mono n _ _ h k
  have e2 := h1 (n + k) (by omega)
  have hEq : walk (n + k) start ofn (some known) = some (.ok res) := e1
  rw [hEq] at e2
  simp at e2
  subst e2
  exact h3

/-- **C07** (no cycle list given) starts from the empty list. -/
theorem C07_default (ofn : α → List α) (start : α) (n : Nat) :
    walk n start ofn none = walk n start ofn (some []) := rfl

/-! Non-vacuity: two overlapping cycles, a self loop, a parallel edge. -/
def g : Nat → List Nat
  | 0 => [1, 1]
  | 1 => [2, 3]
  | 2 => [1]
  | 3 => [3, 0]
  | _ => []
example : walk 40 3 g = some (.ok [[3, 3], [1, 2, 1], [0, 1, 3, 0]]) := by decide
example : ∀ v ∈ [0, 1, 2, 3], ∀ w ∈ g v, w ∈ [0, 1, 2, 3] := by decide
example : IsCycle g 0 [1, 3] := by
  refine ⟨?_, by decide, by decide⟩
  simp [IsWalk, g]

end Props.C07
