import Verif.Model.Scope
import Verif.Proofs.Str
import Verif.Proofs.Dict
/-! # Lemmas for C05, C06 -/

namespace Spec
open Py

/-- `z` is the last scope component of `s`: either `s` has no separator and `z` is all of it, or
`z` follows an occurrence of the separator after which no further occurrence begins. -/
def LastComp (sep s z : Str) : Prop :=
  (¬ sep <:+: s ∧ z = s) ∨
  (∃ p, s = p ++ sep ++ z ∧ ∀ i, 0 < i → ¬ sep <+: (sep ++ z).drop i)

end Spec

namespace Proofs.Scope
open Py Utils Spec

theorem afterLast?_some {sep s z : Str} (hs : sep ≠ []) (h : afterLast? sep s = some z) :
    ∃ p, s = p ++ sep ++ z ∧ ∀ i, 0 < i → ¬ sep <+: (sep ++ z).drop i := by
  induction s with
  | nil => simp [afterLast?] at h
  | cons x xs ih =>
    simp only [afterLast?] at h
    cases hr : afterLast? sep xs with
    | some r =>
      rw [hr] at h; simp at h; subst h
      obtain ⟨p, hp, hn⟩ := ih hr
      exact ⟨x :: p, by simp [hp], hn⟩
    | none =>
      rw [hr] at h
      by_cases hp : sep.isPrefixOf (x :: xs) = true
      · simp only [hp, if_true, Option.some.injEq] at h
        obtain ⟨t, ht⟩ := List.isPrefixOf_iff_prefix.1 hp
        have hz : z = t := by rw [← h, ← ht]; simp
        subst hz
        refine ⟨[], by simp [ht], ?_⟩
        intro i hi hpre
        apply (afterLast?_none_iff hs).1 hr
        rw [ht] at hpre
        cases i with
        | zero => omega
        | succ i =>
          simp only [List.drop_succ_cons] at hpre
          exact hpre.isInfix.trans (List.drop_suffix i xs).isInfix
      · simp [hp] at h

theorem rsplitLast_iff {sep : Str} (hs : sep ≠ []) (s z : Str) :
    rsplitLast sep s = z ↔ LastComp sep s z := by
  constructor
  · intro h
    cases hr : afterLast? sep s with
    | none =>
      left
      refine ⟨(afterLast?_none_iff hs).1 hr, ?_⟩
      simp [rsplitLast, hr] at h; exact h.symm
    | some r =>
      right
      simp [rsplitLast, hr] at h; subst h
      exact afterLast?_some hs hr
  · rintro (⟨h1, rfl⟩ | ⟨p, rfl, h⟩)
    · exact rsplitLast_of_not_infix hs h1
    · have := afterLast?_append (s := p) hs h
      simp only [rsplitLast]
      rw [List.append_assoc, this]; rfl

theorem lastComp_suffix {sep s z : Str} (h : LastComp sep s z) : z <:+ s := by
  rcases h with ⟨_, rfl⟩ | ⟨p, rfl, _⟩
  · exact List.suffix_refl _
  · exact List.suffix_append _ _

theorem index_ok {ν : Type} {d : Dict Str ν} {k : Str} {v : ν} (h : d.get? k = some v) :
    ScopeDict.getitem.index d k = .ok v := by
  simp [ScopeDict.getitem.index, h]

/-- a nodup list filtered to a predicate true of exactly one member -/
theorem filter_eq_singleton {α : Type} {l : List α} (hl : l.Nodup) {p : α → Bool} {a : α}
    (ha : a ∈ l) (hp : p a = true) (hu : ∀ b ∈ l, p b = true → b = a) : l.filter p = [a] := by
  have hn : (l.filter p).Nodup := List.Pairwise.filter _ hl
  have hm : ∀ x, x ∈ l.filter p ↔ x = a := by
    intro x; rw [List.mem_filter]
    exact ⟨fun h => hu x h.1 h.2, fun h => by subst h; exact ⟨ha, hp⟩⟩
  cases h : l.filter p with
  | nil => have := (hm a).2 rfl; rw [h] at this; simp at this
  | cons x xs =>
    rw [h] at hn hm
    have hx : x = a := (hm x).1 (by simp)
    cases xs with
    | nil => rw [hx]
    | cons y ys =>
      have hy : y = a := (hm y).1 (by simp)
      simp [hx, hy] at hn

/-- two distinct members satisfying the predicate: the filter has at least two elements -/
theorem filter_two {α : Type} {l : List α} {p : α → Bool} {a b : α} (hab : a ≠ b)
    (ha : a ∈ l) (hb : b ∈ l) (pa : p a = true) (pb : p b = true) :
    ∃ x y r, l.filter p = x :: y :: r := by
  have ha' : a ∈ l.filter p := List.mem_filter.2 ⟨ha, pa⟩
  have hb' : b ∈ l.filter p := List.mem_filter.2 ⟨hb, pb⟩
  cases h : l.filter p with
  | nil => rw [h] at ha'; simp at ha'
  | cons x r =>
    cases r with
    | nil =>
      rw [h] at ha' hb'
      simp at ha' hb'
      exact absurd (ha'.trans hb'.symm) hab
    | cons y r => exact ⟨x, y, r, rfl⟩

end Proofs.Scope
