import Verif.Model.Resolver
import Verif.Spec.Resolver
import Verif.Proofs.Dict
/-! # Helper lemmas for the resolver (C46) -/

namespace Proofs.Resolver
open Py Utils _root_.Resolver Spec.Resolver

theorem truthy_iff (v : Val) : truthy v = true ↔ Loaded v := by
  unfold Loaded
  cases v <;> simp [truthy]

theorem follow_iff (ts : List Str) (v w : Val) : follow ts v = .ok w ↔ Path v ts w := by
  induction ts generalizing v with
  | nil =>
    rw [follow]
    constructor
    · intro h; cases h; exact .here _
    · intro h; cases h; rfl
  | cons t ts ih =>
    cases v with
    | list l =>
      rw [follow]
      cases hi : intOf? t with
      | none =>
        simp only [reduceCtorEq, false_iff]
        intro h
        cases h <;> simp_all
      | some i =>
        dsimp only
        have key : ∀ v, index l i = some v ↔ (∃ n : Nat, i = (n : Int) ∧ l[n]? = some v) ∨
            ∃ n j : Nat, i = -(j + 1 : Int) ∧ n + (j + 1) = l.length ∧ l[n]? = some v := by
          intro v
          unfold index
          by_cases h0 : 0 ≤ i
          · rw [if_pos h0]
            constructor
            · intro h; exact Or.inl ⟨i.toNat, by omega, h⟩
            · rintro (⟨n, rfl, h⟩ | ⟨n, j, rfl, _⟩)
              · simpa using h
              · omega
          · rw [if_neg h0]
            constructor
            · intro h
              by_cases hl : -i ≤ l.length
              · rw [if_pos hl] at h
                exact Or.inr ⟨l.length - (-i).toNat, (-i).toNat - 1, by omega, by omega, h⟩
              · rw [if_neg hl] at h; cases h
            · rintro (⟨n, rfl, h⟩ | ⟨n, j, rfl, hl, h⟩)
              · omega
              · rw [if_pos (by omega)]
                have : l.length - (-(-(j + 1 : Int))).toNat = n := by omega
                rw [this]; exact h
        cases hx : index l i with
        | some v =>
          dsimp only
          rw [ih]
          constructor
          · intro h
            rcases (key v).1 hx with ⟨n, rfl, h1⟩ | ⟨n, j, rfl, h1, h2⟩
            · exact .item l t n v ts w hi h1 h
            · exact .back l t n j v ts w hi h1 h2 h
          · intro h
            cases h with
            | item _ _ n v' _ _ g1 g2 g3 =>
              rw [hi] at g1; cases g1
              have := (key v').2 (Or.inl ⟨n, rfl, g2⟩)
              rw [hx] at this; cases this; exact g3
            | back _ _ n j v' _ _ g1 g2 g3 g4 =>
              rw [hi] at g1; cases g1
              have := (key v').2 (Or.inr ⟨n, j, rfl, g2, g3⟩)
              rw [hx] at this; cases this; exact g4
        | none =>
          simp only [reduceCtorEq, false_iff]
          intro h
          cases h with
          | item _ _ n v' _ _ g1 g2 g3 =>
            rw [hi] at g1; cases g1
            have := (key v').2 (Or.inl ⟨n, rfl, g2⟩)
            rw [hx] at this; cases this
          | back _ _ n j v' _ _ g1 g2 g3 g4 =>
            rw [hi] at g1; cases g1
            have := (key v').2 (Or.inr ⟨n, j, rfl, g2, g3⟩)
            rw [hx] at this; cases this
    | dict d =>
      rw [follow]
      cases hg : Dict.get? d t with
      | none =>
        simp only [reduceCtorEq, false_iff]
        intro h
        cases h; simp_all
      | some v =>
        dsimp only
        rw [ih]
        constructor
        · intro h; exact .key d t v ts w hg h
        · intro h
          cases h with
          | key _ _ v' _ _ g1 g2 => rw [hg] at g1; cases g1; exact g2
    | _ =>
      rw [follow] <;> try (intros; contradiction)
      simp only [reduceCtorEq, false_iff]
      intro h; cases h

theorem follow_error {ts : List Str} {v : Val} {e : Exc} (h : follow ts v = .error e) :
    e = .KeyError ∨ e = .IndexError ∨ e = .ValueError ∨ e = .Exception := by
  induction ts generalizing v with
  | nil => simp [follow] at h
  | cons t ts ih =>
    cases v with
    | list l =>
      rw [follow] at h
      split at h
      · cases h; simp
      · split at h
        · exact ih h
        · cases h; simp
    | dict d =>
      rw [follow] at h
      split at h
      · exact ih h
      · cases h; simp
    | _ =>
      rw [follow] at h <;> try (intros; contradiction)
      cases h; simp

section
variable {path2url abspath : Str → Str} {world : Nat → Source → Except Exc Val} {c : Conf}

/-- the cache holds what was loaded first -/
def Inv (s : State) : Prop :=
  (∀ u v, Dict.get? s.cache u = some v → truthy v = true → ∃ src, (u, src, .ok v) ∈ s.log) ∧
  (∀ u src v, (u, src, .ok v) ∈ s.log → truthy v = true → Dict.get? s.cache u = some v)

theorem inv_new : Inv new := by simp [Inv, new]

theorem resolve_inv {s : State} (h : Inv s) (jref : Str) (g : Option Getter) :
    Inv (resolve path2url abspath world c s jref g).2 := by
  unfold resolve
  split
  · exact h
  · next url jp _ =>
    dsimp only
    by_cases ht : truthy ((Dict.get? s.cache url).getD .none) = true
    · rw [if_pos ht]; exact h
    · rw [if_neg ht]
      split
      · refine ⟨fun u v h1 h2 => ?_, fun u src v h1 h2 => ?_⟩
        · obtain ⟨src, hs⟩ := h.1 u v h1 h2
          exact ⟨src, by simp [hs]⟩
        · simp only [List.mem_append, List.mem_singleton, Prod.mk.injEq] at h1
          rcases h1 with h1 | ⟨_, _, h1⟩
          · exact h.2 u src v h1 h2
          · simp_all
      · next obj hw =>
        refine ⟨fun u v h1 h2 => ?_, fun u src v h1 h2 => ?_⟩
        · rw [Dict.get?_set] at h1
          split at h1
          · next hu =>
            simp only [Option.some.injEq] at h1
            by_cases hto : truthy obj = true
            · rw [if_pos hto] at h1
              subst h1 hu
              exact ⟨_, List.mem_append_right _ (by rw [hw]; exact List.mem_singleton_self _)⟩
            · rw [if_neg hto] at h1
              subst h1
              simp [truthy] at h2
          · obtain ⟨src, hs⟩ := h.1 u v h1 h2
            exact ⟨src, by simp [hs]⟩
        · simp only [List.mem_append, List.mem_singleton, Prod.mk.injEq] at h1
          rcases h1 with h1 | ⟨rfl, _, h1⟩
          · have := h.2 u src v h1 h2
            rw [Dict.get?_set]
            split
            · next hu =>
              subst hu
              rw [this] at ht
              exact absurd h2 ht
            · exact this
          · rw [hw] at h1
            cases h1
            rw [Dict.get?_set, if_pos rfl, if_pos h2]

theorem run_inv {s : State} (h : Inv s) (calls : List (Str × Option Getter)) :
    Inv (run path2url abspath world c s calls).2 := by
  induction calls generalizing s with
  | nil => exact h
  | cons x calls ih => exact ih (resolve_inv h x.1 x.2)

/-- no URL is fetched again after it was loaded -/
def Once (log : List (Str × Source × Except Exc Val)) : Prop :=
  log.Pairwise fun x y => ∀ v, x.2.2 = .ok v → truthy v = true → y.1 ≠ x.1

theorem resolve_once {s : State} (h : Inv s) (ho : Once s.log) (jref : Str) (g : Option Getter) :
    Once (resolve path2url abspath world c s jref g).2.log := by
  unfold resolve
  split
  · exact ho
  · next url jp _ =>
    dsimp only
    by_cases ht : truthy ((Dict.get? s.cache url).getD .none) = true
    · rw [if_pos ht]; exact ho
    · rw [if_neg ht]
      have key : ∀ r, Once (s.log ++ [(url, source c g (match c.hook with
          | some f => f url
          | none => url), r)]) := by
        intro r
        unfold Once
        rw [List.pairwise_append]
        refine ⟨ho, List.pairwise_singleton _ _, ?_⟩
        rintro ⟨u, src, o⟩ hx y hy v hv htv hu
        simp only [List.mem_singleton] at hy
        subst hy
        dsimp only at hv hu
        subst hv hu
        rw [h.2 _ _ _ hx htv] at ht
        exact ht htv
      split <;> exact key _

theorem run_once {s : State} (h : Inv s) (ho : Once s.log) (calls : List (Str × Option Getter)) :
    Once (run path2url abspath world c s calls).2.log := by
  induction calls generalizing s with
  | nil => exact ho
  | cons x calls ih => exact ih (resolve_inv h x.1 x.2) (resolve_once h ho x.1 x.2)

end

end Proofs.Resolver
