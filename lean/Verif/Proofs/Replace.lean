import Verif.Props.C17
import Verif.Proofs.Dict
/-! # Folding replacements of named pairs -/

namespace Utils
open Py Props.C17

variable {α β : Type} [DecidableEq α]

/-- the last pair of `vs` with name `k` -/
def lastOf (vs : List (α × β)) (k : α) : Option (α × β) :=
  match vs with
  | [] => none
  | v :: vs => match lastOf vs k with
    | some w => some w
    | none => if v.1 = k then some v else none

theorem lastOf_append (vs ws : List (α × β)) (k : α) :
    lastOf (vs ++ ws) k = match lastOf ws k with | some w => some w | none => lastOf vs k := by
  induction vs with
  | nil => simp [lastOf]; cases lastOf ws k <;> rfl
  | cons v vs ih =>
    simp only [List.cons_append, lastOf, ih]
    cases lastOf ws k <;> rfl

theorem lastOf_none {vs : List (α × β)} {k : α} : lastOf vs k = none ↔ ∀ v ∈ vs, v.1 ≠ k := by
  induction vs with
  | nil => simp [lastOf]
  | cons v vs ih =>
    simp only [lastOf, List.mem_cons, forall_eq_or_imp]
    cases h : lastOf vs k with
    | some w =>
      simp only [reduceCtorEq, false_iff, not_and]
      intro _ h2
      rw [ih.2 h2] at h; cases h
    | none =>
      have := ih.1 h
      by_cases hk : v.1 = k
      · simp [hk]
      · simp [hk]; intro a b hab e; exact this _ hab e

theorem lastOf_some {vs : List (α × β)} {k : α} {w : α × β} (h : lastOf vs k = some w) :
    w ∈ vs ∧ w.1 = k := by
  induction vs with
  | nil => simp [lastOf] at h
  | cons v vs ih =>
    simp only [lastOf] at h
    cases h2 : lastOf vs k with
    | some w' => rw [h2] at h; cases h; exact ⟨List.mem_cons_of_mem _ (ih h2).1, (ih h2).2⟩
    | none =>
      rw [h2] at h
      by_cases hk : v.1 = k
      · simp [hk] at h; subst h; exact ⟨List.mem_cons_self .., hk⟩
      · simp [hk] at h

/-- all replacements, first to last -/
def replaceAll (l vs : List (α × β)) : List (α × β) := vs.foldl nv_tuple_list_replace l

theorem names_replace (l : List (α × β)) (v : α × β) :
    (nv_tuple_list_replace l v).map Prod.fst =
      if v.1 ∈ l.map Prod.fst then l.map Prod.fst else l.map Prod.fst ++ [v.1] := by
  rw [C17_result]
  have : (∃ x ∈ l, x.1 = v.1) ↔ v.1 ∈ l.map Prod.fst := by simp
  by_cases h : v.1 ∈ l.map Prod.fst
  · rw [if_pos (this.2 h), if_pos h, List.map_map]
    apply List.map_congr_left
    intro x _
    by_cases e : x.1 = v.1 <;> simp [e]
  · rw [if_neg (fun e => h (this.1 e)), if_neg h]; simp

theorem mem_names_replaceAll (l vs : List (α × β)) (k : α) :
    k ∈ (replaceAll l vs).map Prod.fst ↔ k ∈ l.map Prod.fst ∨ k ∈ vs.map Prod.fst := by
  induction vs generalizing l with
  | nil => simp [replaceAll]
  | cons v vs ih =>
    have : replaceAll l (v :: vs) = replaceAll (nv_tuple_list_replace l v) vs := rfl
    rw [this, ih, names_replace]
    by_cases h : v.1 ∈ l.map Prod.fst
    · rw [if_pos h, List.map_cons, List.mem_cons]
      constructor
      · rintro (h | h)
        · exact Or.inl h
        · exact Or.inr (Or.inr h)
      · rintro (h2 | h2 | h2)
        · exact Or.inl h2
        · exact Or.inl (h2 ▸ h)
        · exact Or.inr h2
    · rw [if_neg h, List.map_cons, List.mem_cons, List.mem_append, List.mem_singleton, or_assoc]

/-- when every name is already there, the replacements change values in place only -/
theorem replaceAll_of_present (l vs : List (α × β)) (h : ∀ v ∈ vs, v.1 ∈ l.map Prod.fst) :
    replaceAll l vs = l.map (fun x => (lastOf vs x.1).getD x) := by
  induction vs generalizing l with
  | nil => simp [replaceAll, lastOf]
  | cons v vs ih =>
    have hv := h v (List.mem_cons_self ..)
    have hex : ∃ x ∈ l, x.1 = v.1 := by simpa using hv
    have e : replaceAll l (v :: vs) = replaceAll (nv_tuple_list_replace l v) vs := rfl
    rw [e, ih]
    · rw [C17_result, if_pos hex, List.map_map]
      apply List.map_congr_left
      intro x _
      simp only [Function.comp, lastOf]
      by_cases hx : x.1 = v.1
      · simp only [hx, if_true]
        cases lastOf vs v.1 <;> rfl
      · have hx' : ¬ v.1 = x.1 := fun e => hx e.symm
        simp only [hx, if_false, hx']
        cases lastOf vs x.1 <;> rfl
    · intro w hw
      rw [names_replace, if_pos hv]
      exact h w (List.mem_cons_of_mem _ hw)

/-- afterwards every pair whose name was replaced is the last replacement of that name -/
theorem replaceAll_effect (l vs : List (α × β)) :
    ∀ x ∈ replaceAll l vs, ∀ w, lastOf vs x.1 = some w → x = w := by
  induction vs generalizing l with
  | nil => intro x _ w h; simp [lastOf] at h
  | cons v vs ih =>
    intro x hx w hw
    have e : replaceAll l (v :: vs) = replaceAll (nv_tuple_list_replace l v) vs := rfl
    rw [e] at hx
    simp only [lastOf] at hw
    cases h2 : lastOf vs x.1 with
    | some w' => rw [h2] at hw; cases hw; exact ih _ x hx w h2
    | none =>
      rw [h2] at hw
      by_cases hk : v.1 = x.1
      · simp [hk] at hw
        -- x is not touched by the later replacements
        have hno := lastOf_none.1 h2
        have key : ∀ (vs l : List (α × β)), (∀ v ∈ vs, v.1 ≠ x.1) → x ∈ replaceAll l vs → x ∈ l := by
          intro vs
          induction vs with
          | nil => intro l _ h; exact h
          | cons u us ihu =>
            intro l hu hx
            have := ihu (nv_tuple_list_replace l u) (fun v hv => hu v (List.mem_cons_of_mem _ hv)) hx
            have hne := hu u (List.mem_cons_self ..)
            have hf : x ∈ (nv_tuple_list_replace l u).filter (fun y => decide (y.1 ≠ u.1)) :=
              List.mem_filter.2 ⟨this, by simpa using fun e => hne e.symm⟩
            rw [C17_others] at hf
            exact (List.mem_filter.1 hf).1
        have := key vs _ hno hx
        rw [← hw]
        exact (C17_effect l v).2 x this hk.symm
      · simp [hk] at hw

/-- the pairs with other names are untouched and in order -/
theorem replaceAll_others (l vs : List (α × β)) :
    (replaceAll l vs).filter (fun x => decide (x.1 ∉ vs.map Prod.fst)) =
      l.filter (fun x => decide (x.1 ∉ vs.map Prod.fst)) := by
  have key : ∀ (vs : List (α × β)) (l : List (α × β)) (N : List α), (∀ v ∈ vs, v.1 ∈ N) →
      (replaceAll l vs).filter (fun x => decide (x.1 ∉ N)) = l.filter (fun x => decide (x.1 ∉ N)) := by
    intro vs
    induction vs with
    | nil => intro l N _; rfl
    | cons v vs ih =>
      intro l N hN
      have e : replaceAll l (v :: vs) = replaceAll (nv_tuple_list_replace l v) vs := rfl
      rw [e, ih _ N (fun w hw => hN w (List.mem_cons_of_mem _ hw))]
      have hv := hN v (List.mem_cons_self ..)
      have h2 := congrArg (List.filter (fun x => decide (x.1 ∉ N))) (C17_others l v)
      rw [List.filter_filter, List.filter_filter] at h2
      have h3 : ∀ m : List (α × β), m.filter (fun a => decide (a.1 ∉ N) && decide (a.1 ≠ v.1)) =
          m.filter (fun a => decide (a.1 ∉ N)) := by
        intro m
        apply List.filter_congr
        intro a _
        by_cases ha : a.1 ∈ N
        · simp [ha]
        · have : a.1 ≠ v.1 := fun e => ha (e ▸ hv)
          simp [ha, this]
      rw [h3, h3] at h2
      exact h2
  exact key vs l _ (fun v hv => List.mem_map.2 ⟨v, hv, rfl⟩)

/-- doing all replacements again changes nothing -/
theorem replaceAll_idem (l vs : List (α × β)) :
    replaceAll (replaceAll l vs) vs = replaceAll l vs := by
  rw [replaceAll_of_present (replaceAll l vs) vs]
  · conv => rhs; rw [← List.map_id (replaceAll l vs)]
    apply List.map_congr_left
    intro x hx
    cases h : lastOf vs x.1 with
    | none => rfl
    | some w => exact (replaceAll_effect l vs x hx w h).symm
  · intro v hv
    rw [mem_names_replaceAll]
    exact Or.inr (List.mem_map.2 ⟨v, hv, rfl⟩)

/-- assignment to a real dict is a replacement -/
theorem set_eq_replace {d : Dict α β} (hd : Dict.WF d) (k : α) (v : β) :
    Dict.set d k v = nv_tuple_list_replace d (k, v) := by
  rw [C17_result]
  induction d with
  | nil => simp [Dict.set]
  | cons e d ih =>
    obtain ⟨k', v'⟩ := e
    have hd' : Dict.WF d := by
      simp only [Dict.WF, Dict.keys, List.map_cons, List.nodup_cons] at hd ⊢; exact hd.2
    by_cases h : k' = k
    · subst h
      have hno : k' ∉ d.map Prod.fst := by
        simp only [Dict.WF, Dict.keys, List.map_cons, List.nodup_cons] at hd; exact hd.1
      rw [if_pos ⟨(k', v'), List.mem_cons_self .., rfl⟩]
      simp only [Dict.set, if_true, List.map_cons, List.cons.injEq, true_and]
      conv => lhs; rw [← List.map_id d]
      apply List.map_congr_left
      intro x hx
      have : x.1 ≠ k' := fun e => hno (List.mem_map.2 ⟨x, hx, e⟩)
      simp [this]
    · simp only [Dict.set, h, if_false, ih hd', List.map_cons]
      by_cases hex : ∃ x ∈ d, x.1 = k
      · have : ∃ x ∈ (k', v') :: d, x.1 = k := by
          obtain ⟨x, hx, e⟩ := hex; exact ⟨x, List.mem_cons_of_mem _ hx, e⟩
        rw [if_pos hex, if_pos this]
      · have : ¬ ∃ x ∈ (k', v') :: d, x.1 = k := by
          rintro ⟨x, hx, e⟩
          rcases List.mem_cons.1 hx with rfl | hx
          · exact h e
          · exact hex ⟨x, hx, e⟩
        rw [if_neg hex, if_neg this]; rfl

theorem foldl_set_eq_replaceAll {d : Dict α β} (hd : Dict.WF d) (vs : List (α × β)) :
    vs.foldl (fun d v => Dict.set d v.1 v.2) d = replaceAll d vs := by
  induction vs generalizing d with
  | nil => rfl
  | cons v vs ih =>
    simp only [List.foldl_cons, replaceAll]
    rw [ih (Dict.WF_set hd _ _), set_eq_replace hd]
    rfl

theorem get?_foldl_set (d : Dict α β) (vs : List (α × β)) (k : α) :
    Dict.get? (vs.foldl (fun d v => Dict.set d v.1 v.2) d) k =
      match lastOf vs k with | some w => some w.2 | none => Dict.get? d k := by
  induction vs generalizing d with
  | nil => rfl
  | cons v vs ih =>
    simp only [List.foldl_cons, ih, lastOf]
    cases h : lastOf vs k with
    | some w => rfl
    | none =>
      simp only [Dict.get?_set]
      by_cases hk : v.1 = k
      · simp [hk]
      · have : ¬ k = v.1 := fun e => hk e.symm
        simp [hk, this]

end Utils
