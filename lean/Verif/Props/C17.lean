import Verif.Model.Deref
/-! # C17: replacing a query parameter keeps the others -/

namespace Props.C17
open Py Utils

variable {α β : Type} [DecidableEq α]

theorem loop_eq (l : List (α × β)) (v : α × β) :
    nv_tuple_list_replace.loop v l =
      (l.map (fun x => if x.1 = v.1 then v else x), l.any (fun x => decide (x.1 = v.1))) := by
  induction l with
  | nil => rfl
  | cons x xs ih =>
    by_cases h : x.1 = v.1 <;> simp [nv_tuple_list_replace.loop, ih, h]

/-- **C17** (exact result). If some pair has the name, each such pair becomes the new one and
nothing else changes; otherwise the new pair is added at the end. -/
theorem C17_result (l : List (α × β)) (v : α × β) :
    nv_tuple_list_replace l v =
      if ∃ x ∈ l, x.1 = v.1 then l.map (fun x => if x.1 = v.1 then v else x) else l ++ [v] := by
  simp only [nv_tuple_list_replace, loop_eq]
  by_cases h : ∃ x ∈ l, x.1 = v.1
  · have : l.any (fun x => decide (x.1 = v.1)) = true := by simpa using h
    simp [this, h]
  · have : l.any (fun x => decide (x.1 = v.1)) = false := by
      rw [Bool.eq_false_iff]; intro e; apply h; simpa using e
    have h2 : l.map (fun x => if x.1 = v.1 then v else x) = l := by
      conv => rhs; rw [← List.map_id l]
      apply List.map_congr_left
      intro x hx
      have : x.1 ≠ v.1 := fun e => h ⟨x, hx, e⟩
      simp [this]
    simp only [this, h2, h]; simp

/-- **C17** (frame). The pairs with other names are untouched and in the same order. -/
theorem C17_others (l : List (α × β)) (v : α × β) :
    (nv_tuple_list_replace l v).filter (fun x => decide (x.1 ≠ v.1))
      = l.filter (fun x => decide (x.1 ≠ v.1)) := by
  rw [C17_result]
  split
  · rename_i h; clear h
    induction l with
    | nil => rfl
    | cons x xs ih =>
      by_cases h : x.1 = v.1
      · simpa [h] using ih
      · simpa [h] using ih
  · simp

/-- **C17** (effect). Afterwards the name is present, and every pair of that name is the new
pair. -/
theorem C17_effect (l : List (α × β)) (v : α × β) :
    v ∈ nv_tuple_list_replace l v ∧ ∀ x ∈ nv_tuple_list_replace l v, x.1 = v.1 → x = v := by
  rw [C17_result]
  split
  · rename_i h
    obtain ⟨x, hx, e⟩ := h
    refine ⟨List.mem_map.2 ⟨x, hx, by simp [e]⟩, ?_⟩
    intro y hy hyv
    obtain ⟨z, _, rfl⟩ := List.mem_map.1 hy
    by_cases hz : z.1 = v.1
    · simp [hz]
    · simp only [hz, if_false] at hyv
  · rename_i h
    refine ⟨by simp, ?_⟩
    intro y hy hyv
    rcases List.mem_append.1 hy with hy | hy
    · exact absurd ⟨y, hy, hyv⟩ h
    · simpa using hy

/-- **C17** (multiplicity). As many pairs carry the name as before, or one if there was none. -/
theorem C17_count (l : List (α × β)) (v : α × β) :
    ((nv_tuple_list_replace l v).filter (fun x => decide (x.1 = v.1))).length
      = max 1 (l.filter (fun x => decide (x.1 = v.1))).length := by
  have hm : ∀ l : List (α × β), ((l.map (fun x => if x.1 = v.1 then v else x)).filter
      (fun x => decide (x.1 = v.1))).length = (l.filter (fun x => decide (x.1 = v.1))).length := by
    intro l
    induction l with
    | nil => rfl
    | cons x xs ih => by_cases h : x.1 = v.1 <;> simpa [h] using ih
  rw [C17_result]
  split
  · rename_i h
    obtain ⟨x, hx, e⟩ := h
    rw [hm]
    have : 0 < (l.filter (fun x => decide (x.1 = v.1))).length :=
      List.length_pos_of_mem (List.mem_filter.2 ⟨hx, by simpa using e⟩)
    omega
  · rename_i h
    have : l.filter (fun x => decide (x.1 = v.1)) = [] := by
      rw [List.filter_eq_nil_iff]; intro y hy e; exact h ⟨y, hy, by simpa using e⟩
    simp [this]

/-- **C17** (idempotence). Replacing twice equals replacing once. -/
theorem C17_idempotent (l : List (α × β)) (v : α × β) :
    nv_tuple_list_replace (nv_tuple_list_replace l v) v = nv_tuple_list_replace l v := by
  have hpres : ∃ x ∈ nv_tuple_list_replace l v, x.1 = v.1 := ⟨v, (C17_effect l v).1, rfl⟩
  rw [C17_result (nv_tuple_list_replace l v) v, if_pos hpres]
  conv => rhs; rw [← List.map_id (nv_tuple_list_replace l v)]
  apply List.map_congr_left
  intro x hx
  by_cases h : x.1 = v.1
  · simp [(C17_effect l v).2 x hx h]
  · simp [h]

/-! Non-vacuity: a name occurring twice, and a new name. -/
example : nv_tuple_list_replace [(1, 'a'), (2, 'b'), (1, 'c')] (1, 'z') = [(1, 'z'), (2, 'b'), (1, 'z')] := by
  decide
example : nv_tuple_list_replace [(1, 'a'), (2, 'b')] (3, 'z') = [(1, 'a'), (2, 'b'), (3, 'z')] := by
  decide

end Props.C17
