import Verif.Py.Dict
/-! # Lemmas about dictionaries -/

namespace Py.Dict
variable {κ ν : Type} [DecidableEq κ]

@[simp] theorem get?_nil (k : κ) : get? ([] : Dict κ ν) k = none := rfl

theorem get?_set_self (d : Dict κ ν) (k : κ) (v : ν) : get? (set d k v) k = some v := by
  induction d with
  | nil => simp [set, get?]
  | cons p d ih =>
    obtain ⟨k', v'⟩ := p
    by_cases h : k' = k <;> simp [set, get?, h, ih]

theorem get?_set_ne (d : Dict κ ν) {k k2 : κ} (v : ν) (h : k2 ≠ k) :
    get? (set d k v) k2 = get? d k2 := by
  induction d with
  | nil => simp [set, get?, h.symm]
  | cons p d ih =>
    obtain ⟨k', v'⟩ := p
    by_cases h1 : k' = k
    · subst h1; simp [set, get?, h.symm]
    · simp [set, get?, h1, ih]

theorem get?_set (d : Dict κ ν) (k k2 : κ) (v : ν) :
    get? (set d k v) k2 = if k2 = k then some v else get? d k2 := by
  by_cases h : k2 = k
  · subst h; simp [get?_set_self]
  · simp [get?_set_ne _ _ h, h]

theorem get?_eq_none_iff (d : Dict κ ν) (k : κ) : get? d k = none ↔ k ∉ d.keys := by
  induction d with
  | nil => simp [keys]
  | cons p d ih =>
    obtain ⟨k', v'⟩ := p
    by_cases h : k' = k
    · subst h; simp [get?, keys]
    · have h' : k ≠ k' := fun e => h e.symm
      simp only [get?, h, if_false, ih, keys, List.map_cons, List.mem_cons, h', false_or]

theorem get?_isSome_iff (d : Dict κ ν) (k : κ) : (get? d k).isSome ↔ k ∈ d.keys := by
  have h := get?_eq_none_iff d k
  cases hg : get? d k with
  | none => simp [h.1 hg]
  | some v =>
    simp only [Option.isSome_some, true_iff]
    exact Classical.byContradiction fun hn => by rw [h.2 hn] at hg; cases hg

theorem has_iff (d : Dict κ ν) (k : κ) : has d k = true ↔ k ∈ d.keys := get?_isSome_iff d k

theorem mem_of_get? {d : Dict κ ν} {k : κ} {v : ν} (h : get? d k = some v) : (k, v) ∈ d := by
  induction d with
  | nil => simp at h
  | cons p d ih =>
    obtain ⟨k', v'⟩ := p
    by_cases hk : k' = k
    · subst hk; simp [get?] at h; simp [h]
    · simp [get?, hk] at h; simp [ih h]

theorem get?_of_mem {d : Dict κ ν} (hd : WF d) {k : κ} {v : ν} (h : (k, v) ∈ d) :
    get? d k = some v := by
  induction d with
  | nil => simp at h
  | cons p d ih =>
    obtain ⟨k', v'⟩ := p
    simp only [WF, keys, List.map_cons, List.nodup_cons] at hd
    rcases List.mem_cons.1 h with h | h
    · cases h; simp [get?]
    · have : k' ≠ k := by
        rintro rfl
        exact hd.1 (List.mem_map.2 ⟨_, h, rfl⟩)
      simp [get?, this, ih hd.2 h]

theorem get?_iff_mem {d : Dict κ ν} (hd : WF d) {k : κ} {v : ν} :
    get? d k = some v ↔ (k, v) ∈ d := ⟨mem_of_get?, get?_of_mem hd⟩

/-- Lookup does not depend on the order of the entries. -/
theorem get?_perm {d e : Dict κ ν} (hd : WF d) (h : d.Perm e) (k : κ) : get? d k = get? e k := by
  have he : WF e := (h.map Prod.fst).nodup_iff.1 hd
  apply Option.ext
  intro v
  rw [get?_iff_mem hd, get?_iff_mem he, h.mem_iff]

theorem keys_set_of_mem {d : Dict κ ν} {k : κ} (v : ν) (h : k ∈ d.keys) :
    (set d k v).keys = d.keys := by
  induction d with
  | nil => simp [keys] at h
  | cons p d ih =>
    obtain ⟨k', v'⟩ := p
    by_cases hk : k' = k
    · simp [set, keys, hk]
    · have : k ∈ keys d := by
        simp only [keys, List.map_cons, List.mem_cons] at h
        rcases h with h | h
        · exact absurd h.symm hk
        · exact h
      have := ih this
      simp only [keys] at this
      simp [set, keys, hk, this]

theorem set_of_not_mem {d : Dict κ ν} {k : κ} (v : ν) (h : k ∉ d.keys) :
    set d k v = d ++ [(k, v)] := by
  induction d with
  | nil => rfl
  | cons p d ih =>
    obtain ⟨k', v'⟩ := p
    simp only [keys, List.map_cons, List.mem_cons, not_or] at h
    have hk : k' ≠ k := fun e => h.1 e.symm
    simp [set, hk, ih h.2]

theorem keys_set_of_not_mem {d : Dict κ ν} {k : κ} (v : ν) (h : k ∉ d.keys) :
    (set d k v).keys = d.keys ++ [k] := by
  rw [set_of_not_mem v h]; simp [keys]

theorem mem_keys_set {d : Dict κ ν} {k k2 : κ} {v : ν} :
    k2 ∈ (set d k v).keys ↔ k2 = k ∨ k2 ∈ d.keys := by
  rw [← get?_isSome_iff, ← get?_isSome_iff, get?_set]
  by_cases h : k2 = k <;> simp [h]

omit [DecidableEq κ] in
theorem WF_nil : WF ([] : Dict κ ν) := by simp [WF, keys]

theorem WF_set {d : Dict κ ν} (hd : WF d) (k : κ) (v : ν) : WF (set d k v) := by
  by_cases h : k ∈ d.keys
  · simpa [WF, keys_set_of_mem v h] using hd
  · simp only [WF, keys_set_of_not_mem v h]
    rw [List.nodup_append]
    refine ⟨hd, by simp, ?_⟩
    intro a ha b hb
    simp at hb; subst hb
    rintro rfl; exact h ha

theorem keys_del {d : Dict κ ν} (hd : WF d) (k : κ) :
    (del d k).keys = d.keys.filter (fun x => decide (x ≠ k)) := by
  induction d with
  | nil => rfl
  | cons p d ih =>
    obtain ⟨k', v'⟩ := p
    simp only [WF, keys, List.map_cons, List.nodup_cons] at hd
    have ih := ih hd.2
    by_cases h : k' = k
    · subst h
      simp only [del, keys, List.map_cons, if_true]
      simp only [ne_eq, List.filter_cons, not_true_eq_false, decide_false]
      rw [List.filter_eq_self.2]
      · rfl
      · intro a ha
        simp only [decide_not, Bool.not_eq_eq_eq_not, Bool.not_true, decide_eq_false_iff_not]
        rintro rfl; exact hd.1 ha
    · simp only [keys] at ih ⊢
      simp [del, h, ih]

theorem WF_del {d : Dict κ ν} (hd : WF d) (k : κ) : WF (del d k) := by
  simp only [WF, keys_del hd]
  exact List.Pairwise.filter _ hd

theorem get?_del {d : Dict κ ν} (hd : WF d) (k k2 : κ) :
    get? (del d k) k2 = if k2 = k then none else get? d k2 := by
  induction d with
  | nil => simp [del]
  | cons p d ih =>
    obtain ⟨k', v'⟩ := p
    have hd' : WF ((k', v') :: d) := hd
    simp only [WF, keys, List.map_cons, List.nodup_cons] at hd
    have ih := ih hd.2
    by_cases h : k' = k
    · subst h
      by_cases h2 : k2 = k'
      · subst h2
        simp only [del, if_true]
        exact (get?_eq_none_iff _ _).2 hd.1
      · have h2' : k' ≠ k2 := fun e => h2 e.symm
        simp [del, get?, h2, h2']
    · by_cases h2 : k' = k2
      · subst h2; simp [del, h, get?]
      · simp [del, h, get?, h2, ih]

theorem get?_append (d e : Dict κ ν) (k : κ) :
    get? (d ++ e) k = (get? d k).or (get? e k) := by
  induction d with
  | nil => simp
  | cons p d ih =>
    obtain ⟨k', v'⟩ := p
    by_cases h : k' = k <;> simp [get?, h, ih]

theorem WF_update {d : Dict κ ν} (hd : WF d) (e : Dict κ ν) : WF (update d e) := by
  unfold update
  induction e generalizing d with
  | nil => exact hd
  | cons p e ih => exact ih (WF_set hd _ _)

theorem get?_update {d e : Dict κ ν} (he : WF e) (k : κ) :
    get? (update d e) k = (get? e k).or (get? d k) := by
  unfold update
  induction e generalizing d with
  | nil => simp
  | cons p e ih =>
    obtain ⟨k', v'⟩ := p
    simp only [WF, keys, List.map_cons, List.nodup_cons] at he
    simp only [List.foldl_cons]
    rw [ih he.2, get?_set]
    by_cases h : k' = k
    · subst h
      have : get? e k' = none := (get?_eq_none_iff _ _).2 he.1
      simp [get?, this]
    · have h' : k ≠ k' := fun e => h e.symm
      simp [get?, h, h']

end Py.Dict
