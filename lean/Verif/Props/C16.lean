import Verif.Model.CIDict
import Verif.Proofs.Dict
/-!
# C16: header dictionaries are case-insensitive maps

Spec side: a history of assignments and deletions, and `live`, the assignment in force for a
name according to the history. Two names are spellings of each other when their lower-case forms
agree; `lower` is an arbitrary function.
-/

namespace Props.C16
open Py Utils

variable {ν : Type}

/-- One operation on the dictionary. -/
inductive Op (ν : Type) where
  | set (key : Str) (value : ν)
  | del (key : Str)
  deriving Repr, DecidableEq

/-- The dictionary after a history; deleting an absent name raises `KeyError` and leaves the
dictionary as it was. -/
def apply (lower : Str → Str) (d : CIDict ν) : Op ν → CIDict ν
  | .set k v => CIDict.setitem lower d k v
  | .del k => match CIDict.delitem lower d k with
    | .ok d' => d'
    | .error _ => d

def after (lower : Str → Str) (h : List (Op ν)) : CIDict ν := h.foldl (apply lower) []

/-- The (spelling, value) in force for `key`, reading the history from the most recent operation
backwards: the first operation on some spelling of `key` decides. -/
def live (lower : Str → Str) (key : Str) : List (Op ν) → Option (Str × ν)
  | [] => none
  | .set k v :: earlier => if lower k = lower key then some (k, v) else live lower key earlier
  | .del k :: earlier => if lower k = lower key then none else live lower key earlier

theorem after_snoc (lower : Str → Str) (h : List (Op ν)) (o : Op ν) :
    after lower (h ++ [o]) = apply lower (after lower h) o := by simp [after]

theorem apply_get? (lower : Str → Str) (d : CIDict ν) (hd : Dict.WF d) (o : Op ν) (key : Str) :
    Dict.get? (apply lower d o) (lower key) =
      match o with
      | .set k v => if lower k = lower key then some (k, v) else Dict.get? d (lower key)
      | .del k => if lower k = lower key then none else Dict.get? d (lower key) := by
  cases o with
  | set k v =>
    simp only [apply, CIDict.setitem, Dict.get?_set]
    by_cases h : lower k = lower key
    · simp [h]
    · have h' : ¬ lower key = lower k := fun e => h e.symm
      simp [h, h']
  | del k =>
    simp only [apply, CIDict.delitem]
    by_cases hh : Dict.has d (lower k) = true
    · simp only [hh, if_true, Dict.get?_del hd]
      by_cases h : lower k = lower key
      · simp [h]
      · have h' : ¬ lower key = lower k := fun e => h e.symm
        simp [h, h']
    · simp only [hh, Bool.false_eq_true, if_false]
      by_cases h : lower k = lower key
      · simp only [h, if_true]
        rw [← h]
        rw [Dict.get?_eq_none_iff]
        intro e; exact hh ((Dict.has_iff _ _).2 e)
      · simp [h]

theorem apply_wf (lower : Str → Str) (d : CIDict ν) (hd : Dict.WF d) (o : Op ν) :
    Dict.WF (apply lower d o) := by
  cases o with
  | set k v => exact Dict.WF_set hd _ _
  | del k =>
    simp only [apply, CIDict.delitem]
    by_cases hh : Dict.has d (lower k) = true
    · simp only [hh, if_true]; exact Dict.WF_del hd _
    · simpa [hh] using hd

theorem snoc_induction {α : Type} {P : List α → Prop} (h0 : P [])
    (h1 : ∀ l a, P l → P (l ++ [a])) (l : List α) : P l := by
  have : ∀ m : List α, P m.reverse := by
    intro m
    induction m with
    | nil => exact h0
    | cons a m ih => rw [List.reverse_cons]; exact h1 _ _ ih
  have := this l.reverse
  rwa [List.reverse_reverse] at this

theorem after_wf (lower : Str → Str) (h : List (Op ν)) : Dict.WF (after lower h) :=
  snoc_induction (P := fun h => Dict.WF (after lower h)) Dict.WF_nil (fun l o ih => by rw [after_snoc]; exact apply_wf lower _ ih o) h

theorem after_get? (lower : Str → Str) (h : List (Op ν)) (key : Str) :
    Dict.get? (after lower h) (lower key) = live lower key h.reverse := by
  refine snoc_induction (P := fun h => Dict.get? (after lower h) (lower key)
    = live lower key h.reverse) rfl ?_ h
  intro l o ih
  rw [after_snoc, apply_get? lower _ (after_wf lower l), ih, List.reverse_append]
  cases o <;> rfl

/-- every stored lower-case name is the lower-case form of the spelling stored with it -/
theorem after_store (lower : Str → Str) (h : List (Op ν)) :
    ∀ e ∈ after lower h, e.1 = lower e.2.1 := by
  refine snoc_induction (P := fun h => ∀ e ∈ after lower h, e.1 = lower e.2.1)
    (by simp [after]) ?_ h
  intro l o ih e he
  rw [after_snoc] at he
  have hwf := apply_wf lower _ (after_wf lower l) o
  obtain ⟨k, s, v⟩ := e
  have hg := Dict.get?_of_mem hwf he
  cases o with
  | set k' v' =>
    simp only [apply, CIDict.setitem, Dict.get?_set] at hg
    by_cases hk : k = lower k'
    · simp only [hk, if_true, Option.some.injEq, Prod.mk.injEq] at hg
      simp [hk, hg.1]
    · simp only [hk, if_false] at hg
      exact ih _ (Dict.mem_of_get? hg)
  | del k' =>
    simp only [apply, CIDict.delitem] at hg
    by_cases hh : Dict.has (after lower l) (lower k') = true
    · simp only [hh, if_true, Dict.get?_del (after_wf lower l)] at hg
      by_cases hk : k = lower k'
      · simp [hk] at hg
      · simp only [hk, if_false] at hg
        exact ih _ (Dict.mem_of_get? hg)
    · simp only [hh, Bool.false_eq_true, if_false] at hg
      exact ih _ (Dict.mem_of_get? hg)

/-- **C16** (reading). After any history, reading a name gives the value of the last assignment
to any spelling of it that was not deleted since, and raises `KeyError` if there is none. -/
theorem C16_read (lower : Str → Str) (h : List (Op ν)) (key : Str) :
    CIDict.getitem lower (after lower h) key =
      match live lower key h.reverse with
      | some (_, v) => .ok v
      | none => .error .KeyError := by
  simp only [CIDict.getitem, after_get?]
  cases live lower key h.reverse with
  | none => rfl
  | some p => rfl

/-- **C16** (membership). `key in d` is true exactly for the names in force. -/
theorem C16_contains (lower : Str → Str) (h : List (Op ν)) (key : Str) :
    CIDict.contains lower (after lower h) key = (live lower key h.reverse).isSome := by
  simp only [CIDict.contains, C16_read]
  cases live lower key h.reverse with
  | none => rfl
  | some p => rfl

/-- **C16** (deletion). Deleting a name raises `KeyError` exactly if it is not in force. -/
theorem C16_delete (lower : Str → Str) (h : List (Op ν)) (key : Str) :
    CIDict.delitem lower (after lower h) key = .error .KeyError ↔
      live lower key h.reverse = none := by
  simp only [CIDict.delitem, Dict.has, after_get?]
  cases live lower key h.reverse with
  | none => simp
  | some p => simp

/-- **C16** (iteration). Iteration yields each name in force exactly once (no two entries are
spellings of the same name), in the spelling last assigned, with the value in force. -/
theorem C16_iterate (lower : Str → Str) (h : List (Op ν)) :
    ((CIDict.iter (after lower h)).map lower).Nodup ∧
    (∀ s v, (s, v) ∈ CIDict.iteritems (after lower h) ↔ live lower s h.reverse = some (s, v)) ∧
    CIDict.iter (after lower h) = (CIDict.iteritems (after lower h)).map Prod.fst := by
  refine ⟨?_, ?_, ?_⟩
  · have hw := after_wf lower h
    have : (CIDict.iter (after lower h)).map lower = (after lower h).keys := by
      simp only [CIDict.iter, Dict.keys, List.map_map]
      apply List.map_congr_left
      intro e he
      exact (after_store lower h e he).symm
    rw [this]; exact hw
  · intro s v
    rw [← after_get?]
    constructor
    · intro hm
      obtain ⟨e, he, hev⟩ := List.mem_map.1 hm
      obtain ⟨k, s', v'⟩ := e
      simp only [Prod.mk.injEq] at hev
      obtain ⟨rfl, rfl⟩ := hev
      have := after_store lower h _ he
      simp only at this
      subst this
      exact Dict.get?_of_mem (after_wf lower h) he
    · intro hg
      exact List.mem_map.2 ⟨_, Dict.mem_of_get? hg, rfl⟩
  · simp [CIDict.iter, CIDict.iteritems, List.map_map, Function.comp_def]

/-- **C16** (size). The size is the number of names in force, counted up to spelling: it is the
length of every duplicate-free list of lower-case names in force. -/
theorem C16_size (lower : Str → Str) (h : List (Op ν)) :
    CIDict.len (after lower h) = (CIDict.iter (after lower h)).length ∧
    (∀ key, (live lower key h.reverse).isSome ↔
      lower key ∈ (CIDict.iter (after lower h)).map lower) := by
  refine ⟨by simp [CIDict.len, CIDict.iter], ?_⟩
  intro key
  rw [← after_get?, Dict.get?_isSome_iff]
  have : (CIDict.iter (after lower h)).map lower = (after lower h).keys := by
    simp only [CIDict.iter, Dict.keys, List.map_map]
    apply List.map_congr_left
    intro e he
    exact (after_store lower h e he).symm
  rw [this]

/-- **C16** (order). Assigning to a name in force keeps the order of the names, assigning a new
name adds it at the end, deleting a name keeps the order of the others. -/
theorem C16_order (lower : Str → Str) (h : List (Op ν)) (key : Str) (v : ν) :
    (CIDict.iter (after lower (h ++ [.set key v]))).map lower =
      (if lower key ∈ (CIDict.iter (after lower h)).map lower
        then (CIDict.iter (after lower h)).map lower
        else (CIDict.iter (after lower h)).map lower ++ [lower key]) ∧
    (CIDict.iter (after lower (h ++ [.del key]))).map lower =
      ((CIDict.iter (after lower h)).map lower).filter (fun x => decide (x ≠ lower key)) := by
  have hk : ∀ h : List (Op ν), (CIDict.iter (after lower h)).map lower = (after lower h).keys := by
    intro h
    simp only [CIDict.iter, Dict.keys, List.map_map]
    apply List.map_congr_left
    intro e he
    exact (after_store lower h e he).symm
  constructor
  · rw [hk, hk, after_snoc]
    simp only [apply, CIDict.setitem]
    by_cases hm : lower key ∈ (after lower h).keys
    · rw [if_pos hm, Dict.keys_set_of_mem _ hm]
    · rw [if_neg hm, Dict.keys_set_of_not_mem _ hm]
  · rw [hk, hk, after_snoc]
    simp only [apply, CIDict.delitem]
    by_cases hh : Dict.has (after lower h) (lower key) = true
    · simp only [hh, if_true, Dict.keys_del (after_wf lower h)]
    · simp only [hh, Bool.false_eq_true, if_false]
      symm
      rw [List.filter_eq_self]
      intro a ha
      simp only [decide_eq_true_eq]
      rintro rfl
      exact hh ((Dict.has_iff _ _).2 ha)

/-! Non-vacuity: two spellings of one header, another header, a deletion. -/
def hist : List (Op Nat) := [.set c!"Content-Type" 1, .set c!"X" 2, .set c!"content-type" 3]
example : CIDict.getitem (List.map Char.toLower) (after (List.map Char.toLower) hist) c!"CONTENT-TYPE"
    = .ok 3 := by decide
example : CIDict.iter (after (List.map Char.toLower) hist) = [c!"content-type", c!"X"] := by decide
example : live (List.map Char.toLower) c!"x" (hist ++ [Op.del c!"x"]).reverse = none := by decide

end Props.C16
