import Verif.Py.Basic
/-! # Lemmas about the string substrate -/

namespace Py

theorem splitChar_ne_nil (c : Char) (s : Str) : splitChar c s ≠ [] := by
  cases s with
  | nil => simp [splitChar]
  | cons x xs =>
    simp only [splitChar]; split
    · simp
    · cases splitChar c xs <;> simp [consHead]

/-- Splitting text without the separator yields the text. -/
theorem splitChar_of_not_mem {c : Char} {s : Str} (h : c ∉ s) : splitChar c s = [s] := by
  induction s with
  | nil => rfl
  | cons x xs ih =>
    have hx : x ≠ c := fun e => h (by simp [e])
    have hxs : c ∉ xs := fun e => h (by simp [e])
    simp [splitChar, hx, ih hxs, consHead]

theorem splitChar_append_sep {c : Char} {s t : Str} :
    splitChar c (s ++ c :: t) = splitChar c s ++ splitChar c t := by
  induction s with
  | nil => simp [splitChar]
  | cons x xs ih =>
    by_cases hx : x = c
    · simp [splitChar, hx, ih]
    · simp only [List.cons_append, splitChar, hx, if_false, ih]
      cases h : splitChar c xs with
      | nil => exact absurd h (splitChar_ne_nil c xs)
      | cons p ps => simp [consHead]

theorem join_cons (sep x : Str) (l : List Str) (h : l ≠ []) :
    join sep (x :: l) = x ++ sep ++ join sep l := by
  cases l with
  | nil => exact absurd rfl h
  | cons y ys => rfl

/-- Splitting a join of pieces free of the separator gives the pieces back. -/
theorem splitChar_join {c : Char} {l : List Str} (hl : l ≠ []) (h : ∀ x ∈ l, c ∉ x) :
    splitChar c (join [c] l) = l := by
  induction l with
  | nil => exact absurd rfl hl
  | cons x xs ih =>
    have hx := h x (by simp)
    by_cases hxs : xs = []
    · subst hxs; simpa [join] using splitChar_of_not_mem hx
    · rw [join_cons _ _ _ hxs]
      have : x ++ [c] ++ join [c] xs = x ++ c :: join [c] xs := by simp
      rw [this, splitChar_append_sep, splitChar_of_not_mem hx,
        ih hxs (fun y hy => h y (by simp [hy]))]
      rfl

/-- Joining the pieces of a split restores the text. -/
theorem join_splitChar (c : Char) (s : Str) : join [c] (splitChar c s) = s := by
  induction s with
  | nil => rfl
  | cons x xs ih =>
    simp only [splitChar]
    split
    · rename_i hx; rw [join_cons _ _ _ (splitChar_ne_nil c xs), ih]; simp [hx]
    · cases h : splitChar c xs with
      | nil => exact absurd h (splitChar_ne_nil c xs)
      | cons p ps =>
        rw [h] at ih
        simp only [consHead]
        cases ps with
        | nil => simpa [join] using ih
        | cons q qs => simp only [join] at ih ⊢; simp [← ih]

/-- No piece of a split contains the separator. -/
theorem not_mem_of_mem_splitChar {c : Char} {s p : Str} (h : p ∈ splitChar c s) : c ∉ p := by
  induction s generalizing p with
  | nil => simp [splitChar] at h; simp [h]
  | cons x xs ih =>
    simp only [splitChar] at h
    split at h
    · rcases List.mem_cons.1 h with rfl | h
      · simp
      · exact ih h
    · rename_i hx
      cases hs : splitChar c xs with
      | nil => exact absurd hs (splitChar_ne_nil c xs)
      | cons q qs =>
        rw [hs] at h ih
        simp only [consHead] at h
        rcases List.mem_cons.1 h with rfl | h
        · have := ih (p := q) (by simp)
          simp only [List.mem_cons, not_or]
          exact ⟨fun e => hx e.symm, this⟩
        · exact ih (by simp [h])

/-! ### `startsWith` / `endsWith` -/

theorem startsWith_iff (s p : Str) : startsWith s p = true ↔ p <+: s := by
  simp [startsWith, List.isPrefixOf_iff_prefix]

theorem endsWith_iff (s p : Str) : endsWith s p = true ↔ p <:+ s := by
  simp [endsWith, List.isSuffixOf_iff_suffix]

/-! ### replace by a one-character pattern -/

theorem replaceGo_single (o : Char) (new s : Str) :
    replaceGo [o] new 0 s = s.flatMap (fun x => if x = o then new else [x]) := by
  induction s with
  | nil => rfl
  | cons x xs ih =>
    by_cases h : x = o
    · subst h; simp [replaceGo, ih]
    · have h' : o ≠ x := fun e => h e.symm
      simp [replaceGo, List.isPrefixOf, h, h', ih]

theorem replace_single (o : Char) (new s : Str) :
    replace s [o] new = s.flatMap (fun x => if x = o then new else [x]) := replaceGo_single o new s

/-! ### general split -/

theorem splitGo_ne_nil (sep : Str) (n : Nat) (s : Str) : splitGo sep n s ≠ [] := by
  induction s generalizing n with
  | nil => cases n <;> simp [splitGo]
  | cons x xs ih =>
    cases n with
    | succ n => simpa [splitGo] using ih n
    | zero =>
      simp only [splitGo]; split
      · simp
      · cases h : splitGo sep 0 xs <;> simp [consHead]

theorem splitGo_skip (sep : Str) (a b : Str) : splitGo sep a.length (a ++ b) = splitGo sep 0 b := by
  induction a with
  | nil => rfl
  | cons x xs ih => simpa [splitGo] using ih

/-- No occurrence of `sep` starting inside `s`: the split is the whole text. -/
theorem split_of_no_occ {sep s : Str} (h : ∀ i < s.length, ¬ sep <+: s.drop i) :
    split sep s = [s] := by
  induction s with
  | nil => rfl
  | cons x xs ih =>
    have h0 : ¬ sep <+: x :: xs := by simpa using h 0 (by simp)
    have h1 : ∀ i < xs.length, ¬ sep <+: xs.drop i := fun i hi => by
      simpa using h (i+1) (by simpa using hi)
    have ih := ih h1
    simp only [split] at ih
    have hb : sep.isPrefixOf (x :: xs) = false := by
      rw [Bool.eq_false_iff]; intro e; exact h0 (List.isPrefixOf_iff_prefix.1 e)
    simp [split, splitGo, hb, ih, consHead]

/-- The first occurrence of `sep` in `a ++ sep ++ b` is at `|a|`: the first piece is `a`. -/
theorem split_append_sep {sep a b : Str} (hs : sep ≠ [])
    (h : ∀ i < a.length, ¬ sep <+: (a ++ sep).drop i) :
    split sep (a ++ sep ++ b) = a :: split sep b := by
  induction a with
  | nil =>
    cases sep with
    | nil => exact absurd rfl hs
    | cons c cs =>
      have hp : (c :: cs).isPrefixOf (c :: (cs ++ b)) = true :=
        List.isPrefixOf_iff_prefix.2 ⟨b, rfl⟩
      simp only [split, List.nil_append, List.cons_append, splitGo, hp, if_true,
        List.length_cons, Nat.add_sub_cancel, splitGo_skip]
  | cons x xs ih =>
    have h0 : ¬ sep <+: x :: (xs ++ sep) := by simpa using h 0 (by simp)
    have h1 : ∀ i < xs.length, ¬ sep <+: (xs ++ sep).drop i := fun i hi => by
      simpa using h (i+1) (by simpa using hi)
    have ih := ih h1
    have hb : sep.isPrefixOf (x :: (xs ++ sep ++ b)) = false := by
      rw [Bool.eq_false_iff]; intro e
      have e := List.isPrefixOf_iff_prefix.1 e
      apply h0
      have : sep <+: (x :: (xs ++ sep)) ++ b := by simpa using e
      exact List.prefix_of_prefix_length_le this (List.prefix_append _ _) (by simp; omega)
    simp only [split] at ih
    simp only [split, List.cons_append, splitGo, hb, ih, consHead]
    simp

theorem join_splitGo {sep : Str} (hs : sep ≠ []) (s : Str) :
    join sep (splitGo sep 0 s) = s ∧ True := by
  suffices H : ∀ n s, s.length ≤ n → join sep (splitGo sep 0 s) = s from ⟨H _ s (Nat.le_refl _), trivial⟩
  intro n
  induction n with
  | zero => intro s h; cases s with
    | nil => rfl
    | cons => simp at h
  | succ n ih =>
    intro s hlen
    cases s with
    | nil => rfl
    | cons x xs =>
      simp only [splitGo]
      split
      · rename_i hp
        obtain ⟨t, ht⟩ := List.isPrefixOf_iff_prefix.1 hp
        cases sep with
        | nil => exact absurd rfl hs
        | cons c cs =>
          simp only [List.cons_append, List.cons.injEq] at ht
          obtain ⟨rfl, rfl⟩ := ht
          simp only [List.length_cons, Nat.add_sub_cancel, splitGo_skip]
          rw [join_cons _ _ _ (splitGo_ne_nil _ _ _), ih t (by simp at hlen; omega)]
          simp
      · have := ih xs (by simpa using hlen)
        cases h : splitGo sep 0 xs with
        | nil => exact absurd h (splitGo_ne_nil _ _ _)
        | cons p ps =>
          rw [h] at this
          simp only [consHead]
          cases ps with
          | nil => simpa [join] using this
          | cons q qs => simp only [join] at this ⊢; simp [← this]

/-- Joining the pieces of a split restores the text. -/
theorem join_split {sep : Str} (hs : sep ≠ []) (s : Str) : join sep (split sep s) = s :=
  (join_splitGo hs s).1

/-! ### rsplit -/

theorem afterLast?_none_iff {sep s : Str} (hs : sep ≠ []) :
    afterLast? sep s = none ↔ ¬ sep <:+: s := by
  induction s with
  | nil => simp [afterLast?, hs]
  | cons x xs ih =>
    simp only [afterLast?]
    cases h : afterLast? sep xs with
    | some r =>
      have : sep <:+: xs := by
        apply Classical.byContradiction; intro hn; rw [ih.2 hn] at h; cases h
      simp only [reduceCtorEq, false_iff, Classical.not_not]
      exact this.trans (List.suffix_cons x xs).isInfix
    | none =>
      have hn := ih.1 h
      by_cases hp : sep.isPrefixOf (x :: xs) = true
      · simp only [hp, if_true, reduceCtorEq, false_iff, Classical.not_not]
        exact (List.isPrefixOf_iff_prefix.1 hp).isInfix
      · simp only [hp, Bool.false_eq_true, if_false, true_iff]
        rw [List.infix_cons_iff]
        rintro (h' | h')
        · exact hp (List.isPrefixOf_iff_prefix.2 h')
        · exact hn h'

theorem afterLast?_append {sep t s : Str} (hs : sep ≠ [])
    (ht : ∀ i, 0 < i → ¬ sep <+: (sep ++ t).drop i) :
    afterLast? sep (s ++ (sep ++ t)) = some t := by
  have base : afterLast? sep (sep ++ t) = some t := by
    cases sep with
    | nil => exact absurd rfl hs
    | cons c cs =>
      have hnone : afterLast? (c :: cs) (cs ++ t) = none := by
        rw [afterLast?_none_iff hs]
        rintro ⟨u, v, huv⟩
        apply ht (u.length + 1) (by omega)
        simp only [List.cons_append, List.drop_succ_cons]
        rw [← huv]
        simp
      simp only [List.cons_append, afterLast?, hnone]
      have : (c :: cs).isPrefixOf (c :: (cs ++ t)) = true :=
        List.isPrefixOf_iff_prefix.2 ⟨t, rfl⟩
      simp [this]
  induction s with
  | nil => exact base
  | cons x xs ih => simp only [List.cons_append, afterLast?, ih]

theorem rsplitLast_of_not_infix {sep s : Str} (hs : sep ≠ []) (h : ¬ sep <:+: s) :
    rsplitLast sep s = s := by
  simp [rsplitLast, (afterLast?_none_iff hs).2 h]

end Py
