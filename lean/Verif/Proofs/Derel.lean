import Verif.Model.Url
import Verif.Proofs.Url
import Verif.Proofs.Str
import Verif.Spec.DotSegments
/-! # Lemmas about `derelativise_url` -/

namespace Utils
open Py Spec.Dots

theorem fullmatchDots_iff (s : Str) : fullmatchDots s = true ↔ 3 ≤ s.length ∧ ∀ c ∈ s, c = '.' := by
  simp [fullmatchDots]

theorem isDots_cases {s : Str} (h : IsDots s) : s = c!"." ∨ IsUp s := by
  obtain ⟨h1, h2⟩ := h
  match s, h1, h2 with
  | [a], _, h2 => left; rw [h2 a (by simp)]
  | a :: b :: t, _, h2 => right; exact ⟨by simp, h2⟩

theorem isUp_isDots {s : Str} (h : IsUp s) : IsDots s :=
  ⟨by rintro rfl; simp [IsUp] at h, h.2⟩

theorem isUp_cases {s : Str} : IsUp s ↔ s = c!".." ∨ fullmatchDots s = true := by
  rw [fullmatchDots_iff]
  constructor
  · rintro ⟨h1, h2⟩
    match s, h1, h2 with
    | [a, b], _, h2 => left; rw [h2 a (by simp), h2 b (by simp)]
    | a :: b :: c :: t, _, h2 => right; exact ⟨by simp, h2⟩
  · rintro (rfl | ⟨h1, h2⟩)
    · simp [IsUp]
    · exact ⟨by omega, h2⟩

theorem dot_not_up : ¬ IsUp c!"." := by simp [IsUp]

/-- the loop body, by cases -/
theorem derelStep_dot (st : List Str) : derelStep st c!"." = st := by simp [derelStep]

theorem derelStep_up (st : List Str) {d : Str} (h : IsUp d) : derelStep st d = st.dropLast := by
  have hne : d ≠ c!"." := by rintro rfl; exact dot_not_up h
  rcases isUp_cases.1 h with h | h
  · subst h; simp [derelStep]
  · simp [derelStep, hne, h]

theorem derelStep_ord (st : List Str) {x : Str} (h : ¬ IsDots x) : derelStep st x = st ++ [x] := by
  have h1 : x ≠ c!"." := by rintro rfl; exact h (by simp [IsDots])
  have h2 : x ≠ c!".." := by rintro rfl; exact h (by simp [IsDots])
  have h3 : ¬ fullmatchDots x = true := fun hh => h (isUp_isDots (isUp_cases.2 (Or.inr hh)))
  simp [derelStep, h1, h2, h3]

theorem foldl_derel_mem (l : List Str) (st : List Str) (hst : ∀ s ∈ st, ¬ IsDots s) :
    ∀ s ∈ l.foldl derelStep st, ¬ IsDots s := by
  induction l generalizing st with
  | nil => simpa using hst
  | cons x l ih =>
    simp only [List.foldl_cons]
    apply ih
    by_cases hx : IsDots x
    · rcases isDots_cases hx with rfl | h
      · rw [derelStep_dot]; exact hst
      · rw [derelStep_up st h]; exact fun s hs => hst s (List.dropLast_subset _ hs)
    · rw [derelStep_ord st hx]
      intro s hs
      simp only [List.mem_append, List.mem_singleton] at hs
      rcases hs with h | rfl
      · exact hst s h
      · exact hx

theorem foldl_derel_id (l : List Str) (st : List Str) (hl : ∀ s ∈ l, ¬ IsDots s) :
    l.foldl derelStep st = st ++ l := by
  induction l generalizing st with
  | nil => simp
  | cons x l ih =>
    simp only [List.foldl_cons]
    rw [derelStep_ord st (hl x (by simp)), ih _ (fun s hs => hl s (by simp [hs]))]
    simp

theorem Steps.trans {l m n : List Str} (h1 : Steps l m) (h2 : Steps m n) : Steps l n := by
  induction h2 with
  | refl => exact h1
  | tail _ hs ih => exact Steps.tail ih hs

theorem steps_foldl (l st : List Str) (hst : ∀ s ∈ st, ¬ IsDots s) :
    Steps (st ++ l) (l.foldl derelStep st) := by
  induction l generalizing st with
  | nil => simpa using Steps.refl st
  | cons x l ih =>
    simp only [List.foldl_cons]
    by_cases hx : IsDots x
    · rcases isDots_cases hx with rfl | h
      · rw [derelStep_dot]
        exact Steps.trans (Steps.tail (Steps.refl _) (Step.here st l)) (ih st hst)
      · rw [derelStep_up st h]
        refine Steps.trans (Steps.tail (Steps.refl _) ?_)
          (ih st.dropLast (fun s hs => hst s (List.dropLast_subset _ hs)))
        rcases List.eq_nil_or_concat st with rfl | ⟨a, y, rfl⟩
        · exact Step.root x l h
        · have := Step.up a y x l (hst y (by simp)) h
          simpa using this
    · rw [derelStep_ord st hx]
      have := ih (st ++ [x]) (by
        intro s hs
        simp only [List.mem_append, List.mem_singleton] at hs
        rcases hs with h | rfl
        · exact hst s h
        · exact hx)
      simpa using this

theorem foldl_step_invariant {l m : List Str} (h : Step l m) :
    l.foldl derelStep [] = m.foldl derelStep [] := by
  cases h with
  | here a b => simp [List.foldl_append, derelStep_dot]
  | up a x d b hx hd =>
    simp [List.foldl_append, derelStep_ord _ hx, derelStep_up _ hd]
  | root d b hd => simp [derelStep_up _ hd]

theorem foldl_steps_invariant {l m : List Str} (h : Steps l m) :
    l.foldl derelStep [] = m.foldl derelStep [] := by
  induction h with
  | refl => rfl
  | tail _ hs ih => rw [ih, foldl_step_invariant hs]

/-- The loop computes the simplified form, which is unique. -/
theorem simplified_iff (l r : List Str) : Simplified l r ↔ r = l.foldl derelStep [] := by
  constructor
  · rintro ⟨h1, h2⟩
    rw [foldl_steps_invariant h1, foldl_derel_id r [] h2]; simp
  · rintro rfl
    exact ⟨by simpa using steps_foldl l [] (by simp), foldl_derel_mem l [] (by simp)⟩

theorem foldl_derel_subset (l st : List Str) : ∀ s ∈ l.foldl derelStep st, s ∈ st ∨ s ∈ l := by
  induction l generalizing st with
  | nil => simp
  | cons x l ih =>
    intro s hs
    simp only [List.foldl_cons] at hs
    rcases ih _ s hs with h | h
    · by_cases hx : IsDots x
      · rcases isDots_cases hx with rfl | hu
        · rw [derelStep_dot] at h; exact Or.inl h
        · rw [derelStep_up st hu] at h; exact Or.inl (List.dropLast_subset _ h)
      · rw [derelStep_ord st hx] at h
        simp only [List.mem_append, List.mem_singleton] at h
        rcases h with h | h
        · exact Or.inl h
        · right; simp [h]
    · right; simp [h]

/-- if only the last chunk can be empty, an empty first segment of the result is its only one -/
theorem foldl_derel_head (l : List Str) (hl : ∀ s ∈ l.dropLast, s ≠ []) :
    ∀ x y t, l.foldl derelStep [] = x :: y :: t → x ≠ [] := by
  rcases List.eq_nil_or_concat l with rfl | ⟨a, z, rfl⟩
  · simp
  · simp only [List.concat_eq_append, List.dropLast_concat] at hl
    intro x y t h
    rw [List.concat_eq_append, List.foldl_append] at h
    have hsub := foldl_derel_subset a []
    simp only [List.not_mem_nil, false_or] at hsub
    generalize a.foldl derelStep [] = st at h hsub
    simp only [List.foldl_cons, List.foldl_nil] at h
    by_cases hz : IsDots z
    · rcases isDots_cases hz with rfl | hu
      · rw [derelStep_dot] at h
        exact hl x (hsub x (by rw [h]; simp))
      · rw [derelStep_up st hu] at h
        exact hl x (hsub x (List.dropLast_subset _ (by rw [h]; simp)))
    · rw [derelStep_ord st hz] at h
      cases st with
      | nil => simp at h
      | cons w st =>
        simp only [List.cons_append, List.cons.injEq] at h
        rw [← h.1]
        exact hl w (hsub w (by simp))

theorem mem_join_single {c : Char} {l : List Str} {x : Char} (h : x ∈ join [c] l) :
    x = c ∨ ∃ s ∈ l, x ∈ s := by
  induction l with
  | nil => simp [join] at h
  | cons a l ih =>
    by_cases hl : l = []
    · subst hl; simp [join] at h; exact Or.inr ⟨a, by simp, h⟩
    · rw [join_cons _ _ _ hl] at h
      simp only [List.mem_append, List.mem_singleton] at h
      rcases h with (h | h) | h
      · exact Or.inr ⟨a, by simp, h⟩
      · exact Or.inl h
      · rcases ih h with h | ⟨s, hs, hx⟩
        · exact Or.inl h
        · exact Or.inr ⟨s, by simp [hs], hx⟩

theorem mem_of_mem_splitChar {c : Char} {s p : Str} (h : p ∈ splitChar c s) : ∀ x ∈ p, x ∈ s := by
  induction s generalizing p with
  | nil => simp [splitChar] at h; simp [h]
  | cons y s ih =>
    unfold splitChar at h
    split at h
    · simp only [List.mem_cons] at h
      rcases h with rfl | h
      · simp
      · intro x hx; simp [ih h x hx]
    · cases hs : splitChar c s with
      | nil => exact absurd hs (splitChar_ne_nil c s)
      | cons q l =>
        rw [hs] at h
        simp only [consHead, List.mem_cons] at h
        rcases h with rfl | h
        · intro x hx
          simp only [List.mem_cons] at hx
          rcases hx with rfl | hx
          · simp
          · simp [ih (p := q) (by rw [hs]; simp) x hx]
        · intro x hx
          simp [ih (p := p) (by rw [hs]; simp [h]) x hx]

theorem splitChar_head_nil {c : Char} {s : Str} {l : List Str} (h : splitChar c s = [] :: l) :
    s = [] ∧ l = [] ∨ ∃ t, s = c :: t := by
  cases s with
  | nil => simp [splitChar] at h; exact Or.inl ⟨rfl, h⟩
  | cons y s =>
    right
    unfold splitChar at h
    split at h
    · rename_i hy; exact ⟨s, by rw [hy]⟩
    · cases hs : splitChar c s with
      | nil => exact absurd hs (splitChar_ne_nil c s)
      | cons q l' => rw [hs] at h; simp [consHead] at h

theorem splitChar_tail_dropLast {c : Char} {s : Str} (h : ¬ [c, c] <:+: s) :
    ∀ p ∈ (splitChar c s).tail.dropLast, p ≠ [] := by
  induction s with
  | nil => simp [splitChar]
  | cons y s ih =>
    have hs : ¬ [c, c] <:+: s := fun hh => h (hh.trans (List.suffix_cons y s).isInfix)
    unfold splitChar
    split
    · rename_i hy
      subst hy
      simp only [List.tail_cons]
      cases hsp : splitChar y s with
      | nil => simp
      | cons q l =>
        have ih' := ih hs
        rw [hsp] at ih'
        simp only [List.tail_cons] at ih'
        cases l with
        | nil => simp
        | cons z l =>
          simp only [List.dropLast_cons_cons, List.mem_cons]
          rintro p (rfl | hp)
          · rintro rfl
            rcases splitChar_head_nil hsp with ⟨_, h2⟩ | ⟨t, rfl⟩
            · cases h2
            · exact h ⟨[], t, by simp⟩
          · exact ih' p hp
    · cases hsp : splitChar c s with
      | nil => simp [consHead]
      | cons q l =>
        have ih' := ih hs
        rw [hsp] at ih'
        simpa [consHead] using ih'

/-- a path without `//` has no empty segment except possibly the last -/
theorem splitChar_dropLast_ne_nil {c : Char} {s : Str} (h : ¬ [c, c] <:+: (c :: s)) :
    ∀ p ∈ (splitChar c s).dropLast, p ≠ [] := by
  have := splitChar_tail_dropLast h
  simpa [splitChar] using this

theorem splitChar_cons_self (c : Char) (s : Str) : splitChar c (c :: s) = [] :: splitChar c s := by
  simp [splitChar]

theorem lastSeg_subset (s : Str) : ∀ x ∈ lastSeg s, x ∈ s := by
  unfold lastSeg
  split
  · simp
  · rename_i a b h
    obtain ⟨d, _, rfl, _⟩ := breakAtLast_some_iff.1 h
    intro x hx; simp [hx]

/-- the path written by `derelativise_url` -/
def derelPath (path : Str) : Str :=
  '/' :: join ['/'] ((splitChar '/' (path.drop 1)).foldl derelStep [])

theorem derelPath_mem (path : Str) : ∀ x ∈ derelPath path, x = '/' ∨ x ∈ path := by
  intro x hx
  simp only [derelPath, List.mem_cons] at hx
  rcases hx with h | h
  · exact Or.inl h
  · rcases mem_join_single h with h | ⟨s, hs, hx⟩
    · exact Or.inl h
    · right
      rcases foldl_derel_subset _ _ s hs with h | h
      · simp at h
      · exact List.mem_of_mem_drop (mem_of_mem_splitChar h x hx)

/-- path of an authority-less URL stays clear of a leading `//` -/
theorem derelPath_auth {path : Str} (habs : path = [] ∨ ∃ t, path = '/' :: t) (h : ¬ c!"//" <:+: path) (t : Str) :
    derelPath path ≠ '/' :: '/' :: t := by
  intro he
  simp only [derelPath, List.cons.injEq, true_and] at he
  have hdl : ∀ s ∈ (splitChar '/' (path.drop 1)).dropLast, s ≠ [] := by
    rcases habs with rfl | ⟨u, rfl⟩
    · simp [splitChar]
    · simp only [List.drop_succ_cons, List.drop_zero]
      exact splitChar_dropLast_ne_nil h
  have := foldl_derel_head _ hdl
  have hmem : ∀ s ∈ (splitChar '/' (path.drop 1)).foldl derelStep [], '/' ∉ s := by
    intro s hs
    rcases foldl_derel_subset _ _ s hs with h | h
    · simp at h
    · exact not_mem_of_mem_splitChar h
  generalize (splitChar '/' (path.drop 1)).foldl derelStep [] = r at he this hmem
  match r, he with
  | [x], he =>
    simp [join] at he
    exact hmem x (by simp) (by rw [he]; simp)
  | x :: y :: r, he =>
    simp only [join] at he
    have hx := this x y r rfl
    cases x with
    | nil => exact hx rfl
    | cons a x =>
      simp at he
      exact hmem (a :: x) (by simp) (by simp [he.1])

/-- The components after `derelativise_url`. -/
theorem canon_derel {p : Url} (h : Canon p) (hsemi : ';' ∉ p.path)
    (hauth : p.netloc = [] → ¬ c!"//" <:+: p.path) :
    Canon { p with path := derelPath p.path } := by
  have hm := derelPath_mem p.path
  exact {
    scheme_ne := h.scheme_ne
    scheme_chars := h.scheme_chars
    scheme_lower := h.scheme_lower
    netloc_ok := h.netloc_ok
    auth := h.auth
    path_abs := Or.inr ⟨_, rfl⟩
    path_query := fun hx => by rcases hm _ hx with h' | h'; cases h'; exact h.path_query h'
    path_frag := fun hx => by rcases hm _ hx with h' | h'; cases h'; exact h.path_frag h'
    path_auth := fun hn t => derelPath_auth h.path_abs (hauth hn) t
    path_rooted := by simp [derelPath]
    seg_params := fun _ hx => by
      rcases hm _ (lastSeg_subset _ _ hx) with h' | h'; cases h'; exact hsemi h'
    params_scheme := h.params_scheme
    params_slash := h.params_slash
    params_query := h.params_query
    params_frag := h.params_frag
    query_frag := h.query_frag }

theorem derelPath_segments (path : Str) :
    (splitChar '/' ((derelPath path).drop 1)).foldl derelStep [] =
      splitChar '/' ((derelPath path).drop 1) := by
  have hnd := foldl_derel_mem (splitChar '/' (path.drop 1)) [] (by simp)
  have hns : ∀ s ∈ (splitChar '/' (path.drop 1)).foldl derelStep [], '/' ∉ s := by
    intro s hs
    rcases foldl_derel_subset _ _ s hs with h | h
    · simp at h
    · exact not_mem_of_mem_splitChar h
  simp only [derelPath, List.drop_succ_cons, List.drop_zero]
  generalize (splitChar '/' (path.drop 1)).foldl derelStep [] = r at hnd hns
  by_cases hr : r = []
  · subst hr
    rw [foldl_derel_id]
    · simp
    · simp [join, splitChar, IsDots]
  · rw [splitChar_join hr hns, foldl_derel_id r [] hnd]; simp

theorem derelPath_idem (path : Str) : derelPath (derelPath path) = derelPath path := by
  have : derelPath (derelPath path) = '/' :: join ['/']
      ((splitChar '/' ((derelPath path).drop 1)).foldl derelStep []) := rfl
  rw [this, derelPath_segments, join_splitChar]
  simp [derelPath]

end Utils
