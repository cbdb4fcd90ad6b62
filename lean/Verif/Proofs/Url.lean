import Verif.Py.Url
/-! # Lemmas about URLs -/

namespace Py

theorem breakAt_none_iff {c : Char} {s : Str} : breakAt c s = none ↔ c ∉ s := by
  induction s with
  | nil => simp [breakAt]
  | cons x xs ih =>
    by_cases h : x = c
    · subst h; simp [breakAt]
    · have h' : ¬ c = x := fun e => h e.symm
      simp only [breakAt, h, if_false, List.mem_cons, h', false_or]
      cases hb : breakAt c xs with
      | none => simp [ih.1 hb]
      | some p =>
        simp only [reduceCtorEq, false_iff, Classical.not_not]
        exact Classical.byContradiction fun hn => by rw [ih.2 hn] at hb; cases hb

theorem breakAt_some_iff {c : Char} {s a b : Str} :
    breakAt c s = some (a, b) ↔ s = a ++ c :: b ∧ c ∉ a := by
  induction s generalizing a with
  | nil => simp [breakAt]
  | cons x xs ih =>
    by_cases h : x = c
    · subst h
      simp only [breakAt, if_true, Option.some.injEq, Prod.mk.injEq]
      constructor
      · rintro ⟨rfl, rfl⟩; simp
      · rintro ⟨h1, h2⟩
        cases a with
        | nil => simp at h1; simp [h1]
        | cons y a => simp at h1; simp [h1.1] at h2
    · simp only [breakAt, h, if_false]
      cases hb : breakAt c xs with
      | none =>
        simp only [reduceCtorEq, false_iff, not_and, Classical.not_not]
        intro h1
        have hn := breakAt_none_iff.1 hb
        cases a with
        | nil => simp at h1; exact absurd h1.1 h
        | cons y a => simp at h1; exact absurd (by simp [h1.2]) hn
      | some p =>
        obtain ⟨u, v⟩ := p
        simp only [Option.some.injEq, Prod.mk.injEq]
        constructor
        · rintro ⟨rfl, rfl⟩
          obtain ⟨h1, h2⟩ := ih.1 hb
          have h' : ¬ c = x := fun e => h e.symm
          refine ⟨by simp [h1], by simp [h2, h']⟩
        · rintro ⟨h1, h2⟩
          cases a with
          | nil => simp at h1; exact absurd h1.1 h
          | cons y a =>
            simp only [List.cons_append, List.cons.injEq] at h1
            simp only [List.mem_cons, not_or] at h2
            have := ih.2 ⟨h1.2, h2.2⟩
            rw [hb] at this
            simp only [Option.some.injEq, Prod.mk.injEq] at this
            exact ⟨by rw [h1.1, this.1], this.2⟩

theorem breakAtLast_none_iff {c : Char} {s : Str} : breakAtLast c s = none ↔ c ∉ s := by
  induction s with
  | nil => simp [breakAtLast]
  | cons x xs ih =>
    simp only [breakAtLast]
    cases hb : breakAtLast c xs with
    | none =>
      have := ih.1 hb
      by_cases h : x = c
      · subst h; simp
      · have h' : ¬ c = x := fun e => h e.symm
        simp [h, h', this]
    | some p =>
      simp only [reduceCtorEq, false_iff, Classical.not_not, List.mem_cons]
      right
      exact Classical.byContradiction fun hn => by rw [ih.2 hn] at hb; cases hb

theorem breakAtLast_some_iff {c : Char} {s a b : Str} :
    breakAtLast c s = some (a, b) ↔ ∃ d, a = d ++ [c] ∧ s = d ++ c :: b ∧ c ∉ b := by
  induction s generalizing a b with
  | nil => simp [breakAtLast]
  | cons x xs ih =>
    simp only [breakAtLast]
    cases hb : breakAtLast c xs with
    | none =>
      have hn := breakAtLast_none_iff.1 hb
      by_cases h : x = c
      · subst h
        simp only [if_true, Option.some.injEq, Prod.mk.injEq]
        constructor
        · rintro ⟨rfl, rfl⟩; exact ⟨[], rfl, rfl, hn⟩
        · rintro ⟨d, rfl, h2, h3⟩
          cases d with
          | nil => simp at h2; simp [h2]
          | cons y d => simp at h2; exact absurd (by simp [h2.2]) hn
      · simp only [h, if_false, reduceCtorEq, false_iff, not_exists, not_and, Classical.not_not]
        rintro d rfl h2
        cases d with
        | nil => simp at h2; exact absurd h2.1 h
        | cons y d => simp at h2; exact absurd (by simp [h2.2]) hn
    | some p =>
      obtain ⟨u, v⟩ := p
      simp only [Option.some.injEq, Prod.mk.injEq]
      obtain ⟨d0, hd0, hx0, hv0⟩ := ih.1 hb
      constructor
      · rintro ⟨rfl, rfl⟩
        exact ⟨x :: d0, by simp [hd0], by simp [hx0], hv0⟩
      · rintro ⟨d, rfl, h2, h3⟩
        cases d with
        | nil =>
          simp at h2
          exact absurd (by rw [← h2.2, hx0]; simp) h3
        | cons y d =>
          simp only [List.cons_append, List.cons.injEq] at h2
          have := ih.2 ⟨d, rfl, h2.2, h3⟩
          rw [hb] at this
          simp only [Option.some.injEq, Prod.mk.injEq] at this
          exact ⟨by rw [h2.1, this.1]; simp, this.2⟩

theorem cutAt_of_not_mem {c : Char} {s : Str} (h : c ∉ s) : cutAt c s = (s, []) := by
  simp [cutAt, breakAt_none_iff.2 h]

theorem cutAt_append {c : Char} {a b : Str} (h : c ∉ a) : cutAt c (a ++ c :: b) = (a, b) := by
  simp [cutAt, breakAt_some_iff.2 ⟨rfl, h⟩]

/-- cutting what `urlunparse` glues: an optional tail after `c` -/
theorem cutAt_opt {c : Char} {a b : Str} (h : c ∉ a) :
    cutAt c (if b ≠ [] then a ++ c :: b else a) = (a, b) := by
  by_cases hb : b = []
  · subst hb; simpa using cutAt_of_not_mem h
  · simp [hb, cutAt_append h]

/-- Last path segment: the text after the last slash. -/
def lastSeg (path : Str) : Str :=
  match breakAtLast '/' path with
  | none => path
  | some (_, b) => b

theorem splitParams_of {path params : Str} (h1 : ';' ∉ lastSeg path) (h2 : '/' ∉ params) :
    splitParams (if params ≠ [] then path ++ ';' :: params else path) = (path, params) := by
  unfold lastSeg at h1
  cases hb : breakAtLast '/' path with
  | none =>
    rw [hb] at h1
    have hn := breakAtLast_none_iff.1 hb
    by_cases hp : params = []
    · subst hp
      simp [splitParams, hb, cutAt_of_not_mem h1]
    · have : breakAtLast '/' (path ++ ';' :: params) = none := by
        rw [breakAtLast_none_iff]
        simp [hn, h2]
      simp [hp, splitParams, this, cutAt_append h1]
  | some q =>
    obtain ⟨a, b⟩ := q
    rw [hb] at h1
    obtain ⟨d, rfl, rfl, hnb⟩ := breakAtLast_some_iff.1 hb
    by_cases hp : params = []
    · subst hp
      simp only [ne_eq, not_true_eq_false, if_false, splitParams, hb, breakAt_none_iff.2 h1]
    · have : breakAtLast '/' (d ++ '/' :: (b ++ ';' :: params)) = some (d ++ ['/'], b ++ ';' :: params) := by
        rw [breakAtLast_some_iff]
        exact ⟨d, rfl, by simp, by simp [hnb, h2]⟩
      have h3 : breakAt ';' (b ++ ';' :: params) = some (b, params) := breakAt_some_iff.2 ⟨rfl, h1⟩
      simp [hp, splitParams, this, h3]

/-- Components for which `urlunparse` and `urlparse` are inverse: an absolute URL with an
authority part (possibly empty, as in `file:///x`). -/
structure Canon (p : Url) : Prop where
  scheme_ne : p.scheme ≠ []
  scheme_chars : p.scheme.all isSchemeChar = true
  scheme_lower : p.scheme.map Char.toLower = p.scheme
  netloc_ok : ∀ c ∈ p.netloc, endsNetloc c = false
  auth : p.netloc ≠ [] ∨ p.scheme ∈ usesNetloc
  path_abs : p.path = [] ∨ ∃ t, p.path = '/' :: t
  path_query : '?' ∉ p.path
  path_frag : '#' ∉ p.path
  path_auth : p.netloc = [] → ∀ t, p.path ≠ '/' :: '/' :: t
  path_rooted : p.params ≠ [] → p.path ≠ []
  seg_params : p.scheme ∈ usesParams → ';' ∉ lastSeg p.path
  params_scheme : p.scheme ∉ usesParams → p.params = []
  params_slash : '/' ∉ p.params
  params_query : '?' ∉ p.params
  params_frag : '#' ∉ p.params
  query_frag : '#' ∉ p.query

theorem colon_not_schemeChar : isSchemeChar ':' = false := by decide

theorem colon_not_mem {s : Str} (h : s.all isSchemeChar = true) : ':' ∉ s := by
  intro hm
  have := List.all_eq_true.1 h ':' hm
  rw [colon_not_schemeChar] at this; cases this

theorem splitScheme_of {s rest : Str} (h0 : s ≠ []) (h1 : s.all isSchemeChar = true)
    (h2 : s.map Char.toLower = s) : splitScheme (s ++ ':' :: rest) = (s, rest) := by
  have : breakAt ':' (s ++ ':' :: rest) = some (s, rest) :=
    breakAt_some_iff.2 ⟨rfl, colon_not_mem h1⟩
  simp only [splitScheme, this, h1, h2, ne_eq, h0, not_false_eq_true, and_self, if_true]

theorem takeWhile_netloc {n : Str} (h : ∀ c ∈ n, endsNetloc c = false) (rest : Str)
    (hr : ∀ c t, rest = c :: t → endsNetloc c = true) :
    (n ++ rest).takeWhile (fun c => !endsNetloc c) = n ∧
    (n ++ rest).dropWhile (fun c => !endsNetloc c) = rest := by
  induction n with
  | nil =>
    cases rest with
    | nil => simp
    | cons c t => have := hr c t rfl; simp [this]
  | cons x n ih =>
    have hx := h x (by simp)
    have := ih (fun c hc => h c (by simp [hc]))
    simp [hx, this.1, this.2]

/-- `urlparse` inverts `urlunparse` on canonical components. -/
theorem urlparse_urlunparse {p : Url} (h : Canon p) : urlparse (urlunparse p) = p := by
  obtain ⟨scheme, netloc, path, params, query, fragment⟩ := p
  obtain ⟨h1, h2, h3, h4, h5, h6, h7, h8, h9, hpr, h10, h11, h12, h13, h14, h15⟩ := h
  simp only at h1 h2 h3 h4 h5 h6 h7 h8 h9 hpr h10 h11 h12 h13 h14 h15
  generalize hfull : (if params ≠ [] then path ++ ';' :: params else path) = full
  -- facts about the path with params
  have hfq : '?' ∉ full := by
    rw [← hfull]; split
    · simp [h7, h13]
    · exact h7
  have hff : '#' ∉ full := by
    rw [← hfull]; split
    · simp [h8, h14]
    · exact h8
  have hfabs : full = [] ∨ ∃ t, full = '/' :: t := by
    rw [← hfull]
    by_cases hp : params = []
    · simpa [hp] using h6
    · simp only [ne_eq, hp, not_false_eq_true, if_true]
      rcases h6 with h | ⟨t, h⟩
      · exact absurd h (hpr hp)
      · right; exact ⟨t ++ ';' :: params, by simp [h]⟩
  have hfauth : netloc = [] → full.take 2 ≠ ['/', '/'] := by
    intro hn htake
    rcases hfabs with h | ⟨t, h⟩
    · simp [h] at htake
    · cases t with
      | nil => simp [h] at htake
      | cons c t =>
        rw [h] at htake
        simp at htake
        subst htake
        rw [← hfull] at h
        by_cases hp : params = []
        · simp [hp] at h; exact h9 hn t h
        · simp only [ne_eq, hp, not_false_eq_true, if_true] at h
          cases path with
          | nil => exact absurd rfl (hpr hp)
          | cons a path =>
            simp only [List.cons_append, List.cons.injEq] at h
            cases path with
            | nil => simp at h
            | cons b path =>
              simp only [List.cons_append, List.cons.injEq] at h
              exact h9 hn path (by rw [h.1, h.2.1])
  have hhead : unparseHead scheme netloc full = scheme ++ ':' :: '/' :: '/' :: (netloc ++ full) := by
    have hc : netloc ≠ [] ∨ (scheme ≠ [] ∧ scheme ∈ usesNetloc ∧ full.take 2 ≠ ['/', '/']) := by
      by_cases hn : netloc = []
      · right
        rcases h5 with h | h
        · exact absurd hn h
        · exact ⟨h1, h, hfauth hn⟩
      · exact Or.inl hn
    have hslash : (if full ≠ [] ∧ full.take 1 ≠ ['/'] then '/' :: full else full) = full := by
      rcases hfabs with h | ⟨t, h⟩ <;> simp [h]
    unfold unparseHead
    rw [if_pos hc]
    simp only [hslash, ne_eq, h1, not_false_eq_true, if_true]
  -- assemble
  have hun : urlunparse ⟨scheme, netloc, path, params, query, fragment⟩ =
      scheme ++ ':' :: '/' :: '/' :: (netloc ++
        (if fragment ≠ [] then (if query ≠ [] then full ++ '?' :: query else full) ++ '#' :: fragment
          else (if query ≠ [] then full ++ '?' :: query else full))) := by
    simp only [urlunparse, hfull, hhead]
    by_cases hq : query = [] <;> by_cases hf : fragment = [] <;> simp [hq, hf]
  rw [hun]
  have hqf : '#' ∉ (if query ≠ [] then full ++ '?' :: query else full) := by
    split
    · simp [hff, h15]
    · exact hff
  generalize hrest : (if fragment ≠ [] then (if query ≠ [] then full ++ '?' :: query else full) ++ '#' :: fragment
          else (if query ≠ [] then full ++ '?' :: query else full)) = rest
  have hrhead : ∀ c t, rest = c :: t → endsNetloc c = true := by
    intro c t hct
    rw [← hrest] at hct
    rcases hfabs with h | ⟨u, h⟩
    · subst h
      by_cases hq : query = [] <;> by_cases hf : fragment = [] <;> simp [hq, hf] at hct
      · rw [← hct.1]; decide
      · rw [← hct.1]; decide
      · rw [← hct.1]; decide
    · subst h
      by_cases hq : query = [] <;> by_cases hf : fragment = [] <;> simp [hq, hf] at hct <;>
        (rw [← hct.1]; decide)
  obtain ⟨ht, hd⟩ := takeWhile_netloc h4 rest hrhead
  have hcut : cutAt '#' rest = ((if query ≠ [] then full ++ '?' :: query else full), fragment) := by
    rw [← hrest]; exact cutAt_opt hqf
  have hcut2 : cutAt '?' (if query ≠ [] then full ++ '?' :: query else full) = (full, query) :=
    cutAt_opt hfq
  have hpar : (if scheme ∈ usesParams then splitParams full else (full, [])) = (path, params) := by
    by_cases hs : scheme ∈ usesParams
    · rw [if_pos hs, ← hfull]; exact splitParams_of (h10 hs) h12
    · rw [if_neg hs, ← hfull, h11 hs]; simp
  have hnet : splitNetloc ('/' :: '/' :: (netloc ++ rest)) = (netloc, rest) := by
    simp only [splitNetloc, ht, hd]
  simp only [urlparse, splitScheme_of h1 h2 h3, hnet, hcut, hcut2, hpar]


/-- A parsed URL that is absolute: it has a scheme, and an authority or (as in `file:///x`) an
absolute path in a scheme that has authorities. -/
def AbsUrl (p : Url) : Prop :=
  p.scheme ≠ [] ∧
    (p.netloc ≠ [] ∨ (p.scheme ∈ usesNetloc ∧ ∃ t, p.path = '/' :: t ∧ t.head? ≠ some '/'))

theorem schemeChar_ascii {c : Char} (h : isSchemeChar c = true) : c.toNat < 128 := by
  simp only [isSchemeChar, Char.isAlphanum, Char.isAlpha, Char.isUpper, Char.isLower, Char.isDigit,
    Bool.or_eq_true, Bool.and_eq_true, decide_eq_true_eq] at h
  rcases h with (((((h | h) | h) | h) | h) | h)
  · have := UInt32.le_iff_toNat_le.1 h.2; simp at this; omega
  · have := UInt32.le_iff_toNat_le.1 h.2; simp at this; omega
  · have := UInt32.le_iff_toNat_le.1 h.2; simp at this; omega
  · subst h; decide
  · subst h; decide
  · subst h; decide

theorem ascii_table : ∀ n : Fin 128,
    (Char.ofNat n.1).toLower.toLower = (Char.ofNat n.1).toLower ∧
    (isSchemeChar (Char.ofNat n.1) = true → isSchemeChar (Char.ofNat n.1).toLower = true) := by
  decide

theorem schemeChar_lower {c : Char} (h : isSchemeChar c = true) :
    c.toLower.toLower = c.toLower ∧ isSchemeChar c.toLower = true := by
  have := ascii_table ⟨c.toNat, schemeChar_ascii h⟩
  simp only [Char.ofNat_toNat] at this
  exact ⟨this.1, this.2 h⟩

theorem splitScheme_props (s : Str) :
    (splitScheme s).1.all isSchemeChar = true ∧
    (splitScheme s).1.map Char.toLower = (splitScheme s).1 := by
  unfold splitScheme
  split
  · rename_i pre rest _
    split
    · rename_i h
      have hall := List.all_eq_true.1 h.2
      constructor
      · rw [List.all_eq_true]
        intro c hc
        obtain ⟨d, hd, rfl⟩ := List.mem_map.1 hc
        exact (schemeChar_lower (hall d hd)).2
      · simp only [List.map_map]
        apply List.map_congr_left
        intro d hd
        exact (schemeChar_lower (hall d hd)).1
    · simp
  · simp

theorem mem_takeWhile_netloc (l : Str) : ∀ c ∈ l.takeWhile (fun c => !endsNetloc c), endsNetloc c = false := by
  induction l with
  | nil => simp
  | cons x l ih =>
    by_cases hx : endsNetloc x = true
    · simp [hx]
    · simp only [Bool.not_eq_true] at hx
      intro c hc
      simp only [List.takeWhile_cons, hx, Bool.not_false, if_true, List.mem_cons] at hc
      rcases hc with rfl | hc
      · exact hx
      · exact ih c hc

theorem splitNetloc_props (s : Str) :
    (∀ c ∈ (splitNetloc s).1, endsNetloc c = false) ∧
    ((splitNetloc s).1 ≠ [] → ∀ c t, (splitNetloc s).2 = c :: t → endsNetloc c = true) := by
  unfold splitNetloc
  split
  · rename_i rest
    refine ⟨mem_takeWhile_netloc rest, ?_⟩
    intro _ c t h
    have := List.head?_dropWhile_not (fun c => !endsNetloc c) rest
    simp only at h
    rw [h] at this
    simpa using this
  · simp

theorem cutAt_props (c : Char) (s : Str) : c ∉ (cutAt c s).1 ∧ (cutAt c s).1 <+: s ∧
    (∀ x, x ∈ (cutAt c s).2 → x ∈ s) := by
  unfold cutAt
  split
  · rename_i a b h
    obtain ⟨rfl, h2⟩ := breakAt_some_iff.1 h
    refine ⟨h2, List.prefix_append _ _, ?_⟩
    intro x hx; simp [hx]
  · rename_i h
    exact ⟨breakAt_none_iff.1 h, List.prefix_refl _, by simp⟩

theorem lastSeg_append {d b : Str} (h : '/' ∉ b) : lastSeg (d ++ '/' :: b) = b := by
  have : breakAtLast '/' (d ++ '/' :: b) = some (d ++ ['/'], b) :=
    breakAtLast_some_iff.2 ⟨d, rfl, rfl, h⟩
  simp [lastSeg, this]

theorem lastSeg_of_not_mem {b : Str} (h : '/' ∉ b) : lastSeg b = b := by
  simp [lastSeg, breakAtLast_none_iff.2 h]

theorem splitParams_props (s : Str) :
    ';' ∉ lastSeg (splitParams s).1 ∧ '/' ∉ (splitParams s).2 ∧ (splitParams s).1 <+: s ∧
    (∀ x, x ∈ (splitParams s).2 → x ∈ s) ∧ (∀ t, s = '/' :: t → (splitParams s).1 ≠ []) := by
  unfold splitParams
  cases hb : breakAtLast '/' s with
  | none =>
    have hn := breakAtLast_none_iff.1 hb
    obtain ⟨h1, h2, h3⟩ := cutAt_props ';' s
    have hn1 : '/' ∉ (cutAt ';' s).1 := fun h => hn (h2.subset h)
    refine ⟨?_, fun h => hn (h3 _ h), h2, h3, ?_⟩
    · simp only; rw [lastSeg_of_not_mem hn1]; exact h1
    · intro t ht; subst ht; simp at hn
  | some q =>
    obtain ⟨dir, base⟩ := q
    obtain ⟨d, rfl, rfl, hnb⟩ := breakAtLast_some_iff.1 hb
    simp only
    cases hb2 : breakAt ';' base with
    | none =>
      refine ⟨?_, by simp, List.prefix_refl _, by simp, ?_⟩
      · simp only; rw [lastSeg_append hnb]; exact breakAt_none_iff.1 hb2
      · intro t ht; simp
    | some r =>
      obtain ⟨a, b⟩ := r
      obtain ⟨rfl, ha⟩ := breakAt_some_iff.1 hb2
      have hna : '/' ∉ a := fun h => hnb (by simp [h])
      refine ⟨?_, fun h => hnb (by simp at h; simp [h]), ?_, ?_, ?_⟩
      · simp only [List.append_assoc, List.singleton_append]; rw [lastSeg_append hna]; exact ha
      · exact ⟨';' :: b, by simp⟩
      · intro x hx; simp only at hx; simp [hx]
      · intro t ht; simp

/-- What `urlparse` returns for an absolute URL is canonical. -/
theorem canon_urlparse {s : Str} (h : AbsUrl (urlparse s)) : Canon (urlparse s) := by
  have hs := splitScheme_props s
  generalize hss : splitScheme s = ss at hs
  obtain ⟨scheme, rest0⟩ := ss
  have hn := splitNetloc_props rest0
  generalize hnn : splitNetloc rest0 = nn at hn
  obtain ⟨netloc, rest1⟩ := nn
  have hf := cutAt_props '#' rest1
  generalize hff : cutAt '#' rest1 = ff at hf
  obtain ⟨rest2, fragment⟩ := ff
  have hq := cutAt_props '?' rest2
  generalize hqq : cutAt '?' rest2 = qq at hq
  obtain ⟨rest3, query⟩ := qq
  simp only at hs hn hf hq
  have hq2f : '#' ∉ query := fun h => hf.1 (hq.2.2 _ h)
  have h3f : '#' ∉ rest3 := fun h => hf.1 (hq.2.1.subset h)
  have hnabs : netloc ≠ [] → rest3 = [] ∨ ∃ t, rest3 = '/' :: t := by
    intro hne
    cases hr : rest3 with
    | nil => exact Or.inl rfl
    | cons c t =>
      right
      have hpre : rest3 <+: rest1 := hq.2.1.trans hf.2.1
      obtain ⟨u, hu⟩ := hpre
      rw [hr] at hu
      have := hn.2 hne c (t ++ u) (by rw [← hu]; rfl)
      simp only [endsNetloc, Bool.or_eq_true, decide_eq_true_eq] at this
      rcases this with (h | h) | h
      · exact ⟨t, by rw [h]⟩
      · subst h; exact absurd (by rw [hr]; simp) hq.1
      · subst h; exact absurd (by rw [hr]; simp) h3f
  have hp : urlparse s = ⟨scheme, netloc,
      (if scheme ∈ usesParams then splitParams rest3 else (rest3, [])).1,
      (if scheme ∈ usesParams then splitParams rest3 else (rest3, [])).2, query, fragment⟩ := by
    simp only [urlparse, hss, hnn, hff, hqq]
  obtain ⟨habs1, habs2⟩ := h
  have hsp := splitParams_props rest3
  rw [hp] at habs1 habs2 ⊢
  simp only at habs1 habs2
  by_cases hu : scheme ∈ usesParams
  · simp only [if_pos hu] at habs2 ⊢
    have hpabs : (splitParams rest3).1 = [] ∨ ∃ t, (splitParams rest3).1 = '/' :: t := by
      rcases habs2 with hne | ⟨_, t, ht, _⟩
      · rcases hnabs hne with h | ⟨t, h⟩
        · left; have := hsp.2.2.1; rw [h] at this ⊢; simpa using this
        · obtain ⟨u, hu⟩ := hsp.2.2.1
          cases hc : (splitParams rest3).1 with
          | nil => exact Or.inl rfl
          | cons c v =>
            rw [hc, h] at hu; simp at hu
            right; exact ⟨v, by rw [hu.1]⟩
      · exact Or.inr ⟨t, ht⟩
    exact {
      scheme_ne := habs1
      scheme_chars := hs.1
      scheme_lower := hs.2
      netloc_ok := hn.1
      auth := habs2.imp id (·.1)
      path_abs := hpabs
      path_query := fun h => hq.1 (hsp.2.2.1.subset h)
      path_frag := fun h => h3f (hsp.2.2.1.subset h)
      path_auth := by
        intro he t ht
        simp only at he ht
        rcases habs2 with h | ⟨_, u, hu, hu2⟩
        · exact h he
        · rw [ht] at hu; simp at hu; rw [← hu] at hu2; simp at hu2
      path_rooted := by
        intro hpne
        simp only at hpne ⊢
        rcases habs2 with h | ⟨_, t, ht, _⟩
        · rcases hnabs h with h | ⟨t, h⟩
          · exact absurd (by rw [h]; decide) hpne
          · exact hsp.2.2.2.2 t h
        · rw [ht]; simp
      seg_params := fun _ => hsp.1
      params_scheme := fun h => absurd hu h
      params_slash := hsp.2.1
      params_query := fun h => hq.1 (hsp.2.2.2.1 _ h)
      params_frag := fun h => h3f (hsp.2.2.2.1 _ h)
      query_frag := hq2f }
  · simp only [if_neg hu] at habs2 ⊢
    exact {
      scheme_ne := habs1
      scheme_chars := hs.1
      scheme_lower := hs.2
      netloc_ok := hn.1
      auth := habs2.imp id (·.1)
      path_abs := by
        rcases habs2 with hne | ⟨_, t, ht, _⟩
        · exact hnabs hne
        · exact Or.inr ⟨t, ht⟩
      path_query := hq.1
      path_frag := h3f
      path_auth := by
        intro he t ht
        simp only at he ht
        rcases habs2 with h | ⟨_, u, hu, hu2⟩
        · exact h he
        · rw [ht] at hu; simp at hu; rw [← hu] at hu2; simp at hu2
      path_rooted := by simp
      seg_params := fun h => absurd h hu
      params_scheme := fun _ => rfl
      params_slash := by simp
      params_query := by simp
      params_frag := by simp
      query_frag := hq2f }

/-- The text of a canonical URL. -/
theorem urlunparse_canon {p : Url} (h : Canon p) : urlunparse p =
    p.scheme ++ c!"://" ++ p.netloc ++ p.path ++ (if p.params ≠ [] then ';' :: p.params else []) ++
      (if p.query ≠ [] then '?' :: p.query else []) ++
      (if p.fragment ≠ [] then '#' :: p.fragment else []) := by
  obtain ⟨scheme, netloc, path, params, query, fragment⟩ := p
  obtain ⟨h1, h2, h3, h4, h5, h6, h7, h8, h9, hpr, h10, h11, h12, h13, h14, h15⟩ := h
  simp only at *
  have key : ∀ full : Str, (∃ t, full = '/' :: t) ∨ full = [] → (netloc = [] → full.take 2 ≠ ['/', '/']) →
      unparseHead scheme netloc full = scheme ++ c!"://" ++ netloc ++ full := by
    intro full hfabs hfauth
    have hc : netloc ≠ [] ∨ (scheme ≠ [] ∧ scheme ∈ usesNetloc ∧ full.take 2 ≠ ['/', '/']) := by
      by_cases hn : netloc = []
      · right
        rcases h5 with h | h
        · exact absurd hn h
        · exact ⟨h1, h, hfauth hn⟩
      · exact Or.inl hn
    have hslash : (if full ≠ [] ∧ full.take 1 ≠ ['/'] then '/' :: full else full) = full := by
      rcases hfabs with ⟨t, h⟩ | h <;> simp [h]
    unfold unparseHead
    rw [if_pos hc]
    simp [hslash, h1]
  have hpath2 : ∀ x : Str, path ≠ [] ∨ x = [] → netloc = [] → x.head? ≠ some '/' → (path ++ x).take 2 ≠ ['/', '/'] := by
    intro x hx hn hx2
    rcases h6 with h | ⟨t, h⟩
    · rcases hx with hx | hx
      · exact absurd h hx
      · simp [h, hx]
    · cases t with
      | nil => subst h; cases x with
        | nil => simp
        | cons c x => simp at hx2 ⊢; exact hx2
      | cons c t =>
        subst h
        have := h9 hn t
        simp at this ⊢
        exact this
  by_cases hp : params = []
  · have := key path (h6.symm) (by intro hn; have := hpath2 [] (Or.inr rfl) hn (by simp); simpa using this)
    subst hp
    simp only [urlunparse, ne_eq, not_true_eq_false, if_false, this]
    by_cases hq : query = [] <;> by_cases hf : fragment = [] <;> simp [hq, hf]
  · have hne := hpr hp
    have := key (path ++ ';' :: params) (by
        rcases h6 with h | ⟨t, h⟩
        · exact absurd h hne
        · left; exact ⟨t ++ ';' :: params, by simp [h]⟩)
      (fun hn => hpath2 _ (Or.inl hne) hn (by simp))
    simp only [urlunparse, ne_eq, hp, not_false_eq_true, if_true, this]
    by_cases hq : query = [] <;> by_cases hf : fragment = [] <;> simp [hq, hf]

end Py
