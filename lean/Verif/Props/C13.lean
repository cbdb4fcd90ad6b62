import Verif.Model.Url
import Verif.Proofs.Url
import Verif.Proofs.Str
/-!
# C13: resource paths always end in a supported extension

Spec side: `HasExt p e`, the file name of `p` is a stem that is not made of dots only,
followed by the extension `e`.
-/

namespace Props.C13
open Py Utils

/-- the supported extensions -/
def Ext : List Str := [c!".json", c!".yaml", c!".yml"]

/-- The last component of `p` is `stem ++ e`, where `stem` has a character other than a dot. -/
def HasExt (p e : Str) : Prop :=
  ∃ dir stem, p = dir ++ stem ++ e ∧ '/' ∉ stem ∧ (dir = [] ∨ ∃ d, dir = d ++ ['/']) ∧
    ∃ c ∈ stem, c ≠ '.'

theorem lastSeg_spec (p : Str) : ∃ dir, p = dir ++ lastSeg p ∧ '/' ∉ lastSeg p ∧
    (dir = [] ∨ ∃ d, dir = d ++ ['/']) := by
  unfold lastSeg
  cases hb : breakAtLast '/' p with
  | none => exact ⟨[], by simp, breakAtLast_none_iff.1 hb, Or.inl rfl⟩
  | some q =>
    obtain ⟨a, b⟩ := q
    obtain ⟨d, rfl, rfl, h⟩ := breakAtLast_some_iff.1 hb
    exact ⟨d ++ ['/'], by simp, h, Or.inr ⟨d, rfl⟩⟩

theorem lastSeg_eq {dir base : Str} (hb : '/' ∉ base) (hd : dir = [] ∨ ∃ d, dir = d ++ ['/']) :
    lastSeg (dir ++ base) = base := by
  rcases hd with rfl | ⟨d, rfl⟩
  · simpa using lastSeg_of_not_mem hb
  · simpa using lastSeg_append (d := d) hb

theorem splitextExt_def (p : Str) : splitextExt p =
    match breakAtLast '.' (lastSeg p) with
    | none => []
    | some (pre, ext) => if pre.dropLast.all (fun c => c = '.') then [] else '.' :: ext := by
  unfold splitextExt lastSeg
  cases breakAtLast '/' p <;> rfl

/-- `splitext` finds an extension exactly when the file name has it. -/
theorem splitextExt_iff {p x : Str} (hx : '.' ∉ x) (hs : '/' ∉ x) :
    splitextExt p = '.' :: x ↔ HasExt p ('.' :: x) := by
  rw [splitextExt_def]
  constructor
  · intro h
    obtain ⟨dir, h1, h2, h3⟩ := lastSeg_spec p
    cases hb : breakAtLast '.' (lastSeg p) with
    | none => rw [hb] at h; cases h
    | some q =>
      obtain ⟨pre, ext⟩ := q
      rw [hb] at h
      simp only at h
      split at h
      · cases h
      · rename_i hall
        simp only [List.cons.injEq, true_and] at h
        subst h
        obtain ⟨d, rfl, hd, _⟩ := breakAtLast_some_iff.1 hb
        simp only [List.dropLast_concat] at hall
        refine ⟨dir, d, ?_, ?_, h3, ?_⟩
        · rw [List.append_assoc, ← hd]; exact h1
        · intro h'; rw [hd] at h2; simp [h'] at h2
        · simp only [List.all_eq_true, decide_eq_true_eq, Classical.not_forall] at hall
          obtain ⟨c, hc, hne⟩ := hall
          exact ⟨c, hc, hne⟩
  · rintro ⟨dir, stem, rfl, h1, h2, c, hc, hne⟩
    have hl : lastSeg (dir ++ stem ++ '.' :: x) = stem ++ '.' :: x := by
      rw [List.append_assoc]
      exact lastSeg_eq (by simp [h1, hs]) h2
    have hb : breakAtLast '.' (stem ++ '.' :: x) = some (stem ++ ['.'], x) :=
      breakAtLast_some_iff.2 ⟨stem, rfl, rfl, hx⟩
    rw [hl, hb]
    have : stem.all (fun c => c = '.') = false := by
      rw [Bool.eq_false_iff]
      intro h
      exact hne (by simpa using List.all_eq_true.1 h c hc)
    simp [this]

theorem ext_valid {e : Str} (h : e ∈ Ext) : ∃ x, e = '.' :: x ∧ '.' ∉ x ∧ '/' ∉ x := by
  simp only [Ext, List.mem_cons, List.not_mem_nil, or_false] at h
  rcases h with rfl | rfl | rfl <;> exact ⟨_, rfl, by decide, by decide⟩

theorem ext_eq : VALID_FILE_EXT = Ext := rfl

theorem hasExt_iff {p e : Str} (h : e ∈ Ext) : splitextExt p = e ↔ HasExt p e := by
  obtain ⟨x, rfl, h1, h2⟩ := ext_valid h
  exact splitextExt_iff h1 h2

/-- The extension that `patch_path` makes the path end in. -/
inductive Chosen (base path : Str) : Str → Prop
  | base {e} (he : e ∈ Ext) (h : HasExt base e) : Chosen base path e
  | path {e} (he : e ∈ Ext) (hb : ∀ e ∈ Ext, ¬ HasExt base e) (h : HasExt path e) : Chosen base path e
  | default (hb : ∀ e ∈ Ext, ¬ HasExt base e) (hp : ∀ e ∈ Ext, ¬ HasExt path e) :
      Chosen base path c!".json"

theorem not_ext_iff (p : Str) : splitextExt p ∉ Ext ↔ ∀ e ∈ Ext, ¬ HasExt p e := by
  constructor
  · intro h e he hh; rw [← hasExt_iff he] at hh; rw [hh] at h; exact h he
  · intro h hh; exact h _ hh ((hasExt_iff hh).1 rfl)

/-- the extension computed by the code -/
def chosen (base path : Str) : Str :=
  if splitextExt base ∈ Ext then splitextExt base
  else if splitextExt path ∈ Ext then splitextExt path else c!".json"

theorem chosen_iff (base path e : Str) : Chosen base path e ↔ e = chosen base path := by
  unfold chosen
  constructor
  · intro h
    cases h with
    | base he h => rw [← hasExt_iff he] at h; simp [h, he]
    | path he hb h =>
      rw [← hasExt_iff he] at h; rw [← not_ext_iff] at hb; simp [h, he, hb]
    | default hb hp => rw [← not_ext_iff] at hb hp; simp [hb, hp]
  · rintro rfl
    split
    · rename_i h; exact .base h ((hasExt_iff h).1 rfl)
    · rename_i h1
      split
      · rename_i h; exact .path h ((not_ext_iff _).1 h1) ((hasExt_iff h).1 rfl)
      · rename_i h; exact .default ((not_ext_iff _).1 h1) ((not_ext_iff _).1 h)

theorem patch_path_eq (base path : Str) : patch_path base path =
    if endsWith path (chosen base path) then path else path ++ chosen base path := by
  have hnil : ([] : Str) ∉ Ext := by decide
  have : (let ext := splitextExt base
      let ext := if ext ∈ VALID_FILE_EXT then ext else []
      let ext := if ext = [] then splitextExt path else ext
      let ext := if ext ∈ VALID_FILE_EXT then ext else []
      if ext = [] then c!".json" else ext) = chosen base path := by
    rw [ext_eq]
    unfold chosen
    by_cases h1 : splitextExt base ∈ Ext
    · have : splitextExt base ≠ [] := by intro h; rw [h] at h1; exact hnil h1
      simp [h1, this]
    · by_cases h2 : splitextExt path ∈ Ext
      · have : splitextExt path ≠ [] := by intro h; rw [h] at h2; exact hnil h2
        simp [h1, h2, this]
      · simp [h1, h2]
  unfold patch_path
  simp only at this
  simp only [this]

/-- Full behaviour of `patch_path`: exactly one extension is chosen — that of the base, else that
of the path, else `.json` — and the path is extended by it unless it already ends in it. -/
theorem C13_spec (base path : Str) : ∃ e, Chosen base path e ∧ (∀ e', Chosen base path e' → e' = e) ∧
    e ∈ Ext ∧ (e <:+ path → patch_path base path = path) ∧
    (¬ e <:+ path → patch_path base path = path ++ e) := by
  refine ⟨chosen base path, (chosen_iff _ _ _).2 rfl, fun e' h => (chosen_iff _ _ _).1 h, ?_, ?_, ?_⟩
  · unfold chosen; split
    · assumption
    · split
      · assumption
      · decide
  · intro h; rw [patch_path_eq, if_pos ((endsWith_iff _ _).2 h)]
  · intro h; rw [patch_path_eq, if_neg (fun hh => h ((endsWith_iff _ _).1 hh))]

/-- The result ends in a supported extension and extends the path. -/
theorem C13_ends (base path : Str) :
    path <+: patch_path base path ∧ ∃ e ∈ Ext, e <:+ patch_path base path := by
  obtain ⟨e, _, _, he, h1, h2⟩ := C13_spec base path
  by_cases h : e <:+ path
  · rw [h1 h]; exact ⟨List.prefix_refl _, e, he, h⟩
  · rw [h2 h]; exact ⟨List.prefix_append _ _, e, he, List.suffix_append _ _⟩

/-- the extension of a path extended by `.json` -/
theorem hasExt_append_json (path e : Str) (he : e ∈ Ext) (h : HasExt (path ++ c!".json") e) :
    e = c!".json" := by
  obtain ⟨dir, stem, heq, _, _, _⟩ := h
  have hs : e <:+ path ++ c!".json" := ⟨dir ++ stem, heq.symm⟩
  have hj : c!".json" <:+ path ++ c!".json" := List.suffix_append _ _
  simp only [Ext, List.mem_cons, List.not_mem_nil, or_false] at he
  rcases he with rfl | rfl | rfl
  · rfl
  · have := List.suffix_of_suffix_length_le hs hj (by decide); revert this; decide
  · have := List.suffix_of_suffix_length_le hs hj (by decide); revert this; decide

/-- Patching twice is patching once. -/
theorem C13_idempotent (base path : Str) :
    patch_path base (patch_path base path) = patch_path base path := by
  rw [patch_path_eq base path]
  split
  · rename_i h; rw [patch_path_eq, if_pos h]
  · rename_i h
    rw [patch_path_eq]
    have hend : endsWith (path ++ chosen base path) (chosen base path) = true := by
      rw [endsWith_iff]; exact List.suffix_append _ _
    have hsame : chosen base (path ++ chosen base path) = chosen base path := by
      by_cases hb : splitextExt base ∈ Ext
      · simp [chosen, hb]
      · by_cases hp : splitextExt path ∈ Ext
        · exfalso
          have hc : chosen base path = splitextExt path := by simp [chosen, hb, hp]
          rw [hc] at h
          obtain ⟨dir, stem, heq, _⟩ := (hasExt_iff hp).1 rfl
          exact h ((endsWith_iff _ _).2 ⟨dir ++ stem, heq.symm⟩)
        · have hc : chosen base path = c!".json" := by simp [chosen, hb, hp]
          rw [hc]
          unfold chosen
          rw [if_neg hb]
          split
          · rename_i hin
            exact hasExt_append_json path _ hin ((hasExt_iff hin).1 rfl)
          · rfl
    rw [hsame, if_pos hend]

/-- non-vacuity -/
example : patch_path c!"/a/b.yaml" c!"/c/d" = c!"/c/d.yaml" ∧ patch_path c!"/a/b" c!"/c/d.yml" = c!"/c/d.yml" ∧
    patch_path c!"/a.b/c" c!"d.txt" = c!"d.txt.json" ∧ patch_path c!"x.yaml" c!"y.json" = c!"y.json.yaml" ∧
    patch_path c!"" c!".json" = c!".json" := by decide
example : HasExt c!"/a/b.yaml" c!".yaml" := ⟨c!"/a/", c!"b", rfl, by decide, Or.inr ⟨c!"/a", rfl⟩, 'b', by decide, by decide⟩

end Props.C13
