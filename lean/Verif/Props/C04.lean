import Verif.Model.Scope
import Verif.Proofs.Str
/-!
# C04: scope composition and splitting are inverse

The separator is arbitrary (non-empty). `NoEarlySep a sep` says that in `a ++ sep` no occurrence
of the separator begins inside `a`; it is implied by, e.g., `a` not containing the first
character of the separator.
-/

namespace Props.C04
open Py Utils

/-- No occurrence of `sep` in `a ++ sep` begins before position `|a|`. -/
def NoEarlySep (a sep : Str) : Prop := ∀ i < a.length, ¬ sep <+: (a ++ sep).drop i

/-- `sep` does not occur in `b`. -/
def SepFree (b sep : Str) : Prop := ¬ sep <:+: b

/-- **C04** (exact condition). For non-empty scope and name, splitting the composed scope gives
the two components back if and only if no separator begins inside the scope (looking up to and
including the inserted separator) and none occurs in the name. -/
theorem C04_roundtrip_iff (scope name sep : Str) (h1 : scope ≠ []) (h2 : name ≠ []) (hs : sep ≠ []) :
    scope_split (scope_compose (some scope) (some name) sep) sep = [some scope, some name]
      ↔ NoEarlySep scope sep ∧ SepFree name sep := by
  obtain ⟨a, as, rfl⟩ := List.exists_cons_of_ne_nil h1
  obtain ⟨b, bs, rfl⟩ := List.exists_cons_of_ne_nil h2
  have hval : scope_split (scope_compose (some (a :: as)) (some (b :: bs)) sep) sep
      = (split sep ((a :: as) ++ sep ++ (b :: bs))).map some := rfl
  rw [hval]
  have hinj : ∀ l : List Str, l.map some = [some (a :: as), some (b :: bs)]
      ↔ l = [a :: as, b :: bs] := by
    intro l
    constructor
    · intro h
      have : l.map some = [a :: as, b :: bs].map some := h
      exact (List.map_inj_right (fun _ _ => Option.some.inj)).1 this
    · rintro rfl; rfl
  rw [hinj]
  constructor
  · intro h
    have hno : ∀ n (s : Str), s.length ≤ n → ∀ p ps, split sep s = p :: ps →
        (ps = [] → ¬ sep <:+: s) ∧
        (ps ≠ [] → ∃ t, s = p ++ sep ++ t ∧ split sep t = ps ∧ NoEarlySep p sep) := by
      intro n
      induction n with
      | zero =>
        intro s hs' p ps hsp
        have : s = [] := by cases s with
          | nil => rfl
          | cons => simp at hs'
        subst this
        simp [split, splitGo] at hsp
        obtain ⟨rfl, rfl⟩ := hsp
        exact ⟨fun _ => by simp [hs], fun h => absurd rfl h⟩
      | succ n ih =>
        intro s hs' p ps hsp
        cases s with
        | nil =>
          simp [split, splitGo] at hsp
          obtain ⟨rfl, rfl⟩ := hsp
          exact ⟨fun _ => by simp [hs], fun h => absurd rfl h⟩
        | cons x xs =>
          by_cases hp : sep.isPrefixOf (x :: xs) = true
          · obtain ⟨t, ht⟩ := List.isPrefixOf_iff_prefix.1 hp
            have hsplit : split sep (x :: xs) = [] :: split sep t := by
              rw [← ht]
              have := split_append_sep (sep := sep) (a := []) (b := t) hs (by simp)
              simpa using this
            rw [hsplit] at hsp
            simp only [List.cons.injEq] at hsp
            obtain ⟨rfl, rfl⟩ := hsp
            refine ⟨fun h => absurd h (splitGo_ne_nil _ _ _), fun _ => ⟨t, by simp [ht], rfl, ?_⟩⟩
            intro i hi; simp at hi
          · have hsplit : split sep (x :: xs) = consHead x (split sep xs) := by
              simp [split, splitGo, hp]
            rw [hsplit] at hsp
            cases hq : split sep xs with
            | nil => exact absurd hq (splitGo_ne_nil _ _ _)
            | cons q qs =>
              rw [hq] at hsp
              simp only [consHead, List.cons.injEq] at hsp
              obtain ⟨rfl, rfl⟩ := hsp
              have hh := ih xs (by simpa using hs') q qs hq
              constructor
              · intro he
                rw [List.infix_cons_iff]
                rintro (h' | h')
                · exact hp (List.isPrefixOf_iff_prefix.2 h')
                · exact hh.1 he h'
              · intro he
                obtain ⟨t, rfl, ht, hne⟩ := hh.2 he
                refine ⟨t, by simp, ht, ?_⟩
                intro i hi
                cases i with
                | zero =>
                  intro hpre
                  apply hp
                  apply List.isPrefixOf_iff_prefix.2
                  have : x :: (q ++ sep ++ t) = (x :: q ++ sep) ++ t := by simp
                  rw [this]
                  exact List.IsPrefix.trans (by simpa using hpre) (List.prefix_append _ _)
                | succ i => simpa using hne i (by simpa using hi)
    have H := hno _ _ (Nat.le_refl _) _ _ h
    obtain ⟨t, ht, hst, hne⟩ := H.2 (by simp)
    have hH2 := hno _ _ (Nat.le_refl _) _ _ hst
    have : t = b :: bs := by
      have := ht
      simp at this
      exact this.symm
    subst this
    exact ⟨hne, hH2.1 rfl⟩
  · rintro ⟨hA, hB⟩
    rw [split_append_sep hs hA, split_of_no_occ]
    intro i _ hp
    exact hB (hp.isInfix.trans (List.drop_suffix i _).isInfix)

/-- **C04** (everyday condition). Names that do not contain the first character of the separator
always come back. -/
theorem C04_roundtrip (scope name : Str) (c : Char) (cs : Str) (h1 : scope ≠ []) (h2 : name ≠ [])
    (hA : c ∉ scope) (hB : c ∉ name) :
    scope_split (scope_compose (some scope) (some name) (c :: cs)) (c :: cs)
      = [some scope, some name] := by
  rw [C04_roundtrip_iff scope name (c :: cs) h1 h2 (by simp)]
  constructor
  · intro i hi hp
    have hd : (scope ++ c :: cs).drop i = scope.drop i ++ c :: cs := by
      rw [List.drop_append_of_le_length (by omega)]
    rw [hd] at hp
    obtain ⟨t, ht⟩ := hp
    cases hdr : scope.drop i with
    | nil => simp at hdr; omega
    | cons x xs =>
      rw [hdr] at ht
      simp at ht
      apply hA
      have : x ∈ scope.drop i := by rw [hdr]; simp
      rw [ht.1]
      exact List.mem_of_mem_drop this
  · rintro ⟨u, v, huv⟩
    apply hB
    rw [← huv]; simp

/-- **C04** (neutral components). A missing or empty component is dropped: composing with an
absent name gives the scope, composing a name into an absent or empty scope gives the name,
and an empty name leaves a non-empty scope alone. -/
theorem C04_neutral (sep : Str) :
    (∀ scope, scope_compose scope none sep = scope) ∧
    (∀ name : Str, scope_compose none (some name) sep = some name) ∧
    (∀ name : Str, scope_compose (some []) (some name) sep = some name) ∧
    (∀ scope : Str, scope ≠ [] → scope_compose (some scope) (some []) sep = some scope) := by
  refine ⟨?_, ?_, ?_, ?_⟩
  · intro scope; rcases scope with _ | _ | _ <;> rfl
  · intro name; cases name <;> rfl
  · intro name; cases name <;> rfl
  · intro scope h; cases scope with
    | nil => exact absurd rfl h
    | cons => rfl

/-- **C04** (form). Two non-empty components are joined with the separator in between. -/
theorem C04_form (scope name sep : Str) (h1 : scope ≠ []) (h2 : name ≠ []) :
    scope_compose (some scope) (some name) sep = some (scope ++ sep ++ name) := by
  obtain ⟨a, as, rfl⟩ := List.exists_cons_of_ne_nil h1
  obtain ⟨b, bs, rfl⟩ := List.exists_cons_of_ne_nil h2
  rfl

/-- **C04** (splitting). An absent or empty scope splits to `[None]`; any other scope splits to
pieces that, joined with the separator, give the scope back. -/
theorem C04_split (sep : Str) (hs : sep ≠ []) :
    scope_split none sep = [none] ∧ scope_split (some []) sep = [none] ∧
    (∀ s, s ≠ [] → ∃ ps : List Str, scope_split (some s) sep = ps.map some ∧ join sep ps = s) := by
  refine ⟨rfl, rfl, ?_⟩
  intro s h
  obtain ⟨a, as, rfl⟩ := List.exists_cons_of_ne_nil h
  exact ⟨_, rfl, join_split hs _⟩

/-- "The components do not contain the separator" is not enough: with the default separator,
scope `x!##` and name `n` (neither contains `!##!`) come back as `x` and `##!n`. -/
theorem C04_separator_free_false :
    ¬ ∀ scope name : Str, scope ≠ [] → name ≠ [] →
      SepFree scope SCOPE_SEPARATOR → SepFree name SCOPE_SEPARATOR →
      scope_split (scope_compose (some scope) (some name)) = [some scope, some name] := by
  intro h
  have := h c!"x!##" c!"n" (by decide) (by decide)
    ((afterLast?_none_iff (by decide)).1 (by decide))
    ((afterLast?_none_iff (by decide)).1 (by decide))
  revert this; decide

/-! Non-vacuity: a resource name and an operation id. -/
example : scope_split (scope_compose (some c!"pet") (some c!"findPetsByStatus"))
    = [some c!"pet", some c!"findPetsByStatus"] :=
  C04_roundtrip _ _ _ _ (by decide) (by decide) (by decide) (by decide)

end Props.C04
