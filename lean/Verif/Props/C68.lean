import Verif.Props.C03
import Verif.Props.C04
import Verif.Model.Patch
/-!
# C68: a schema of `#/definitions` is named after its key

The name is what XML bodies and discriminators go by. What holds in a 2.0 document: every schema at or
below a definition is named after the last token of its place, so a definition after its key; nothing
else gets a name. In a 1.2 document the part of the key after the last separator is taken, which is the
name of the model when the separator is the default one; with another one it is not.
-/

namespace Props.C68
open Py Utils Tree Spec Spec.Places Patch Scan

/-- a field of a document: `definitions`, or one that does not begin like it -/
def RootField (t : Str) : Prop := t = c!"definitions" ∨ ¬ c!"definitions" <+: t

theorem prefix_escape {k : Str} (h1 : '~' ∉ k) (h2 : '/' ∉ k) (t : Str) {rest : Str}
    (hr : rest = [] ∨ rest.head? = some '/') : k <+: rfcEscape t ++ rest ↔ k <+: t := by
  induction k generalizing t with
  | nil => simp
  | cons c k ih =>
    have hc1 : c ≠ '~' := fun e => h1 (by simp [e])
    have hc2 : c ≠ '/' := fun e => h2 (by simp [e])
    have ih := ih (fun h => h1 (by simp [h])) (fun h => h2 (by simp [h]))
    cases t with
    | nil =>
      rcases hr with rfl | hr
      · simp [rfcEscape]
      · cases rest with
        | nil => simp [rfcEscape]
        | cons x rest =>
          simp only [List.head?_cons, Option.some.injEq] at hr
          subst hr
          simp [rfcEscape, hc2]
    | cons x t =>
      by_cases hx1 : x = '~'
      · subst hx1; simp [rfcEscape, hc1]
      · by_cases hx2 : x = '/'
        · subst hx2; simp [rfcEscape, hc1, hc2]
        · have : rfcEscape (x :: t) = x :: rfcEscape t := by
            rw [rfcEscape] <;> simp [hx1, hx2]
          rw [this, List.cons_append, List.cons_prefix_cons, List.cons_prefix_cons, ih t]

theorem last_pointer (t : Str) (ts : List Str) : lastToken (pointer (t :: ts)) = (t :: ts).getLast (by simp) := by
  unfold lastToken
  rw [Proofs.ScanTree.split_pointer, List.getLast?_cons_cons, List.getLast?_eq_some_getLast (by simp)]
  rfl

theorem starts_pointer {t : Str} (ts : List Str) (h : RootField t) :
    startsWith (pointer (t :: ts)) c!"#/definitions" = true ↔ t = c!"definitions" := by
  have e : pointer (t :: ts) = '#' :: '/' :: (rfcEscape t ++ ts.flatMap fun t => '/' :: rfcEscape t) := by
    simp [pointer]
  have hrest : (ts.flatMap fun t => '/' :: rfcEscape t) = [] ∨
      (ts.flatMap fun t => '/' :: rfcEscape t).head? = some '/' := by
    cases ts <;> simp
  have : startsWith (pointer (t :: ts)) c!"#/definitions" = true ↔ c!"definitions" <+: t := by
    rw [← prefix_escape (by decide) (by decide) t hrest, e]
    simp only [startsWith, List.isPrefixOf_iff_prefix, List.cons_prefix_cons, true_and]
  rw [this]
  rcases h with rfl | h
  · simp
  · refine ⟨fun h' => absurd h' h, ?_⟩
    rintro rfl
    exact List.prefix_refl _

/-- In a 2.0 document a schema at or below a definition is named after the last token of its place. -/
theorem C68_named (n : Str) (ts : List Str) :
    schemaName false (pointer (c!"definitions" :: n :: ts)) = some ((n :: ts).getLast (by simp)) := by
  have h := (starts_pointer (n :: ts) (Or.inl rfl : RootField c!"definitions")).2 rfl
  unfold schemaName
  rw [if_pos h, last_pointer]
  simp

/-- Schemas elsewhere get no name, whichever the version. -/
theorem C68_unnamed (v : Bool) {t : Str} (ts : List Str) (ht : RootField t) (hn : t ≠ c!"definitions") :
    schemaName v (pointer (t :: ts)) = none := by
  unfold schemaName
  rw [if_neg]
  rw [starts_pointer ts ht]
  exact hn

/-- The names given by a scan of a document: to each visited schema, by its place. -/
theorem C68_scan (root : Tree) (leaves : List Nat) (hw : WF root) (hr : isObj root = true)
    {c : Nat} {fs : List (Str × Tree)} (hroot : root = .obj c fs) (hf : ∀ kv ∈ fs, RootField kv.1)
    {p : Str} {o : Tree} (h : (p, o) ∈ traversal root leaves) (hne : o ≠ root) :
    ∃ ts : List Str, At leaves root ts o ∧
      ((∃ rest, ts = c!"definitions" :: rest ∧ schemaName false p = ts.getLast?) ∨
        (ts.head? ≠ some c!"definitions" ∧ schemaName false p = none)) := by
  obtain ⟨_, ts, rfl, hat⟩ := (Props.C03.C03_visited root leaves hw hr p o).1 h
  refine ⟨ts, hat, ?_⟩
  cases ts with
  | nil => cases hat; exact absurd rfl hne
  | cons t rest =>
    have ht : RootField t := by
      rw [hroot] at hat
      cases hat with
      | field _ _ _ v _ _ _ hm _ => exact hf _ hm
    by_cases hd : t = c!"definitions"
    · subst hd
      refine Or.inl ⟨rest, rfl, ?_⟩
      unfold schemaName
      rw [if_pos ((starts_pointer rest (Or.inl rfl : RootField c!"definitions")).2 rfl), last_pointer,
        List.getLast?_eq_some_getLast (List.cons_ne_nil _ _)]
      rfl
    · exact Or.inr ⟨by simpa using hd, C68_unnamed false rest ht hd⟩

/-- In a 1.2 document a model of a resource is named after its own name, when the names do not
interact with the separator (C04). -/
theorem C68_upgraded {scope name : Str} (h1 : scope ≠ []) (h2 : name ≠ [])
    (hs : Props.C04.NoEarlySep scope SCOPE_SEPARATOR) (hn : Props.C04.SepFree name SCOPE_SEPARATOR) {key : Str}
    (hk : scope_compose (some scope) (some name) = some key) :
    schemaName true (pointer [c!"definitions", key]) = some name := by
  have h := (starts_pointer [key] (Or.inl rfl : RootField c!"definitions")).2 rfl
  have hr := (Props.C04.C04_roundtrip_iff scope name SCOPE_SEPARATOR h1 h2 (by decide)).2 ⟨hs, hn⟩
  unfold schemaName
  rw [if_pos h, last_pointer, if_pos rfl]
  simp only [List.getLast_cons_cons, List.getLast_singleton]
  rw [← hk, hr]
  rfl

/-- With another separator (`App.load(…, sep=…)`) the name is the whole key. -/
theorem C68_separator_false : ∃ sep scope name key : Str,
    scope_compose (some scope) (some name) sep = some key ∧
    schemaName true (pointer [c!"definitions", key]) = some key ∧ key ≠ name :=
  ⟨c!"::", c!"pet", c!"Pet", c!"pet::Pet", by decide, by decide, by decide⟩

/-- A property of a definition is named, too: after the property. -/
theorem C68_nested_false : schemaName false (pointer [c!"definitions", c!"Pet", c!"properties", c!"id"]) = some c!"id" := by
  decide

/-! ## Cases -/

example : schemaName false (pointer [c!"definitions", c!"a/b~c"]) = some c!"a/b~c" := by decide
example : schemaName false (pointer [c!"paths", c!"/definitions"]) = none := by decide
example : schemaName true (pointer [c!"definitions", c!"pet!##!Pet"]) = some c!"Pet" := by decide
/-- the fields of a 2.0 document -/
example : ∀ t ∈ [c!"swagger", c!"info", c!"paths", c!"definitions", c!"parameters", c!"responses",
    c!"securityDefinitions", c!"security", c!"tags", c!"externalDocs", c!"host", c!"basePath", c!"schemes",
    c!"consumes", c!"produces"], RootField t := by
  unfold RootField
  decide

end Props.C68
