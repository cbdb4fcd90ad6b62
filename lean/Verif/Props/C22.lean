import Verif.Model.Request
import Verif.Proofs.Quote
/-!
# C22: form bodies decode to the submitted fields

The reader is `Spec.formDecode`, written from the form-urlencoded rules.
-/

namespace Props.C22
open Py Utils Io Spec

variable {β δ π : Type}

theorem pieces_eq_splitChar (c : Char) (s : Str) : pieces c s = splitChar c s := by
  induction s with
  | nil => rfl
  | cons x xs ih =>
    simp only [pieces, splitChar, ih]
    by_cases h : x = c
    · simp [h]
    · simp only [h, if_false]
      cases splitChar c xs <;> rfl

theorem formPair_encoded (k v : Str) :
    formPair (quote_plus k ++ ['='] ++ quote_plus v) = some (k, v) := by
  have hk : ∀ c ∈ quote_plus k, c ≠ '=' := by
    rintro c hc rfl
    exact not_mem_quote_plus (by decide) hc
  have ht : ∀ (a : Str) (b : Str), (∀ c ∈ a, c ≠ '=') →
      (a ++ ['='] ++ b).takeWhile (· ≠ '=') = a ∧
      (a ++ ['='] ++ b).dropWhile (· ≠ '=') = '=' :: b := by
    intro a b ha
    induction a with
    | nil => simp
    | cons x a ih =>
      have := ha x (List.mem_cons_self ..)
      have ih := ih (fun c hc => ha c (List.mem_cons_of_mem _ hc))
      simp [this] at ih ⊢
      exact ih
  obtain ⟨h1, h2⟩ := ht _ (quote_plus v) hk
  unfold formPair
  rw [h1, h2]
  simp only [List.drop_succ_cons, List.drop_zero, percentDecode_quote_plus]
  simp [utf8Decode_utf8]

theorem formDecode_urlencode (l : List (Str × Str)) : formDecode (urlencode l) = some l := by
  cases l with
  | nil => rfl
  | cons kv l =>
    have hne : urlencode (kv :: l) ≠ [] := by
      unfold urlencode
      cases l with
      | nil => simp [join]
      | cons _ _ => simp [join]
    unfold formDecode
    rw [if_neg hne, pieces_eq_splitChar, urlencode, splitChar_join]
    · have : ∀ l : List (Str × Str),
          (l.map (fun kv => quote_plus kv.1 ++ ['='] ++ quote_plus kv.2)).mapM formPair = some l := by
        intro l
        induction l with
        | nil => rfl
        | cons x l ih => rw [List.map_cons, List.mapM_cons, formPair_encoded, ih]; rfl
      exact this _
    · simp
    · intro x hx
      obtain ⟨kv', _, rfl⟩ := List.mem_map.1 hx
      simp only [List.append_assoc, List.mem_append, List.mem_singleton, not_or]
      refine ⟨not_mem_quote_plus (by decide), by decide, not_mem_quote_plus (by decide)⟩

/-- **C22**. If the operation accepts form bodies, the payload built for form fields is read back
as exactly the submitted fields, in order, and is announced as `application/x-www-form-urlencoded`;
otherwise `SchemaError` is raised. -/
theorem C22_roundtrip (op : Op δ) (p : Params β) :
    (op.consumes = [] ∨ formType ∈ op.consumes →
      ∃ body, prepareForms op p = .ok (c!"application/x-www-form-urlencoded", body) ∧
        formDecode body = some p.formData) ∧
    (¬ (op.consumes = [] ∨ formType ∈ op.consumes) → prepareForms op p = .error .SchemaError) := by
  constructor
  · intro h
    refine ⟨urlencode p.formData, ?_, formDecode_urlencode _⟩
    unfold prepareForms
    rw [if_neg]
    · rfl
    · rintro ⟨h1, h2⟩; rcases h with h | h
      · exact h1 h
      · exact h2 h
  · intro h
    unfold prepareForms
    rw [if_pos]
    exact ⟨fun e => h (Or.inl e), fun e => h (Or.inr e)⟩

/-- **C22** (in a prepared request). A request with form fields and no files carries exactly such
a payload. -/
theorem C22_prepared (env : Env β δ π) (op : Op δ) (p : Params β) (consume : Option Str) (hf : Bool)
    (ct : Option Str) (d : Data π) (fs)
    (hfile : p.file = []) (hform : p.formData ≠ [])
    (h : prepareData env op p consume hf = .ok (ct, d, fs)) :
    ct = some formType ∧ ∃ body, d = .text body ∧ formDecode body = some p.formData := by
  unfold prepareData at h
  rw [if_neg (by simp [hfile]), if_pos hform] at h
  unfold prepareForms at h
  split at h
  · cases h
  · rename_i h1
    split at h1
    · cases h1
    · cases h1; cases h
      exact ⟨rfl, _, rfl, formDecode_urlencode _⟩

/-- **C22** (no collisions). Different field lists have different bodies. -/
theorem C22_injective {l m : List (Str × Str)} (h : urlencode l = urlencode m) : l = m := by
  have h1 := formDecode_urlencode l
  rw [h, formDecode_urlencode] at h1
  exact (Option.some.inj h1).symm

/-! Non-vacuity: separators and non-ASCII text in names and values. -/
example : urlencode [(c!"a&b", c!"x=y z"), (c!"é", c!"")] = c!"a%26b=x%3Dy+z&%C3%A9=" := by
  decide +kernel
example : formDecode c!"a%26b=x%3Dy+z&%C3%A9=" = some [(c!"a&b", c!"x=y z"), (c!"é", c!"")] := by
  decide +kernel

end Props.C22
