import Verif.Proofs.Request
/-!
# C25: the scheme used is one both client and operation support

`before a b`: `a` comes before `b` in Python's string order (lexicographic by code point).
-/

namespace Props.C25
open Py Utils Io Core

variable {β δ π : Type}

/-- Python's `a < b` on strings. -/
def before (a b : Str) : Prop := List.Lex (fun x y : Char => x.toNat < y.toNat) a b

theorem strLe_iff (a b : Str) : strLe a b = true ↔ a = b ∨ before a b := by
  induction a generalizing b with
  | nil =>
    cases b with
    | nil => simp [strLe]
    | cons y t => simp [strLe, before]
  | cons x s ih =>
    cases b with
    | nil =>
      simp only [strLe, before, Bool.false_eq_true, false_iff, not_or]
      exact ⟨by simp, fun h => by cases h⟩
    | cons y t =>
      simp only [strLe]
      by_cases e : x = y
      · subst e
        simp only [if_true, ih]
        constructor
        · rintro (h | h)
          · exact Or.inl (by rw [h])
          · exact Or.inr (List.Lex.cons h)
        · rintro (h | h)
          · left; injection h
          · cases h with
            | cons h => exact Or.inr h
            | rel h => exact absurd h (Nat.lt_irrefl _)
      · simp only [e, if_false, decide_eq_true_eq]
        constructor
        · intro h; exact Or.inr (List.Lex.rel h)
        · rintro (h | h)
          · injection h with h _; exact absurd h e
          · cases h with
            | cons h => exact absurd rfl e
            | rel h => exact h

theorem strLe_refl (a : Str) : strLe a a = true := (strLe_iff a a).2 (Or.inl rfl)

theorem toNat_inj {x y : Char} (h : x.toNat = y.toNat) : x = y := Char.toNat_inj.1 h

theorem strLe_total (a b : Str) : strLe a b = true ∨ strLe b a = true := by
  induction a generalizing b with
  | nil => exact Or.inl rfl
  | cons x s ih =>
    cases b with
    | nil => exact Or.inr rfl
    | cons y t =>
      simp only [strLe]
      by_cases e : x = y
      · subst e; simpa using ih t
      · have e' : ¬ y = x := fun h => e h.symm
        simp only [e, e', if_false, decide_eq_true_eq]
        have : x.toNat ≠ y.toNat := fun h => e (toNat_inj h)
        omega

theorem strLe_trans {a b c : Str} (h1 : strLe a b = true) (h2 : strLe b c = true) :
    strLe a c = true := by
  induction a generalizing b c with
  | nil => rfl
  | cons x s ih =>
    cases b with
    | nil => simp [strLe] at h1
    | cons y t =>
      cases c with
      | nil => simp [strLe] at h2
      | cons z u =>
        simp only [strLe] at *
        by_cases e1 : x = y
        · subst e1
          by_cases e2 : x = z
          · subst e2; simp only [if_true] at *; exact ih h1 h2
          · simp only [e2, if_false] at *; exact h2
        · simp only [e1, if_false, decide_eq_true_eq] at h1
          by_cases e2 : y = z
          · subst e2; simp only [e1, if_false, decide_eq_true_eq]; exact h1
          · simp only [e2, if_false, decide_eq_true_eq] at h2
            have : ¬ x = z := by intro e; subst e; omega
            simp only [this, if_false, decide_eq_true_eq]; omega

theorem mem_insertDesc (x y : Str) (l : List Str) : y ∈ insertDesc strLe x l ↔ y = x ∨ y ∈ l := by
  induction l with
  | nil => simp [insertDesc]
  | cons z l ih =>
    simp only [insertDesc]
    split
    · simp only [List.mem_cons, ih]; grind
    · simp

theorem mem_sortDesc (y : Str) (l : List Str) : y ∈ sortDesc strLe l ↔ y ∈ l := by
  induction l with
  | nil => simp [sortDesc]
  | cons x l ih =>
    have : sortDesc strLe (x :: l) = insertDesc strLe x (sortDesc strLe l) := rfl
    rw [this, mem_insertDesc, ih, List.mem_cons]

theorem pairwise_insertDesc (x : Str) (l : List Str) (h : l.Pairwise (fun a b => strLe b a = true)) :
    (insertDesc strLe x l).Pairwise (fun a b => strLe b a = true) := by
  induction l with
  | nil => simp [insertDesc]
  | cons z l ih =>
    simp only [insertDesc]
    rw [List.pairwise_cons] at h
    by_cases hz : strLe x z = true
    · simp only [hz, if_true, List.pairwise_cons]
      refine ⟨?_, ih h.2⟩
      intro b hb
      rcases (mem_insertDesc x b l).1 hb with rfl | hb
      · exact hz
      · exact h.1 b hb
    · rw [if_neg hz, List.pairwise_cons, List.pairwise_cons]
      have hzx : strLe z x = true := (strLe_total x z).resolve_left hz
      refine ⟨?_, ?_, h.2⟩
      · intro b hb
        rcases List.mem_cons.1 hb with rfl | hb
        · exact hzx
        · exact strLe_trans (h.1 b hb) hzx
      · exact h.1

theorem pairwise_sortDesc (l : List Str) :
    (sortDesc strLe l).Pairwise (fun a b => strLe b a = true) := by
  induction l with
  | nil => exact List.Pairwise.nil
  | cons x l ih => exact pairwise_insertDesc x _ ih

theorem mem_dedup (x : Str) (l : List Str) : x ∈ dedup l ↔ x ∈ l := by
  induction l with
  | nil => simp [dedup]
  | cons y l ih =>
    simp only [dedup]
    split
    · rw [ih, List.mem_cons]
      constructor
      · exact Or.inr
      · rintro (rfl | h)
        · assumption
        · exact h
    · simp [ih]

/-- **C25** (candidates). `prepare_schemes` returns exactly the schemes both sides support, and
raises `ValueError` exactly when there are none. -/
theorem C25_candidates (client schemes : List Str) :
    match prepareSchemes client schemes with
    | .ok l => l ≠ [] ∧ (∀ s, s ∈ l ↔ s ∈ client ∧ s ∈ schemes) ∧
        l.Pairwise (fun a b => b = a ∨ before b a)
    | .error e => e = .ValueError ∧ ∀ s, ¬ (s ∈ client ∧ s ∈ schemes) := by
  have hm : ∀ s, s ∈ sortDesc strLe (dedup (client.filter (fun s => s ∈ schemes))) ↔
      s ∈ client ∧ s ∈ schemes := by
    intro s; rw [mem_sortDesc, mem_dedup]; simp
  simp only [prepareSchemes]
  by_cases h : sortDesc strLe (dedup (client.filter (fun s => s ∈ schemes))) = []
  · rw [if_pos h]
    refine ⟨rfl, fun s hs => ?_⟩
    rw [← hm, h] at hs; cases hs
  · rw [if_neg h]
    refine ⟨h, hm, ?_⟩
    exact (pairwise_sortDesc _).imp (fun {a b} hab => (strLe_iff b a).1 hab)

/-- **C25** (choice). The scheme chosen by a client is, when the request prefers one, exactly
that one, and it is supported by both sides; otherwise it is the smallest supported by both. -/
theorem C25_choice (client schemes l : List Str) (preferred : Option Str) (s : Str)
    (hl : prepareSchemes client schemes = .ok l) (h : chooseScheme preferred (.list l) = .ok s) :
    (s ∈ client ∧ s ∈ schemes) ∧
    (∀ p, preferred = some p → s = p) ∧
    (preferred = none → ∀ t, t ∈ client → t ∈ schemes → t = s ∨ before s t) := by
  have hc := C25_candidates client schemes
  rw [hl] at hc
  obtain ⟨hne, hm, hp⟩ := hc
  cases preferred with
  | some p =>
    simp only [chooseScheme] at h
    by_cases hp' : p ∈ l
    · rw [if_pos hp'] at h; cases h
      exact ⟨(hm _).1 hp', fun q hq => (by cases hq; rfl), fun hn => (by cases hn)⟩
    · rw [if_neg hp'] at h; cases h
  | none =>
    simp only [chooseScheme] at h
    cases hg : l.getLast? with
    | none => rw [hg] at h; cases h
    | some x =>
      rw [hg] at h; cases h
      obtain ⟨l0, rfl⟩ := List.getLast?_eq_some_iff.1 hg
      refine ⟨(hm s).1 (by simp), fun q hq => (by cases hq), fun _ t h1 h2 => ?_⟩
      have ht := (hm t).2 ⟨h1, h2⟩
      rw [List.mem_append, List.mem_singleton] at ht
      rcases ht with ht | ht
      · have hb := (List.pairwise_append.1 hp).2.2 t ht s (by simp)
        rcases hb with hb | hb
        · exact Or.inl hb.symm
        · exact Or.inr hb
      · exact Or.inl ht

/-- **C25** (failure). With at least one common scheme, choosing fails exactly when the request
prefers a scheme one side does not support; the exception is a plain `Exception`. -/
theorem C25_failure (client schemes l : List Str) (preferred : Option Str) (e : Exc)
    (hl : prepareSchemes client schemes = .ok l) :
    chooseScheme preferred (.list l) = .error e ↔
      e = .Exception ∧ ∃ p, preferred = some p ∧ ¬ (p ∈ client ∧ p ∈ schemes) := by
  have hc := C25_candidates client schemes
  rw [hl] at hc
  obtain ⟨hne, hm, hp⟩ := hc
  cases preferred with
  | some p =>
    simp only [chooseScheme]
    by_cases hp' : p ∈ l
    · rw [if_pos hp']
      constructor
      · intro h; cases h
      · rintro ⟨_, q, hq, hn⟩; cases hq; exact absurd ((hm p).1 hp') hn
    · rw [if_neg hp']
      constructor
      · intro h; cases h; exact ⟨rfl, p, rfl, fun hn => hp' ((hm p).2 hn)⟩
      · rintro ⟨rfl, _⟩; rfl
  | none =>
    simp only [chooseScheme]
    cases hg : l.getLast? with
    | none => exact absurd (List.getLast?_eq_none_iff.1 hg) hne
    | some x =>
      constructor
      · intro h; cases h
      · rintro ⟨_, q, hq, _⟩; cases hq

/-- **C25** (URL). The URL of the prepared request starts with that scheme and a colon. -/
theorem C25_url (env : Env β δ π) (op : Op δ) (sch : SchemeArg) (hf : Bool) (r r' : Req β π)
    (h : prepare env op sch hf r = .ok r') :
    ∃ s rest, chooseScheme r.scheme sch = .ok s ∧ r'.url = s ++ ':' :: rest := by
  obtain ⟨s, path, url, ct, data, files, acc, hs, _, _, _, _, rfl⟩ := prepare_ok.1 h
  exact ⟨s, url, hs, by simp⟩

example : prepareSchemes [c!"http", c!"https"] [c!"ws", c!"https", c!"http"] =
  .ok [c!"https", c!"http"] := by decide
example : chooseScheme none (.list [c!"https", c!"http"]) = .ok c!"http" := by decide
example : chooseScheme (some c!"https") (.list [c!"https", c!"http"]) = .ok c!"https" := by decide
example : chooseScheme (some c!"ws") (.list [c!"https", c!"http"]) = .error .Exception := by decide
example : prepareSchemes [c!"http"] [c!"wss"] = .error .ValueError := by decide
example : before c!"http" c!"https" := ((strLe_iff c!"http" c!"https").1 (by decide)).resolve_left (by decide)

end Props.C25
