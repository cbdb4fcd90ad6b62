import Verif.Model.Validate12
import Verif.Spec.Rules12
import Verif.Props.C03
/-! # Helper lemmas for the rules of 1.2 documents (C60) -/

namespace Proofs.Validate12
open Py Utils Tree Scan Validate _root_.Validate12 Spec.Places Spec.Rules12

/-! ## fields -/

section
variable {c : Nat} {fs : List (Str × Tree)} {n : Str} {v : Tree}

theorem has_iff (h : Dict.get? fs n = some v) (w : Tree) : Has (.obj c fs) n w ↔ w = v := by
  constructor
  · rintro ⟨_, _, e, h'⟩
    cases e
    rw [h] at h'
    exact (Option.some.inj h').symm
  · rintro rfl
    exact ⟨c, fs, rfl, h⟩

theorem says_iff (h : Dict.get? fs n = some v) (s : Str) : Says (.obj c fs) n s ↔ isText v s = true := by
  unfold Says
  rw [has_iff h]
  unfold isText
  split
  · next w =>
    constructor
    · intro e; cases e; simp
    · intro e; rw [beq_iff_eq.1 e]
  · next hx => simp only [Bool.false_eq_true, iff_false]; exact fun e => hx _ e.symm

theorem missing_iff (h : Dict.get? fs n = some v) : Missing (.obj c fs) n ↔ Validate12.isNone v = true := by
  unfold Missing
  rw [has_iff h]
  unfold Validate12.isNone
  split
  · simp
  · next hx => simp; exact fun e => hx e.symm

theorem truth_empty (v : Tree) : truth v = false ↔ Empty v := by
  constructor
  · intro h
    cases v with
    | atom a =>
      cases a with
      | none => exact .none
      | bool b => simp [truth] at h; subst h; exact .false
      | int n => simp [truth] at h; subst h; exact .zero
      | float x => simp [truth] at h; subst h; exact .float
      | str s => simp [truth] at h; subst h; exact .text
    | list l => cases l with
      | nil => exact .list
      | cons _ _ => simp [truth] at h
    | dict d => cases d with
      | nil => exact .dict
      | cons _ _ => simp [truth] at h
    | obj _ _ => simp [truth] at h
  · intro h
    cases h <;> simp [truth]

theorem blank_iff (h : Dict.get? fs n = some v) : Blank (.obj c fs) n ↔ truth v = false := by
  rw [truth_empty]
  constructor
  · rintro ⟨w, hw, he⟩
    rw [(has_iff h w).1 hw] at he
    exact he
  · intro he
    exact ⟨v, (has_iff h v).2 rfl, he⟩

theorem field_ok (h : Dict.get? fs n = some v) : field (.obj c fs) n = .ok v := by
  simp [field, h]

end

theorem mem_when {b : Bool} {m x : Str} : x ∈ when b m ↔ b = true ∧ x = m := by
  unfold when
  cases b <;> simp

theorem reads_format {str : Tree → Str} {v : Tree} {w : Str} : Reads str v w ↔ w = format str v := by
  unfold format
  split
  · constructor
    · intro h
      cases h with
      | text => rfl
      | other _ h => exact absurd rfl (h _)
    · rintro rfl; exact .text _
  · next t hx =>
    constructor
    · intro h
      cases h with
      | text => exact absurd rfl (hx _)
      | other => rfl
    · rintro rfl; exact .other _ hx

theorem when_sub (b : Bool) (m : Str) : (when b m).Sublist [m] := by
  cases b <;> simp [when]

/-! ## handlers -/

section
variable {c : Nat} {fs : List (Str × Tree)} (raw : Tree) (op : Option Tree)

theorem data_ok (h : ∀ n ∈ [c!"type", c!"$ref", c!"items", c!"uniqueItems"], (Dict.get? fs n).isSome = true) :
    ∃ ms, validateData raw op (.obj c fs) = .ok ms ∧
      ms.Sublist [c!"type or $ref should be existed.", c!"array should be existed along with items",
        c!"uniqueItems is only used for array type."] ∧
      ∀ m, m ∈ ms ↔
        (Missing (.obj c fs) c!"type" ∧ Missing (.obj c fs) c!"$ref" ∧ m = c!"type or $ref should be existed.") ∨
        (¬ (Says (.obj c fs) c!"type" c!"array" ↔ ¬ Missing (.obj c fs) c!"items") ∧
          m = c!"array should be existed along with items") ∨
        (¬ Missing (.obj c fs) c!"uniqueItems" ∧ ¬ Says (.obj c fs) c!"type" c!"array" ∧
          m = c!"uniqueItems is only used for array type.") := by
  obtain ⟨ty, h1⟩ := Option.isSome_iff_exists.1 (h c!"type" (by simp))
  obtain ⟨ref, h2⟩ := Option.isSome_iff_exists.1 (h c!"$ref" (by simp))
  obtain ⟨its, h3⟩ := Option.isSome_iff_exists.1 (h c!"items" (by simp))
  obtain ⟨uni, h4⟩ := Option.isSome_iff_exists.1 (h c!"uniqueItems" (by simp))
  simp only [validateData, field_ok h1, field_ok h2, field_ok h3, field_ok h4, bind, Except.bind]
  refine ⟨_, rfl, ?_, ?_⟩
  · exact ((when_sub _ _).append (when_sub _ _)).append (when_sub _ _)
  · intro m
    rw [says_iff h1, missing_iff h1, missing_iff h2, missing_iff h3, missing_iff h4]
    simp only [List.mem_append, mem_when]
    generalize Validate12.isNone ty = b1
    generalize Validate12.isNone ref = b2
    generalize Validate12.isNone its = b3
    generalize Validate12.isNone uni = b4
    generalize isText ty _ = b5
    cases b1 <;> cases b2 <;> cases b3 <;> cases b4 <;> cases b5 <;> simp [or_assoc]

theorem void_ok (h : (Dict.get? fs c!"type").isSome = true) :
    ∃ ms, validateVoid raw op (.obj c fs) = .ok ms ∧
      ms.Sublist [c!"void is only allowed in Operation object."] ∧
      ∀ m, m ∈ ms ↔ Says (.obj c fs) c!"type" c!"void" ∧ m = c!"void is only allowed in Operation object." := by
  obtain ⟨ty, h1⟩ := Option.isSome_iff_exists.1 h
  simp only [validateVoid, field_ok h1, bind, Except.bind]
  refine ⟨_, rfl, when_sub _ _, fun m => ?_⟩
  rw [says_iff h1, mem_when]

theorem grant_ok (h : ∀ n ∈ [c!"implicit", c!"authorization_code"], (Dict.get? fs n).isSome = true) :
    ∃ ms, validateGrantType raw op (.obj c fs) = .ok ms ∧
      ms.Sublist [c!"Either implicit or authorization_code should be defined."] ∧
      ∀ m, m ∈ ms ↔ Blank (.obj c fs) c!"implicit" ∧ Blank (.obj c fs) c!"authorization_code" ∧
        m = c!"Either implicit or authorization_code should be defined." := by
  obtain ⟨i, h1⟩ := Option.isSome_iff_exists.1 (h c!"implicit" (by simp))
  obtain ⟨a, h2⟩ := Option.isSome_iff_exists.1 (h c!"authorization_code" (by simp))
  simp only [validateGrantType, field_ok h1, field_ok h2, bind, Except.bind]
  refine ⟨_, rfl, when_sub _ _, fun m => ?_⟩
  rw [blank_iff h1, blank_iff h2, mem_when]
  simp [and_assoc]

theorem isText_ne {v : Tree} {s s' : Str} (h : isText v s = true) (hs : s ≠ s') : isText v s' = false := by
  unfold isText at *
  split at h
  · have := beq_iff_eq.1 h
    subst this
    simpa using hs
  · cases h

theorem auth_ok (h : ∀ n ∈ [c!"type", c!"passAs", c!"keyname", c!"grantTypes"], (Dict.get? fs n).isSome = true) :
    ∃ ms, validateAuth raw op (.obj c fs) = .ok ms ∧
      (ms.Sublist [c!"need \"passAs\" for apiKey", c!"need \"keyname\" for apiKey"] ∨
        ms.Sublist [c!"need \"grantTypes\" for oauth2"]) ∧
      ∀ m, m ∈ ms ↔
        (Says (.obj c fs) c!"type" c!"apiKey" ∧ Blank (.obj c fs) c!"passAs" ∧ m = c!"need \"passAs\" for apiKey") ∨
        (Says (.obj c fs) c!"type" c!"apiKey" ∧ Blank (.obj c fs) c!"keyname" ∧ m = c!"need \"keyname\" for apiKey") ∨
        (Says (.obj c fs) c!"type" c!"oauth2" ∧ Blank (.obj c fs) c!"grantTypes" ∧ m = c!"need \"grantTypes\" for oauth2") := by
  obtain ⟨ty, h1⟩ := Option.isSome_iff_exists.1 (h c!"type" (by simp))
  obtain ⟨p, h2⟩ := Option.isSome_iff_exists.1 (h c!"passAs" (by simp))
  obtain ⟨k, h3⟩ := Option.isSome_iff_exists.1 (h c!"keyname" (by simp))
  obtain ⟨g, h4⟩ := Option.isSome_iff_exists.1 (h c!"grantTypes" (by simp))
  simp only [validateAuth, field_ok h1, field_ok h2, field_ok h3, field_ok h4, bind, Except.bind]
  simp only [says_iff h1, blank_iff h2, blank_iff h3, blank_iff h4]
  by_cases ha : isText ty c!"apiKey" = true
  · have hb := isText_ne ha (s' := c!"oauth2") (by decide)
    rw [if_pos ha]
    refine ⟨_, rfl, Or.inl ((when_sub _ _).append (when_sub _ _)), fun m => ?_⟩
    rw [List.mem_append, mem_when, mem_when, ha, hb]
    simp
  · rw [if_neg ha]
    have ha : isText ty c!"apiKey" = false := by simpa using ha
    by_cases hb : isText ty c!"oauth2" = true
    · rw [if_pos hb]
      refine ⟨_, rfl, Or.inr (when_sub _ _), fun m => ?_⟩
      rw [mem_when, ha, hb]
      simp
    · rw [if_neg hb]
      have hb : isText ty c!"oauth2" = false := by simpa using hb
      refine ⟨_, rfl, Or.inl (List.nil_sublist _), fun m => ?_⟩
      rw [ha, hb]
      simp

theorem reqs_ok (rs : List Str) (h : ∀ n ∈ rs, (Dict.get? fs n).isSome = true) :
    ∃ ms, checkReqs rs raw op (.obj c fs) = .ok ms ∧
      ms.Sublist (rs.map fun r => c!"requirement " ++ r ++ c!" not meet.") ∧
      ∀ m, m ∈ ms ↔ ∃ r ∈ rs, Missing (.obj c fs) r ∧ m = c!"requirement " ++ r ++ c!" not meet." := by
  refine ⟨_, rfl, ?_, fun m => ?_⟩
  · clear h
    induction rs with
    | nil => exact List.nil_sublist _
    | cons r rs ih =>
      rw [List.flatMap_cons, List.map_cons]
      exact (when_sub _ _).append ih
  · rw [List.mem_flatMap]
    constructor
    · rintro ⟨r, hr, hm⟩
      obtain ⟨v, hv⟩ := Option.isSome_iff_exists.1 (h r hr)
      rw [mem_when, field_ok hv] at hm
      exact ⟨r, hr, (missing_iff hv).2 hm.1, hm.2⟩
    · rintro ⟨r, hr, hm, rfl⟩
      obtain ⟨v, hv⟩ := Option.isSome_iff_exists.1 (h r hr)
      refine ⟨r, hr, ?_⟩
      rw [mem_when, field_ok hv]
      exact ⟨(missing_iff hv).1 hm, rfl⟩

theorem any_text (l : List Tree) (s : Str) : (l.any fun t => isText t s) = true ↔ .atom (.str s) ∈ l := by
  rw [List.any_eq_true]
  constructor
  · rintro ⟨t, ht, h⟩
    unfold isText at h
    split at h
    · rw [beq_iff_eq.1 h] at ht; exact ht
    · cases h
  · intro h
    exact ⟨_, h, by simp [isText]⟩

variable (str : Tree → Str)

/-- what a parameter called `w` may be told -/
def paramMsgs (w : Str) : List Str :=
  [c!"allowMultiple should be applied on path, header, or query parameters",
   c!"array Type with allowMultiple is not supported.",
   c!"body parameter with invalid name: " ++ w,
   c!"File parameter should be form type: " ++ w,
   c!"File parameter should consume multipart/form-data: " ++ w,
   c!"void is only allowed in Operation object."]

theorem param_ok (h : ∀ n ∈ [c!"allowMultiple", c!"paramType", c!"type", c!"name"], (Dict.get? fs n).isSome = true)
    (hop : Says (.obj c fs) c!"type" c!"File" → ∃ p l, op = some p ∧ Has p c!"consumes" (.list l)) :
    ∃ ms, validateParam str raw op (.obj c fs) = .ok ms ∧ (∃ w, ms.Sublist (paramMsgs w)) ∧
      ∀ m, m ∈ ms ↔
        (¬ Blank (.obj c fs) c!"allowMultiple" ∧ ¬ Says (.obj c fs) c!"paramType" c!"path" ∧
          ¬ Says (.obj c fs) c!"paramType" c!"query" ∧ ¬ Says (.obj c fs) c!"paramType" c!"header" ∧
          m = c!"allowMultiple should be applied on path, header, or query parameters") ∨
        (¬ Blank (.obj c fs) c!"allowMultiple" ∧ Says (.obj c fs) c!"type" c!"array" ∧
          m = c!"array Type with allowMultiple is not supported.") ∨
        (∃ v w, Says (.obj c fs) c!"paramType" c!"body" ∧ Has (.obj c fs) c!"name" v ∧ v ≠ .atom (.str []) ∧
          v ≠ .atom (.str c!"body") ∧ Reads str v w ∧ m = c!"body parameter with invalid name: " ++ w) ∨
        (∃ v w, Says (.obj c fs) c!"type" c!"File" ∧ ¬ Says (.obj c fs) c!"paramType" c!"form" ∧
          Has (.obj c fs) c!"name" v ∧ Reads str v w ∧ m = c!"File parameter should be form type: " ++ w) ∨
        (∃ p l v w, Says (.obj c fs) c!"type" c!"File" ∧ op = some p ∧ Has p c!"consumes" (.list l) ∧
          .atom (.str c!"multipart/form-data") ∉ l ∧ Has (.obj c fs) c!"name" v ∧ Reads str v w ∧
          m = c!"File parameter should consume multipart/form-data: " ++ w) ∨
        (Says (.obj c fs) c!"type" c!"void" ∧ m = c!"void is only allowed in Operation object.") := by
  obtain ⟨al, h1⟩ := Option.isSome_iff_exists.1 (h c!"allowMultiple" (by simp))
  obtain ⟨pty, h2⟩ := Option.isSome_iff_exists.1 (h c!"paramType" (by simp))
  obtain ⟨ty, h3⟩ := Option.isSome_iff_exists.1 (h c!"type" (by simp))
  obtain ⟨name, h4⟩ := Option.isSome_iff_exists.1 (h c!"name" (by simp))
  simp only [says_iff h3, says_iff h2, has_iff h4, blank_iff h1] at hop ⊢
  have e1 : ∀ m, m ∈ when (truth al && !(isText pty c!"path" || isText pty c!"query" || isText pty c!"header"))
      c!"allowMultiple should be applied on path, header, or query parameters" ↔
      ¬ truth al = false ∧ ¬ isText pty c!"path" = true ∧ ¬ isText pty c!"query" = true ∧
        ¬ isText pty c!"header" = true ∧
        m = c!"allowMultiple should be applied on path, header, or query parameters" := by
    intro m
    rw [mem_when]
    simp [and_assoc]
  have e2 : ∀ m, m ∈ when (truth al && isText ty c!"array") c!"array Type with allowMultiple is not supported." ↔
      ¬ truth al = false ∧ isText ty c!"array" = true ∧ m = c!"array Type with allowMultiple is not supported." := by
    intro m
    rw [mem_when]
    simp [and_assoc]
  have hn : ∀ s, isText name s = false ↔ name ≠ .atom (.str s) := by
    intro s
    unfold isText
    split
    · next w => simp
    · next hx => simp; exact hx s
  have e3 : ∀ m, m ∈ when (isText pty c!"body" && !(isText name [] || isText name c!"body"))
      (c!"body parameter with invalid name: " ++ format str name) ↔
      ∃ v w, isText pty c!"body" = true ∧ v = name ∧ v ≠ .atom (.str []) ∧ v ≠ .atom (.str c!"body") ∧
        Reads str v w ∧ m = c!"body parameter with invalid name: " ++ w := by
    intro m
    rw [mem_when]
    simp only [Bool.and_eq_true, Bool.not_eq_true', Bool.or_eq_false_iff, hn]
    constructor
    · rintro ⟨⟨a, b, d⟩, rfl⟩
      exact ⟨name, _, a, rfl, b, d, reads_format.2 rfl, rfl⟩
    · rintro ⟨v, w, a, rfl, b, d, hr, rfl⟩
      rw [reads_format] at hr
      subst hr
      exact ⟨⟨a, b, d⟩, rfl⟩
  have e5 : ∀ m, m ∈ when (isText ty c!"void") c!"void is only allowed in Operation object." ↔
      isText ty c!"void" = true ∧ m = c!"void is only allowed in Operation object." := fun m => mem_when
  by_cases hf : isText ty c!"File" = true
  · obtain ⟨p, l, rfl, hl⟩ := hop hf
    obtain ⟨c', fs', rfl, hl⟩ := hl
    simp only [validateParam, field_ok h1, field_ok h2, field_ok h3, field_ok h4, bind, Except.bind, hf, if_true,
      validateFile, field_ok hl, contains]
    refine ⟨_, rfl, ⟨format str name, ?_⟩, fun m => ?_⟩
    · have := ((((when_sub (truth al && !(isText pty c!"path" || isText pty c!"query" || isText pty c!"header"))
        c!"allowMultiple should be applied on path, header, or query parameters").append
        (when_sub (truth al && isText ty c!"array") c!"array Type with allowMultiple is not supported.")).append
        (when_sub (isText pty c!"body" && !(isText name [] || isText name c!"body"))
          (c!"body parameter with invalid name: " ++ format str name))).append
        ((when_sub (!isText pty c!"form") (c!"File parameter should be form type: " ++ format str name)).append
          (when_sub (!(l.any fun t => isText t c!"multipart/form-data"))
            (c!"File parameter should consume multipart/form-data: " ++ format str name)))).append
        (when_sub (isText ty c!"void") c!"void is only allowed in Operation object.")
      exact this
    · simp only [List.mem_append, e1, e2, e3, e5]
      have e4 : m ∈ when (!isText pty c!"form") (c!"File parameter should be form type: " ++ format str name) ↔
          ∃ v w, ¬ isText pty c!"form" = true ∧ v = name ∧ Reads str v w ∧
            m = c!"File parameter should be form type: " ++ w := by
        rw [mem_when]
        constructor
        · rintro ⟨a, rfl⟩
          exact ⟨name, _, by simpa using a, rfl, reads_format.2 rfl, rfl⟩
        · rintro ⟨v, w, a, rfl, hr, rfl⟩
          rw [reads_format] at hr
          subst hr
          exact ⟨by simpa using a, rfl⟩
      have e6 : m ∈ when (!(l.any fun t => isText t c!"multipart/form-data"))
            (c!"File parameter should consume multipart/form-data: " ++ format str name) ↔
          ∃ p l' v w, some (Tree.obj c' fs') = some p ∧ Has p c!"consumes" (.list l') ∧
            .atom (.str c!"multipart/form-data") ∉ l' ∧ v = name ∧ Reads str v w ∧
            m = c!"File parameter should consume multipart/form-data: " ++ w := by
        rw [mem_when]
        constructor
        · rintro ⟨a, rfl⟩
          refine ⟨_, l, name, _, rfl, ⟨_, _, rfl, hl⟩, ?_, rfl, reads_format.2 rfl, rfl⟩
          rw [← any_text]
          simpa using a
        · rintro ⟨p, l', v, w, e, hl', a, rfl, hr, rfl⟩
          cases e
          have := (has_iff hl _).1 hl'
          cases this
          rw [reads_format] at hr
          subst hr
          rw [← any_text] at a
          exact ⟨by simpa using a, rfl⟩
      rw [e4, e6]
      simp only [hf, true_and, or_assoc]
  · have hf : isText ty c!"File" = false := by simpa using hf
    simp only [validateParam, field_ok h1, field_ok h2, field_ok h3, field_ok h4, bind, Except.bind, hf,
      Bool.false_eq_true, if_false]
    refine ⟨_, rfl, ⟨format str name, ?_⟩, fun m => ?_⟩
    · have := ((((when_sub (truth al && !(isText pty c!"path" || isText pty c!"query" || isText pty c!"header"))
        c!"allowMultiple should be applied on path, header, or query parameters").append
        (when_sub (truth al && isText ty c!"array") c!"array Type with allowMultiple is not supported.")).append
        (when_sub (isText pty c!"body" && !(isText name [] || isText name c!"body"))
          (c!"body parameter with invalid name: " ++ format str name))).append
        (List.nil_sublist [c!"File parameter should be form type: " ++ format str name,
          c!"File parameter should consume multipart/form-data: " ++ format str name])).append
        (when_sub (isText ty c!"void") c!"void is only allowed in Operation object.")
      exact this
    · simp only [List.mem_append, e1, e2, e3, e5]
      simp [or_assoc]

theorem param_error (h : ∀ n ∈ [c!"allowMultiple", c!"paramType", c!"type", c!"name"], (Dict.get? fs n).isSome = true)
    (hf : Says (.obj c fs) c!"type" c!"File") {p : Tree} (hp : op = some p) (hm : Missing p c!"consumes") :
    validateParam str raw op (.obj c fs) = .error .TypeError := by
  obtain ⟨al, h1⟩ := Option.isSome_iff_exists.1 (h c!"allowMultiple" (by simp))
  obtain ⟨pty, h2⟩ := Option.isSome_iff_exists.1 (h c!"paramType" (by simp))
  obtain ⟨ty, h3⟩ := Option.isSome_iff_exists.1 (h c!"type" (by simp))
  obtain ⟨name, h4⟩ := Option.isSome_iff_exists.1 (h c!"name" (by simp))
  rw [says_iff h3] at hf
  subst hp
  obtain ⟨c', fs', rfl, hl⟩ := hm
  simp only [validateParam, field_ok h1, field_ok h2, field_ok h3, field_ok h4, bind, Except.bind, hf, if_true,
    validateFile, field_ok hl, contains]

/-! ## authorisations -/

theorem auths_ok {known : Dict Str Tree} (hk : ∀ k a, (k, a) ∈ known → ∃ v, Has a c!"type" v) :
    ∀ used : List (Str × Tree), (∀ k v, (k, v) ∈ used → k ∈ Dict.keys known) →
    ∃ ms, auths known used = .ok ms ∧
      ms.Sublist ((Dict.keys used).map fun k => c!"auth " ++ k ++ c!" should be an empty list") ∧
      ((Dict.keys known).Nodup → ∀ m, m ∈ ms ↔ ∃ k v a ty, (k, v) ∈ used ∧ v ≠ .list [] ∧ (k, a) ∈ known ∧
        Says a c!"type" ty ∧ ty ∈ [c!"basicAuth", c!"apiKey"] ∧ m = c!"auth " ++ k ++ c!" should be an empty list")
  | [], _ => ⟨[], rfl, List.nil_sublist _, fun _ m => by simp⟩
  | (k, v) :: used, h => by
    obtain ⟨ms, h1, h2, h3⟩ := auths_ok hk used fun k v hm => h k v (by simp [hm])
    have hin := h k v (by simp)
    cases hg : Dict.get? known k with
    | none => exact absurd hin ((Dict.get?_eq_none_iff _ _).1 hg)
    | some a =>
      obtain ⟨tv, ct, fa, rfl, hty⟩ := hk k a (Dict.mem_of_get? hg)
      rw [auths]
      simp only [item, hg, bind, Except.bind, field_ok hty, h1]
      refine ⟨_, rfl, ?_, fun hnd m => ?_⟩
      · simp only [Option.isNone_some, when, Bool.false_eq_true, if_false, List.nil_append]
        rw [Dict.keys, List.map_cons, List.map_cons]
        exact (when_sub _ _).append h2
      · have hv : isNil v = true ↔ v = .list [] := by
          unfold isNil
          split
          · next l => cases l <;> simp
          · next hx => simp; exact hx []
        simp only [Option.isNone_some, List.mem_append, h3 hnd m, mem_when, Bool.false_eq_true, false_and, false_or,
          List.mem_cons, Prod.mk.injEq]
        constructor
        · rintro (⟨hb, rfl⟩ | ⟨k', v', a, ty, hm, hr⟩)
          · rw [Bool.and_eq_true, Bool.or_eq_true, Bool.not_eq_true', Bool.eq_false_iff, ne_eq, hv] at hb
            rcases hb with ⟨hb | hb, hne⟩
            · exact ⟨k, v, _, c!"basicAuth", Or.inl ⟨rfl, rfl⟩, hne, Dict.mem_of_get? hg,
                (says_iff hty _).2 hb, by simp, rfl⟩
            · exact ⟨k, v, _, c!"apiKey", Or.inl ⟨rfl, rfl⟩, hne, Dict.mem_of_get? hg,
                (says_iff hty _).2 hb, by simp, rfl⟩
          · exact ⟨k', v', a, ty, Or.inr hm, hr⟩
        · rintro ⟨k', v', a, ty, ⟨rfl, rfl⟩ | hm, hne, ha, hs, ht, rfl⟩
          · left
            have := Dict.get?_of_mem hnd ha
            rw [hg] at this
            cases this
            rw [says_iff hty] at hs
            refine ⟨?_, rfl⟩
            rw [Bool.and_eq_true, Bool.or_eq_true, Bool.not_eq_true', Bool.eq_false_iff, ne_eq, hv]
            refine ⟨?_, hne⟩
            simp only [List.not_mem_nil, or_false] at ht
            rcases ht with rfl | rfl
            · exact Or.inl hs
            · exact Or.inr hs
          · exact Or.inr ⟨k', v', a, ty, hm, hne, ha, hs, by simpa using ht, rfl⟩

theorem auths_error {known : Dict Str Tree} (hk : ∀ k a, (k, a) ∈ known → ∃ v, Has a c!"type" v) :
    ∀ used : List (Str × Tree), (∃ k v, (k, v) ∈ used ∧ k ∉ Dict.keys known) → auths known used = .error .KeyError
  | [], h => by obtain ⟨_, _, h, _⟩ := h; cases h
  | (k, v) :: used, h => by
    rw [auths]
    cases hg : Dict.get? known k with
    | none => simp only [item, hg, bind, Except.bind]
    | some a =>
      obtain ⟨tv, ct, fa, rfl, hty⟩ := hk k a (Dict.mem_of_get? hg)
      have ih : auths known used = .error .KeyError := by
        apply auths_error hk used
        obtain ⟨k', v', hm, hn⟩ := h
        rcases List.mem_cons.1 hm with e | hm
        · cases e
          rw [(Dict.get?_eq_none_iff _ _).2 hn] at hg
          cases hg
        · exact ⟨k', v', hm, hn⟩
      simp only [item, hg, bind, Except.bind, field_ok hty, ih]

end

/-! ## one object -/

section
variable (str : Tree → Str) (raw : Tree) (own : Tree → Prop) (o : Tree)

def DataP (m : Str) : Prop :=
  (Missing o c!"type" ∧ Missing o c!"$ref" ∧ m = c!"type or $ref should be existed.") ∨
  (¬ (Says o c!"type" c!"array" ↔ ¬ Missing o c!"items") ∧ m = c!"array should be existed along with items") ∨
  (¬ Missing o c!"uniqueItems" ∧ ¬ Says o c!"type" c!"array" ∧ m = c!"uniqueItems is only used for array type.")

def VoidP (m : Str) : Prop := Says o c!"type" c!"void" ∧ m = c!"void is only allowed in Operation object."

def ParamP (m : Str) : Prop :=
  (¬ Blank o c!"allowMultiple" ∧ ¬ Says o c!"paramType" c!"path" ∧
    ¬ Says o c!"paramType" c!"query" ∧ ¬ Says o c!"paramType" c!"header" ∧
    m = c!"allowMultiple should be applied on path, header, or query parameters") ∨
  (¬ Blank o c!"allowMultiple" ∧ Says o c!"type" c!"array" ∧
    m = c!"array Type with allowMultiple is not supported.") ∨
  (∃ v w, Says o c!"paramType" c!"body" ∧ Has o c!"name" v ∧ v ≠ .atom (.str []) ∧
    v ≠ .atom (.str c!"body") ∧ Reads str v w ∧ m = c!"body parameter with invalid name: " ++ w) ∨
  (∃ v w, Says o c!"type" c!"File" ∧ ¬ Says o c!"paramType" c!"form" ∧
    Has o c!"name" v ∧ Reads str v w ∧ m = c!"File parameter should be form type: " ++ w) ∨
  (∃ p l v w, Says o c!"type" c!"File" ∧ own p ∧ Has p c!"consumes" (.list l) ∧
    .atom (.str c!"multipart/form-data") ∉ l ∧ Has o c!"name" v ∧ Reads str v w ∧
    m = c!"File parameter should consume multipart/form-data: " ++ w) ∨
  (Says o c!"type" c!"void" ∧ m = c!"void is only allowed in Operation object.")

def AuthP (m : Str) : Prop :=
  (Says o c!"type" c!"apiKey" ∧ Blank o c!"passAs" ∧ m = c!"need \"passAs\" for apiKey") ∨
  (Says o c!"type" c!"apiKey" ∧ Blank o c!"keyname" ∧ m = c!"need \"keyname\" for apiKey") ∨
  (Says o c!"type" c!"oauth2" ∧ Blank o c!"grantTypes" ∧ m = c!"need \"grantTypes\" for oauth2")

def GrantP (m : Str) : Prop :=
  Blank o c!"implicit" ∧ Blank o c!"authorization_code" ∧
    m = c!"Either implicit or authorization_code should be defined."

def OpP (m : Str) : Prop :=
  ∃ used known k v a ty, Has o c!"authorizations" (.dict used) ∧ (k, v) ∈ used ∧ v ≠ .list [] ∧
    Has raw c!"authorizations" (.dict known) ∧ (k, a) ∈ known ∧ Says a c!"type" ty ∧
    ty ∈ [c!"basicAuth", c!"apiKey"] ∧ m = c!"auth " ++ k ++ c!" should be an empty list"

def ReqP (rs : List Str) (m : Str) : Prop :=
  ∃ r ∈ rs, Missing o r ∧ m = c!"requirement " ++ r ++ c!" not meet."

theorem breaks_iff (c : Str) (m : Str) : Breaks str raw own c o m ↔
    (c ∈ dataTyped ∧ DataP o m) ∨ (c = c!"Parameter" ∧ ParamP str own o m) ∨
    (c ∈ [c!"Property", c!"Items"] ∧ VoidP o m) ∨ (c = c!"Authorization" ∧ AuthP o m) ∨
    (c = c!"GrantType" ∧ GrantP o m) ∨ (c = c!"Operation" ∧ OpP raw o m) ∨
    ∃ fs, (c, fs) ∈ required ∧ ReqP o fs m := by
  constructor
  · intro h
    cases h with
    | untyped h1 h2 h3 => exact Or.inl ⟨h1, Or.inl ⟨h2, h3, rfl⟩⟩
    | items h1 h2 => exact Or.inl ⟨h1, Or.inr (Or.inl ⟨h2, rfl⟩)⟩
    | unique h1 h2 h3 => exact Or.inl ⟨h1, Or.inr (Or.inr ⟨h2, h3, rfl⟩)⟩
    | multiple h1 h2 h3 h4 h5 => exact Or.inr (Or.inl ⟨h1, Or.inl ⟨h2, h3, h4, h5, rfl⟩⟩)
    | array h1 h2 h3 => exact Or.inr (Or.inl ⟨h1, Or.inr (Or.inl ⟨h2, h3, rfl⟩)⟩)
    | body v w h1 h2 h3 h4 h5 h6 =>
      exact Or.inr (Or.inl ⟨h1, Or.inr (Or.inr (Or.inl ⟨v, w, h2, h3, h4, h5, h6, rfl⟩))⟩)
    | form v w h1 h2 h3 h4 h5 =>
      exact Or.inr (Or.inl ⟨h1, Or.inr (Or.inr (Or.inr (Or.inl ⟨v, w, h2, h3, h4, h5, rfl⟩)))⟩)
    | multipart p l v w h1 h2 h3 h4 h5 h6 h7 =>
      exact Or.inr (Or.inl ⟨h1, Or.inr (Or.inr (Or.inr (Or.inr (Or.inl ⟨p, l, v, w, h2, h3, h4, h5, h6, h7, rfl⟩))))⟩)
    | void h1 h2 =>
      rcases List.mem_cons.1 h1 with h1 | h1
      · exact Or.inr (Or.inl ⟨h1, Or.inr (Or.inr (Or.inr (Or.inr (Or.inr ⟨h2, rfl⟩))))⟩)
      · exact Or.inr (Or.inr (Or.inl ⟨h1, h2, rfl⟩))
    | passAs h1 h2 h3 => exact Or.inr (Or.inr (Or.inr (Or.inl ⟨h1, Or.inl ⟨h2, h3, rfl⟩⟩)))
    | keyname h1 h2 h3 => exact Or.inr (Or.inr (Or.inr (Or.inl ⟨h1, Or.inr (Or.inl ⟨h2, h3, rfl⟩)⟩)))
    | grantTypes h1 h2 h3 => exact Or.inr (Or.inr (Or.inr (Or.inl ⟨h1, Or.inr (Or.inr ⟨h2, h3, rfl⟩)⟩)))
    | grant h1 h2 h3 => exact Or.inr (Or.inr (Or.inr (Or.inr (Or.inl ⟨h1, h2, h3, rfl⟩))))
    | auth used known k v a ty h1 h2 h3 h4 h5 h6 h7 h8 =>
      exact Or.inr (Or.inr (Or.inr (Or.inr (Or.inr (Or.inl ⟨h1, used, known, k, v, a, ty, h2, h3, h4, h5, h6, h7, h8, rfl⟩)))))
    | required fs f h1 h2 h3 =>
      exact Or.inr (Or.inr (Or.inr (Or.inr (Or.inr (Or.inr ⟨fs, h1, f, h2, h3, rfl⟩)))))
  · rintro (⟨h1, ⟨h2, h3, rfl⟩ | ⟨h2, rfl⟩ | ⟨h2, h3, rfl⟩⟩ | ⟨h1, h⟩ | ⟨h1, h2, rfl⟩ |
      ⟨h1, ⟨h2, h3, rfl⟩ | ⟨h2, h3, rfl⟩ | ⟨h2, h3, rfl⟩⟩ | ⟨h1, h2, h3, rfl⟩ |
      ⟨h1, used, known, k, v, a, ty, h2, h3, h4, h5, h6, h7, h8, rfl⟩ | ⟨fs, h1, f, h2, h3, rfl⟩)
    · exact .untyped h1 h2 h3
    · exact .items h1 h2
    · exact .unique h1 h2 h3
    · rcases h with ⟨h2, h3, h4, h5, rfl⟩ | ⟨h2, h3, rfl⟩ | ⟨v, w, h2, h3, h4, h5, h6, rfl⟩ |
        ⟨v, w, h2, h3, h4, h5, rfl⟩ | ⟨p, l, v, w, h2, h3, h4, h5, h6, h7, rfl⟩ | ⟨h2, rfl⟩
      · exact .multiple h1 h2 h3 h4 h5
      · exact .array h1 h2 h3
      · exact .body v w h1 h2 h3 h4 h5 h6
      · exact .form v w h1 h2 h3 h4 h5
      · exact .multipart p l v w h1 h2 h3 h4 h5 h6 h7
      · exact .void (by simp [h1]) h2
    · exact .void (List.mem_cons_of_mem _ h1) h2
    · exact .passAs h1 h2 h3
    · exact .keyname h1 h2 h3
    · exact .grantTypes h1 h2 h3
    · exact .grant h1 h2 h3
    · exact .auth used known k v a ty h1 h2 h3 h4 h5 h6 h7 h8
    · exact .required fs f h1 h2 h3

/-- the handlers of a class, most derived class first -/
def hs (c : Nat) : List Handler := (mro c).flatMap (Props.C03.handlersOf (rules str))

/-- the messages of a handler -/
def out (op : Option Tree) (h : Handler) : List Str :=
  match h raw op o with
  | .ok ms => ms
  | .error _ => []

/-- a handler gives the messages of `P`, each once, out of `full` -/
def V (op : Option Tree) (h : Handler) (P : Str → Prop) (full : List Str) : Prop :=
  ∃ ms, h raw op o = .ok ms ∧ ms.Sublist full ∧ ∀ m, m ∈ ms ↔ P m

/-- all handlers of a class give the messages of `P`, each once -/
def All (op : Option Tree) (l : List Handler) (P : Str → Prop) : Prop :=
  (∀ h ∈ l, ∃ ms, h raw op o = .ok ms) ∧ (l.flatMap (out raw o op)).Nodup ∧
    ∀ m, m ∈ l.flatMap (out raw o op) ↔ P m

theorem all_of {op : Option Tree} (l : List (Handler × (Str → Prop) × List Str)) {P : Str → Prop}
    (h : ∀ x ∈ l, V raw o op x.1 x.2.1 x.2.2) (hnd : (l.flatMap fun x => x.2.2).Nodup)
    (hP : ∀ m, (∃ x ∈ l, x.2.1 m) ↔ P m) : All raw o op (l.map Prod.fst) P := by
  refine ⟨?_, ?_, fun m => ?_⟩
  · intro f hf
    obtain ⟨x, hx, rfl⟩ := List.mem_map.1 hf
    obtain ⟨ms, h1, _⟩ := h x hx
    exact ⟨ms, h1⟩
  · refine List.Sublist.nodup ?_ hnd
    clear hnd hP
    induction l with
    | nil => exact List.nil_sublist _
    | cons x l ih =>
      obtain ⟨ms, h1, h2, _⟩ := h x (by simp)
      rw [List.map_cons, List.flatMap_cons, List.flatMap_cons]
      refine List.Sublist.append ?_ (ih fun y hy => h y (by simp [hy]))
      simp only [out, h1]
      exact h2
  · rw [← hP, List.mem_flatMap]
    constructor
    · rintro ⟨f, hf, hm⟩
      obtain ⟨x, hx, rfl⟩ := List.mem_map.1 hf
      obtain ⟨ms, h1, _, h3⟩ := h x hx
      simp only [out, h1] at hm
      exact ⟨x, hx, (h3 m).1 hm⟩
    · rintro ⟨x, hx, hm⟩
      obtain ⟨ms, h1, _, h3⟩ := h x hx
      refine ⟨x.1, List.mem_map_of_mem hx, ?_⟩
      simp only [out, h1]
      exact (h3 m).2 hm

/-- a class with required fields only -/
theorem all_reqs {op : Option Tree} {c : Nat} {fs : List (Str × Tree)} (rs : List Str)
    (h : ∀ n ∈ rs, (Dict.get? fs n).isSome = true) (hnd : rs.Nodup)
    {P : Str → Prop} (hP : ∀ m, ReqP (.obj c fs) rs m ↔ P m) :
    All raw (.obj c fs) op [checkReqs rs] P := by
  refine all_of raw _ [(checkReqs rs, ReqP (.obj c fs) rs, rs.map fun r => c!"requirement " ++ r ++ c!" not meet.")] ?_ ?_ ?_
  · intro x hx
    rw [List.mem_singleton] at hx
    subst hx
    exact reqs_ok raw op rs h
  · simp only [List.flatMap_cons, List.flatMap_nil, List.append_nil]
    rw [List.nodup_iff_pairwise_ne, List.pairwise_map]
    exact (List.nodup_iff_pairwise_ne.1 hnd).imp fun h e => h (List.append_cancel_left (List.append_cancel_right e))
  · intro m
    rw [← hP]
    simp

theorem class_cases {c : Nat} (h : className c ∈ classes) : c < 20 ∧ 0 < c := by
  have h21 : c < 21 := by
    rcases Nat.lt_or_ge c 21 with h1 | h1
    · exact h1
    · have : className c = [] := by
        unfold className
        rw [List.getElem?_eq_none (by simpa using h1)]
        rfl
      rw [this] at h
      exact absurd h (by decide)
  have key : ∀ c < 21, className c ∈ classes → c < 20 ∧ 0 < c := by decide
  exact key c h21 h

/-- All handlers of an object together: the messages are those of the rules it breaks. -/
theorem obj_verdict {op : Option Tree} {c : Nat} {fs : List (Str × Tree)} (hc : className c ∈ classes)
    (hd : ∀ xs x, (className c, xs) ∈ declared → x ∈ xs → (Dict.get? fs x).isSome = true)
    (hp : c = parameter → (∀ p, own p ↔ op = some p) ∧
      (Says (.obj c fs) c!"type" c!"File" → ∃ p l, op = some p ∧ Has p c!"consumes" (.list l)))
    (ho : c = operation → ∃ known, Has raw c!"authorizations" (.dict known) ∧ (Dict.keys known).Nodup ∧
      (∀ k a, (k, a) ∈ known → ∃ v, Has a c!"type" v) ∧
      (Missing (.obj c fs) c!"authorizations" ∨ ∃ used, Has (.obj c fs) c!"authorizations" (.dict used) ∧
        (Dict.keys used).Nodup ∧ ∀ k v, (k, v) ∈ used → k ∈ Dict.keys known)) :
    All raw (.obj c fs) op (hs str c) (Breaks str raw own (className c) (.obj c fs)) := by
  obtain ⟨h20, h0⟩ := class_cases hc
  have req : ∀ rs, (className c, rs) ∈ required → ∀ n ∈ rs, (Dict.get? fs n).isSome = true :=
    fun rs h n hn => hd rs n (List.mem_append_left _ h) hn
  match c, h20, h0 with
  | 1, _, _ =>
    refine all_of raw _ [(validateVoid, VoidP (.obj 1 fs), [c!"void is only allowed in Operation object."])] ?_ (by simp) ?_
    · intro x hx
      rw [List.mem_singleton] at hx
      subst hx
      exact void_ok raw op (hd _ c!"type" (by decide) (List.mem_singleton.2 rfl))
    · intro m
      rw [breaks_iff]
      simp [className, dataTyped, required]
  | 2, _, _ =>
    refine all_reqs raw [c!"scope"] (req _ (by decide)) (by decide) fun m => ?_
    rw [breaks_iff]; simp [className, dataTyped, required]
  | 3, _, _ =>
    refine all_reqs raw [c!"url"] (req _ (by decide)) (by decide) fun m => ?_
    rw [breaks_iff]; simp [className, dataTyped, required]
  | 4, _, _ =>
    refine all_reqs raw [c!"loginEndpoint"] (req _ (by decide)) (by decide) fun m => ?_
    rw [breaks_iff]; simp [className, dataTyped, required]
  | 5, _, _ =>
    refine all_reqs raw [c!"url"] (req _ (by decide)) (by decide) fun m => ?_
    rw [breaks_iff]; simp [className, dataTyped, required]
  | 6, _, _ =>
    refine all_reqs raw [c!"url"] (req _ (by decide)) (by decide) fun m => ?_
    rw [breaks_iff]; simp [className, dataTyped, required]
  | 7, _, _ =>
    refine all_reqs raw [c!"tokenRequestEndpoint", c!"tokenEndpoint"] (req _ (by decide)) (by decide) fun m => ?_
    rw [breaks_iff]; simp [className, dataTyped, required]
  | 8, _, _ =>
    refine all_of raw _ [(validateGrantType, GrantP (.obj 8 fs), [c!"Either implicit or authorization_code should be defined."])] ?_ (by simp) ?_
    · intro x hx
      rw [List.mem_singleton] at hx
      subst hx
      exact grant_ok raw op fun n hn => hd [c!"implicit", c!"authorization_code"] n (by decide) hn
    · intro m
      rw [breaks_iff]
      simp [className, dataTyped, required]
  | 9, _, _ =>
    refine all_reqs raw [c!"scope"] (req _ (by decide)) (by decide) fun m => ?_
    rw [breaks_iff]; simp [className, dataTyped, required]
  | 10, _, _ =>
    obtain ⟨ms, h1, h2, h3⟩ := auth_ok (c := 10) (fs := fs) raw op (by
      intro n hn
      rcases List.mem_cons.1 hn with rfl | hn
      · exact hd [c!"type"] _ (by decide) (by simp)
      · exact hd [c!"passAs", c!"keyname", c!"grantTypes"] n (by decide) hn)
    refine all_of raw _ [(validateAuth, AuthP (.obj 10 fs), ms),
      (checkReqs [c!"type"], ReqP (.obj 10 fs) [c!"type"], [c!"requirement type not meet."])] ?_ ?_ ?_
    · intro x hx
      simp only [List.mem_cons, List.not_mem_nil, or_false] at hx
      rcases hx with rfl | rfl
      · exact ⟨ms, h1, List.Sublist.refl _, h3⟩
      · exact reqs_ok raw op [c!"type"] (req _ (by decide))
    · simp only [List.flatMap_cons, List.flatMap_nil, List.append_nil]
      rcases h2 with h2 | h2
      · exact (h2.append (List.Sublist.refl [c!"requirement type not meet."])).nodup (by decide)
      · exact (h2.append (List.Sublist.refl [c!"requirement type not meet."])).nodup (by decide)
    · intro m
      rw [breaks_iff]
      simp [className, dataTyped, required]
  | 11, _, _ =>
    refine all_reqs raw [c!"code", c!"message"] (req _ (by decide)) (by decide) fun m => ?_
    rw [breaks_iff]; simp [className, dataTyped, required]
  | 12, _, _ =>
    obtain ⟨how, hfile⟩ := hp rfl
    have hfields : ∀ n ∈ [c!"paramType", c!"name", c!"type", c!"$ref", c!"items", c!"uniqueItems", c!"allowMultiple"],
        (Dict.get? fs n).isSome = true := by
      intro n hn
      have : n ∈ [c!"paramType", c!"name"] ∨ n ∈ [c!"type", c!"$ref", c!"items", c!"uniqueItems", c!"allowMultiple"] := by
        simpa [or_assoc] using hn
      rcases this with h | h
      · exact req _ (by decide) n h
      · exact hd _ n (by decide) h
    obtain ⟨ms, h1, ⟨w, h2⟩, h3⟩ := param_ok (c := 12) (fs := fs) raw op str (by
      intro n hn
      apply hfields
      revert n
      decide) hfile
    obtain ⟨ds, g1, g2, g3⟩ := data_ok (c := 12) (fs := fs) raw op (by
      intro n hn
      apply hfields
      revert n
      decide)
    refine all_of raw _ [(validateParam str, ParamP str own (.obj 12 fs), paramMsgs w),
      (checkReqs [c!"paramType", c!"name"], ReqP (.obj 12 fs) [c!"paramType", c!"name"],
        [c!"requirement paramType not meet.", c!"requirement name not meet."]),
      (validateData, DataP (.obj 12 fs), [c!"type or $ref should be existed.",
        c!"array should be existed along with items", c!"uniqueItems is only used for array type."])] ?_ ?_ ?_
    · intro x hx
      simp only [List.mem_cons, List.not_mem_nil, or_false] at hx
      rcases hx with rfl | rfl | rfl
      · refine ⟨ms, h1, h2, fun m => ?_⟩
        rw [h3]
        unfold ParamP
        simp only [how]
      · exact reqs_ok raw op [c!"paramType", c!"name"] (req _ (by decide))
      · exact ⟨ds, g1, g2, g3⟩
    · simp [paramMsgs]
    · intro m
      rw [breaks_iff]
      simp [className, dataTyped, required]
      constructor
      · rintro (h | h | h)
        · exact Or.inr (Or.inl h)
        · exact Or.inr (Or.inr h)
        · exact Or.inl h
      · rintro (h | h | h)
        · exact Or.inr (Or.inr h)
        · exact Or.inl h
        · exact Or.inr (Or.inl h)
  | 13, _, _ =>
    obtain ⟨known, hk1, hk2, hk3, hu⟩ := ho rfl
    obtain ⟨ds, g1, g2, g3⟩ := data_ok (c := 13) (fs := fs) raw op (by
      intro n hn
      refine hd [c!"type", c!"$ref", c!"items", c!"uniqueItems", c!"authorizations", c!"consumes"] n (by decide) ?_
      revert n
      decide)
    obtain ⟨ms, full, h1, h2, h3, h4⟩ : ∃ (ms full : List Str), validateAuths raw op (.obj 13 fs) = .ok ms ∧ ms.Sublist
        (full.map fun k => c!"auth " ++ k ++ c!" should be an empty list") ∧ full.Nodup ∧
        ∀ m, m ∈ ms ↔ OpP raw (.obj 13 fs) m := by
      obtain ⟨rc, rfs, hrw, hraw⟩ := hk1
      have hfr : field raw c!"authorizations" = .ok (.dict known) := by rw [hrw]; exact field_ok hraw
      have hir : ∀ w, Has raw c!"authorizations" w ↔ w = .dict known := by rw [hrw]; exact has_iff hraw
      rcases hu with hu | ⟨used, hu, hun, huk⟩
      · obtain ⟨_, _, e, hu⟩ := hu
        cases e
        refine ⟨[], [], ?_, List.nil_sublist _, List.nodup_nil, fun m => ?_⟩
        · simp [validateAuths, field_ok hu, bind, Except.bind, truth]
        · simp only [List.not_mem_nil, false_iff]
          rintro ⟨used, _, _, _, _, _, h, _⟩
          have := (has_iff hu _).1 h
          cases this
      · obtain ⟨_, _, e, hu⟩ := hu
        cases e
        obtain ⟨ms, h1, h2, h3⟩ := auths_ok hk3 used huk
        refine ⟨ms, Dict.keys used, ?_, h2, hun, fun m => ?_⟩
        · simp only [validateAuths, field_ok hu, hfr, bind, Except.bind]
          cases used with
          | nil => cases h1; rfl
          | cons x used => simpa [truth] using h1
        · rw [h3 hk2]
          constructor
          · rintro ⟨k, v, a, ty, a1, a2, a3, a4, a5, rfl⟩
            exact ⟨used, known, k, v, a, ty, (has_iff hu _).2 rfl, a1, a2, (hir _).2 rfl, a3, a4, a5, rfl⟩
          · rintro ⟨used', known', k, v, a, ty, b1, a1, a2, b2, a3, a4, a5, rfl⟩
            have e1 := (has_iff hu _).1 b1
            have e2 := (hir _).1 b2
            cases e1
            cases e2
            exact ⟨k, v, a, ty, a1, a2, a3, a4, a5, rfl⟩
    refine all_of raw _ [(validateAuths, OpP raw (.obj 13 fs), full.map fun k => c!"auth " ++ k ++ c!" should be an empty list"),
      (checkReqs [c!"method", c!"nickname", c!"parameters"], ReqP (.obj 13 fs) [c!"method", c!"nickname", c!"parameters"],
        [c!"requirement method not meet.", c!"requirement nickname not meet.", c!"requirement parameters not meet."]),
      (validateData, DataP (.obj 13 fs), [c!"type or $ref should be existed.",
        c!"array should be existed along with items", c!"uniqueItems is only used for array type."])] ?_ ?_ ?_
    · intro x hx
      simp only [List.mem_cons, List.not_mem_nil, or_false] at hx
      rcases hx with rfl | rfl | rfl
      · exact ⟨ms, h1, h2, h4⟩
      · exact reqs_ok raw op [c!"method", c!"nickname", c!"parameters"] (req _ (by decide))
      · exact ⟨ds, g1, g2, g3⟩
    · simp only [List.flatMap_cons, List.flatMap_nil, List.append_nil]
      rw [List.nodup_append]
      refine ⟨?_, by decide, ?_⟩
      · rw [List.nodup_iff_pairwise_ne, List.pairwise_map]
        exact (List.nodup_iff_pairwise_ne.1 h3).imp
          fun h e => h (List.append_cancel_left (List.append_cancel_right e))
      · intro a ha b hb e
        subst e
        obtain ⟨k, _, rfl⟩ := List.mem_map.1 ha
        simp at hb
    · intro m
      rw [breaks_iff]
      simp [className, dataTyped, required]
      constructor
      · rintro (h | h | h)
        · exact Or.inr (Or.inl h)
        · exact Or.inr (Or.inr h)
        · exact Or.inl h
      · rintro (h | h | h)
        · exact Or.inr (Or.inr h)
        · exact Or.inl h
        · exact Or.inr (Or.inl h)
  | 14, _, _ =>
    refine all_reqs raw [c!"path", c!"operations"] (req _ (by decide)) (by decide) fun m => ?_
    rw [breaks_iff]; simp [className, dataTyped, required]
  | 15, _, _ =>
    have hf : ∀ n ∈ [c!"type", c!"$ref", c!"items", c!"uniqueItems"], (Dict.get? fs n).isSome = true :=
      fun n hn => hd [c!"type", c!"$ref", c!"items", c!"uniqueItems"] n (by decide) hn
    refine all_of raw _ [(validateVoid, VoidP (.obj 15 fs), [c!"void is only allowed in Operation object."]),
      (validateData, DataP (.obj 15 fs), [c!"type or $ref should be existed.",
        c!"array should be existed along with items", c!"uniqueItems is only used for array type."])] ?_ (by simp) ?_
    · intro x hx
      simp only [List.mem_cons, List.not_mem_nil, or_false] at hx
      rcases hx with rfl | rfl
      · exact void_ok raw op (hf c!"type" (by simp))
      · exact data_ok raw op hf
    · intro m
      rw [breaks_iff]
      simp [className, dataTyped, required]
      exact or_comm
  | 16, _, _ =>
    refine all_reqs raw [c!"id", c!"properties"] (req _ (by decide)) (by decide) fun m => ?_
    rw [breaks_iff]; simp [className, dataTyped, required]
  | 17, _, _ =>
    refine all_reqs raw [c!"swaggerVersion", c!"basePath", c!"apis"] (req _ (by decide)) (by decide) fun m => ?_
    rw [breaks_iff]; simp [className, dataTyped, required]
  | 18, _, _ =>
    refine all_reqs raw [c!"title", c!"description"] (req _ (by decide)) (by decide) fun m => ?_
    rw [breaks_iff]; simp [className, dataTyped, required]
  | 19, _, _ =>
    refine all_reqs raw [c!"swaggerVersion", c!"apis"] (req _ (by decide)) (by decide) fun m => ?_
    rw [breaks_iff]; simp [className, dataTyped, required]
  | n + 20, h, _ => exact absurd h (by omega)

end

/-! ## the document -/

section
variable {str : Tree → Str} {root : Tree}

theorem at_append {leaves : List Nat} {a b d : Tree} {ts us : List Str} (h : At leaves a ts b) (h' : At leaves b us d) :
    At leaves a (ts ++ us) d := by
  induction h with
  | here => exact h'
  | field c fs n v ts u hc hn _ ih => exact .field c fs n v _ d hc hn (ih h')
  | item l i v ts u hi _ ih => exact .item l i v _ d hi (ih h')
  | key dd k v ts u hk _ ih => exact .key dd k v _ d hk (ih h')

theorem wf_at {leaves : List Nat} {a b : Tree} {ts : List Str} (h : At leaves a ts b) (hw : WF a) : WF b := by
  induction h with
  | here => exact hw
  | field c fs n v ts u _ hn _ ih =>
    rw [WF] at hw
    exact ih (Proofs.ScanTree.resolve_at.wf_of_mem hw.2.2 hn)
  | item l i v ts u hi _ ih =>
    rw [WF] at hw
    exact ih (Proofs.ScanTree.resolve_at.wf_of_getElem hw hi)
  | key d k v ts u hk _ ih =>
    rw [WF] at hw
    exact ih (Proofs.ScanTree.resolve_at.wf_of_mem hw.2 hk)

theorem wf_field {c : Nat} {fs : List (Str × Tree)} {n : Str} {v : Tree} (hw : WF (.obj c fs))
    (h : Dict.get? fs n = some v) : WF v := by
  rw [WF] at hw
  exact Proofs.ScanTree.resolve_at.wf_of_mem hw.2.2 (Dict.mem_of_get? h)

theorem parent_owner (hw : WF root) {ts : List Str} {op : Tree} (h : Owner root ts op) :
    parentAt root (pointer ts) = some op := by
  obtain ⟨us, i, l, rfl, h1, c, fs, rfl, h2⟩ := h
  unfold parentAt
  rw [Proofs.ScanTree.split_pointer, List.tail_cons]
  have e : (us ++ [c!"parameters", natStr i]).reverse = natStr i :: c!"parameters" :: us.reverse := by simp
  rw [e, nearest]
  have h3 : At [] root (us ++ [c!"parameters"]) (.list l) :=
    at_append h1 (.field c fs _ _ _ _ (by simp) (Dict.mem_of_get? h2) (.here _))
  have h4 := Proofs.ScanTree.resolve_at h3 hw
  have e2 : (c!"parameters" :: us.reverse).reverse = us ++ [c!"parameters"] := by simp
  rw [e2, h4]
  dsimp only
  rw [nearest, List.reverse_reverse, Proofs.ScanTree.resolve_at h1 hw]

/-- the messages of a call -/
def told (root : Tree) (c : Called Handler) : List Err :=
  (out root c.obj (parentAt root c.path) c.handler).map fun m => ((c.path, className ((cls? c.obj).getD base)), m)

theorem collect_ok {calls : List (Called Handler)}
    (h : ∀ c ∈ calls, ∃ ms, c.handler root (parentAt root c.path) c.obj = .ok ms) :
    Validate12.collect root calls = .ok (calls.flatMap (told root)) := by
  induction calls with
  | nil => rfl
  | cons c calls ih =>
    obtain ⟨ms, h1⟩ := h c (by simp)
    rw [Validate12.collect, ih fun c hc => h c (by simp [hc]), h1]
    simp [bind, Except.bind, told, out, h1]

theorem collect_error {calls : List (Called Handler)}
    (h : ∃ c ∈ calls, ∃ e, c.handler root (parentAt root c.path) c.obj = .error e) :
    ∃ c ∈ calls, ∃ e, c.handler root (parentAt root c.path) c.obj = .error e ∧
      Validate12.collect root calls = .error e := by
  induction calls with
  | nil => obtain ⟨_, h, _⟩ := h; cases h
  | cons c calls ih =>
    rw [Validate12.collect]
    cases h1 : c.handler root (parentAt root c.path) c.obj with
    | error e => exact ⟨c, by simp, e, h1, rfl⟩
    | ok ms =>
      obtain ⟨c', hc', e, he⟩ := h
      rcases List.mem_cons.1 hc' with rfl | hc'
      · rw [h1] at he; cases he
      · obtain ⟨c2, h2, e2, h3, h4⟩ := ih ⟨c', hc', e, he⟩
        exact ⟨c2, by simp [h2], e2, h3, by rw [h4]; rfl⟩

theorem errors_eq :
    Validate12.errors str root = Validate12.collect root ((traversal root []).flatMap fun v =>
      (((cls? v.2).toList.flatMap mro).flatMap (Props.C03.handlersOf (rules str))).map
        fun f => ⟨0, f, v.1, v.2⟩) := by
  have hc := Props.C03.C03_calls mro [(0, rules str)] (some root) []
  simp only [List.map_cons, List.map_nil, List.flatMap_cons, List.flatMap_nil, List.append_nil] at hc
  unfold Validate12.errors
  rw [hc]

end

end Proofs.Validate12
