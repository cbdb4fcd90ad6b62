import Verif.Proofs.Request
/-!
# C24: Content-Type and Accept are always ones the operation declares

`declared l t`: the operation lists no types at all, or lists `t`.
-/

namespace Props.C24
open Py Utils Io

variable {β δ π : Type}

/-- the operation's list allows the type -/
def declared (l : List Str) (t : Str) : Prop := l = [] ∨ t ∈ l

instance (l t) : Decidable (declared l t) := inferInstanceAs (Decidable (_ ∨ _))

theorem not_declared {l : List Str} {t : Str} : (l ≠ [] ∧ t ∉ l) ↔ ¬ declared l t := by
  simp [declared]

/-- The type used for a body: the one the user chose, else the first listed, else JSON. -/
def bodyType (consumes : List Str) : Option Str → Str
  | some (c :: s) => c :: s
  | _ => match consumes with
    | t :: _ => t
    | [] => c!"application/json"

theorem prepareBody_eq (env : Env β δ π) (op : Op δ) (p : Params β) (c : Option Str) :
    prepareBody env op p c =
      if declared op.consumes (bodyType op.consumes c) then
        bodyLoop env (bodyType op.consumes c) p op.parameters
      else .error .SchemaError := by
  have : bodyContentType op.consumes c = bodyType op.consumes c := by
    cases c with
    | none => cases h : op.consumes <;> rfl
    | some s => cases s with
      | nil => cases h : op.consumes <;> rfl
      | cons a s => rfl
  unfold prepareBody
  simp only [this]
  by_cases h : declared op.consumes (bodyType op.consumes c)
  · rw [if_pos h, if_neg]
    rw [not_declared]; exact fun hn => hn h
  · rw [if_neg h, if_pos]
    rw [not_declared]; exact h

theorem bodyLoop_ct (env : Env β δ π) (ct : Str) (p : Params β) (ds : List (ParamDecl δ)) (x : Str × π)
    (h : bodyLoop env ct p ds = .ok (some x)) : x.1 = ct := by
  induction ds with
  | nil => simp [bodyLoop] at h
  | cons d ds ih =>
    simp only [bodyLoop] at h
    split at h
    · split at h
      · cases h
      · split at h
        · cases h
        · split at h
          · cases h
          · cases h; rfl
    · exact ih h

/-- **C24** (payload types). When a payload is prepared, its content type is the form type, the
body type (the user's choice, else the first listed, else JSON), or `multipart/form-data` with a
boundary parameter, and the operation's list allows it. -/
theorem C24_content_type (env : Env β δ π) (op : Op δ) (p : Params β) (c : Option Str) (hf : Bool)
    (ct : Str) (d : Data π) (fs) (h : prepareData env op p c hf = .ok (some ct, d, fs)) :
    (p.file ≠ [] ∧ hf = true ∧ ct = c!"multipart/form-data" ++ c!"; boundary=" ++ env.boundary ∧
      declared op.consumes c!"multipart/form-data") ∨
    (p.file = [] ∧ p.formData ≠ [] ∧ ct = c!"application/x-www-form-urlencoded" ∧
      declared op.consumes ct) ∨
    (p.file = [] ∧ p.formData = [] ∧ p.body ≠ [] ∧ ct = bodyType op.consumes c ∧
      declared op.consumes ct) := by
  unfold prepareData at h
  by_cases h1 : p.file ≠ []
  · left
    rw [if_pos h1] at h
    cases hf with
    | false => simp at h
    | true =>
      simp only [if_true] at h
      split at h
      · cases h
      · rename_i ct' b hp
        cases h
        unfold prepareFiles at hp
        split at hp
        · cases hp
        · rename_i hd
          obtain ⟨f1, _, hp⟩ := bind_ok.1 hp
          obtain ⟨f2, _, hp⟩ := bind_ok.1 hp
          simp only [pure, Except.pure, Except.ok.injEq, Prod.mk.injEq] at hp
          rw [not_declared] at hd
          exact ⟨h1, rfl, hp.1.symm, Decidable.not_not.1 hd⟩
  · right
    rw [if_neg h1] at h
    have h1' : p.file = [] := Decidable.not_not.1 h1
    by_cases h2 : p.formData ≠ []
    · left
      rw [if_pos h2] at h
      unfold prepareForms at h
      by_cases hd : op.consumes ≠ [] ∧ formType ∉ op.consumes
      · rw [if_pos hd] at h; cases h
      · rw [if_neg hd] at h
        simp only [Except.ok.injEq, Prod.mk.injEq, Option.some.injEq] at h
        rw [not_declared] at hd
        exact ⟨h1', h2, h.1.symm, h.1 ▸ Decidable.not_not.1 hd⟩
    · right
      rw [if_neg h2] at h
      have h2' : p.formData = [] := Decidable.not_not.1 h2
      by_cases h3 : p.body ≠ []
      · rw [if_pos h3, prepareBody_eq] at h
        by_cases hd : declared op.consumes (bodyType op.consumes c)
        · rw [if_pos hd] at h
          cases hl : bodyLoop env (bodyType op.consumes c) p op.parameters with
          | error e => rw [hl] at h; cases h
          | ok o =>
            cases o with
            | none => rw [hl] at h; simp at h
            | some x =>
              have hx := bodyLoop_ct env _ p _ x hl
              rw [hl] at h
              obtain ⟨a, b⟩ := x
              simp only [Except.ok.injEq, Prod.mk.injEq, Option.some.injEq] at h hx
              have : ct = bodyType op.consumes c := by rw [← h.1, hx]
              exact ⟨h1', h2', h3, this, this ▸ hd⟩
        · rw [if_neg hd] at h; cases h
      · rw [if_neg h3] at h; simp at h

/-- **C24** (rejection). A payload whose type the operation's list does not allow makes `prepare`
raise `SchemaError`. -/
theorem C24_rejected (env : Env β δ π) (op : Op δ) (p : Params β) (c : Option Str) (hf : Bool) :
    (p.file ≠ [] → hf = true → ¬ declared op.consumes c!"multipart/form-data" →
      prepareData env op p c hf = .error .SchemaError) ∧
    (p.file = [] → p.formData ≠ [] → ¬ declared op.consumes c!"application/x-www-form-urlencoded" →
      prepareData env op p c hf = .error .SchemaError) ∧
    (p.file = [] → p.formData = [] → p.body ≠ [] → ¬ declared op.consumes (bodyType op.consumes c) →
      prepareData env op p c hf = .error .SchemaError) := by
  refine ⟨?_, ?_, ?_⟩
  · intro h1 h2 h3
    have h3' : op.consumes ≠ [] ∧ multipartType ∉ op.consumes := not_declared.2 h3
    simp only [prepareData, h2, if_true, prepareFiles]
    rw [if_pos h1, if_pos h3']
  · intro h1 h2 h3
    have h3' : op.consumes ≠ [] ∧ formType ∉ op.consumes := not_declared.2 h3
    simp only [prepareData, h1, prepareForms]
    rw [if_neg (by simp), if_pos h2, if_pos h3']
  · intro h1 h2 h3 h4
    simp only [prepareData, h1, h2, prepareBody_eq]
    rw [if_neg (by simp), if_neg (by simp), if_pos h3, if_neg h4]

/-- The `Accept` type: the user's choice, else the first listed; a listed empty name counts as
none. -/
def acceptType (produces : List Str) : Option Str → Option Str
  | some (c :: s) => some (c :: s)
  | _ => match produces with
    | (c :: s) :: _ => some (c :: s)
    | _ => none

/-- **C24** (Accept). The `Accept` header is the user's choice, else the first listed type, and is
sent only if the operation's list allows it; otherwise `SchemaError` is raised. -/
theorem C24_accept (op : Op δ) (produce : Option Str) :
    chooseAccept op produce =
      match acceptType op.produces produce with
      | none => .ok none
      | some a => if declared op.produces a then .ok (some a) else .error .SchemaError := by
  have h : wantedAccept op.produces produce = acceptType op.produces produce := by
    cases produce with
    | none => cases h : op.produces with
      | nil => rfl
      | cons t l => cases t <;> rfl
    | some s => cases s with
      | nil => cases h : op.produces with
        | nil => rfl
        | cons t l => cases t <;> rfl
      | cons a s => rfl
  unfold chooseAccept
  simp only [h]
  cases acceptType op.produces produce with
  | none => rfl
  | some a =>
    by_cases hd : declared op.produces a
    · simp only [hd, if_true]
      rw [if_neg]; rw [not_declared]; exact fun hn => hn hd
    · simp only [hd, if_false]
      rw [if_pos]; rw [not_declared]; exact hd

/-- **C24** (headers of the prepared request). They announce exactly these types. -/
theorem C24_headers (env : Env β δ π) (op : Op δ) (sch : SchemeArg) (hf : Bool) (r r' : Req β π)
    (hlow : env.lower c!"Accept" ≠ env.lower c!"Content-Type")
    (h : prepare env op sch hf r = .ok r') :
    (∀ ct d fs, prepareData env op r.p r.consume hf = .ok (some ct, d, fs) → ct ≠ [] →
      CIDict.getitem env.lower r'.header c!"Content-Type" = .ok ct) ∧
    (∀ a, acceptType op.produces r.produce = some a →
      declared op.produces a ∧ CIDict.getitem env.lower r'.header c!"Accept" = .ok a) := by
  obtain ⟨s, path, url, ct, data, files, acc, _, _, _, hd, ha, rfl⟩ := prepare_ok.1 h
  constructor
  · intro ct' d fs h' hne
    rw [hd] at h'
    cases h'
    have ht : truthy (some ct') = some ct' := by cases ct' with
      | nil => exact absurd rfl hne
      | cons a s => rfl
    rw [getitem_setHeader, getitem_setHeader, ht]
    have : ¬ env.lower c!"Content-Type" = env.lower c!"Accept" := fun e => hlow e.symm
    cases acc with
    | none => simp
    | some a => simp [this]
  · intro a hacc
    rw [C24_accept, hacc] at ha
    by_cases hdec : declared op.produces a
    · simp only [hdec, if_true, Except.ok.injEq] at ha
      subst ha
      refine ⟨hdec, ?_⟩
      rw [getitem_setHeader]; simp
    · simp [hdec] at ha

/-- **C24**, refuted for forms: an explicitly chosen type is silently replaced. -/
theorem C24_form_choice_false :
    ∃ (env : Env Unit Unit Unit) (op : Op Unit) (p : Params Unit),
      op.consumes = [c!"application/x-www-form-urlencoded", c!"text/plain"] ∧
      prepareData env op p (some c!"text/plain") true =
        .ok (some c!"application/x-www-form-urlencoded", .text c!"a=b", []) := by
  refine ⟨⟨fun _ _ _ => .ok (), id, fun _ _ => .ok [], fun _ => .ok [], fun _ => .ok [], []⟩,
    ⟨[], [], [], [formType, c!"text/plain"], [], [], none, []⟩,
    ⟨[], [], [], [], [(c!"a", c!"b")], []⟩, rfl, ?_⟩
  decide +kernel

/-- **C24**, no check when the HTTP library encodes the files: with files and
`handle_files=False` nothing is announced and nothing is checked. -/
theorem C24_files_unchecked (env : Env β δ π) (op : Op δ) (p : Params β) (c : Option Str)
    (h : p.file ≠ []) : prepareData env op p c false = .ok (none, .form p.formData, p.file) := by
  simp [prepareData, h]

/-! Non-vacuity: a body request with a choice among two listed types. -/
def env : Env Nat Unit Nat := ⟨fun _ b _ => .ok (b + 1), List.map Char.toLower, fun _ _ => .ok [],
  fun s => .ok (utf8 s), fun _ => .ok [], c!"b"⟩
def op : Op Unit := ⟨c!"//h/x", c!"/x", c!"post", [c!"application/json", c!"text/plain"],
  [c!"text/html", c!"a/b"], [c!"http"], none, [⟨c!"q", c!"query", .ok ()⟩, ⟨c!"b", c!"body", .ok ()⟩]⟩
def ps : Params Nat := ⟨[(c!"X", c!"1")], [], [], [(c!"b", 7)], [], []⟩
example : prepareData env op ps (some c!"text/plain") true = .ok (some c!"text/plain", .payload 8, []) := by
  decide
example : prepareData env op ps (some c!"text/xml") true = .error .SchemaError := by decide
example : acceptType op.produces (some c!"a/b") = some c!"a/b" := by decide
example : (prepare env op (.str c!"http") true { (init op ps : Req Nat Nat) with produce := some c!"a/b" }).toOption.map
    (fun r => (r.header.iteritems, r.url)) =
    some ([(c!"X", c!"1"), (c!"Content-Type", c!"application/json"), (c!"Accept", c!"a/b")], c!"http://h/x") := by
  decide

end Props.C24
