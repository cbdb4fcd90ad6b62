import Verif.Props.C24
import Verif.Props.C20
/-!
# C63: a prepared request carries everything that was supplied

`lastCI lower l k`: the value of the last pair of `l` whose name equals `k` up to case.
-/

namespace Props.C63
open Py Utils Io Core

variable {β δ π : Type}

/-- the last value given for `k` in any capitalisation -/
def lastCI (lower : Str → Str) : List (Str × Str) → Str → Option Str
  | [], _ => none
  | e :: l, k =>
    match lastCI lower l k with
    | some v => some v
    | none => if lower k = lower e.1 then some e.2 else none

theorem getitem_ciUpdate (lower : Str → Str) (h : CIDict Str) (l : List (Str × Str)) (k : Str) :
    CIDict.getitem lower (ciUpdate lower h l) k =
      match lastCI lower l k with
      | some v => .ok v
      | none => CIDict.getitem lower h k := by
  induction l generalizing h with
  | nil => rfl
  | cons e l ih =>
    have : ciUpdate lower h (e :: l) = ciUpdate lower (CIDict.setitem lower h e.1 e.2) l := rfl
    rw [this, ih, lastCI]
    cases lastCI lower l k with
    | some v => rfl
    | none =>
      have := getitem_setHeader lower h e.1 k (some e.2)
      simp only [setHeader] at this
      simp only [this]
      split <;> rfl

/-- **C63** (headers). The headers of a prepared request, read by any capitalisation: `Accept` if
a type is wanted, `Content-Type` if a payload announces one, otherwise the header parameter given
last under that name, and nothing else. -/
theorem C63_headers (env : Env β δ π) (op : Op δ) (sch : SchemeArg) (hf : Bool) (r r' : Req β π)
    (h0 : r.header = []) (h : prepare env op sch hf r = .ok r') :
    ∃ ct d fs, prepareData env op r.p r.consume hf = .ok (ct, d, fs) ∧ r'.data = d ∧ r'.p.file = fs ∧
    ∀ k, CIDict.getitem env.lower r'.header k =
      if env.lower k = env.lower c!"Accept" ∧ C24.acceptType op.produces r.produce ≠ none then
        .ok ((C24.acceptType op.produces r.produce).getD [])
      else if env.lower k = env.lower c!"Content-Type" ∧ ct ≠ none ∧ ct ≠ some [] then .ok (ct.getD [])
      else match lastCI env.lower r.p.header k with
        | some v => .ok v
        | none => .error .KeyError := by
  obtain ⟨s, path, url, ct, data, files, acc, _, _, _, hd, ha, rfl⟩ := prepare_ok.1 h
  refine ⟨ct, data, files, hd, rfl, rfl, ?_⟩
  intro k
  have hacc : acc = C24.acceptType op.produces r.produce := by
    rw [C24.C24_accept] at ha
    cases hq : C24.acceptType op.produces r.produce with
    | none => rw [hq] at ha; cases ha; rfl
    | some a =>
      rw [hq] at ha
      simp only at ha
      split at ha
      · cases ha; rfl
      · cases ha
  simp only
  rw [getitem_setHeader, getitem_setHeader, getitem_ciUpdate, h0, ← hacc]
  have hnil : CIDict.getitem env.lower ([] : CIDict Str) k = .error .KeyError := rfl
  rw [hnil]
  cases acc with
  | none =>
    simp only [ne_eq, not_true_eq_false, and_false, if_false]
    cases ct with
    | none => simp [truthy]
    | some c => cases c with
      | nil => simp [truthy]
      | cons a c => simp [truthy]
  | some a =>
    by_cases hk : env.lower k = env.lower c!"Accept"
    · simp [hk]
    · simp only [hk, false_and, if_false]
      cases ct with
      | none => simp [truthy]
      | some c => cases c with
        | nil => simp [truthy]
        | cons a c => simp [truthy]

/-- **C63** (the rest). Query, path, form, body and header parameters and the user's choices are
left as they were. -/
theorem C63_frame (env : Env β δ π) (op : Op δ) (sch : SchemeArg) (hf : Bool) (r r' : Req β π)
    (h : prepare env op sch hf r = .ok r') :
    r'.p.query = r.p.query ∧ r'.p.header = r.p.header ∧ r'.p.path = r.p.path ∧ r'.p.body = r.p.body ∧
    r'.p.formData = r.p.formData ∧ r'.consume = r.consume ∧ r'.produce = r.produce ∧
    r'.scheme = r.scheme := by
  obtain ⟨s, path, url, ct, data, files, acc, _, _, _, hd, ha, rfl⟩ := prepare_ok.1 h
  exact ⟨rfl, rfl, rfl, rfl, rfl, rfl, rfl, rfl⟩

theorem bodyLoop_eq (env : Env β δ π) (ct : Str) (p : Params β) (ds : List (ParamDecl δ)) :
    bodyLoop env ct p ds =
      match ds.find? (fun d => d.in_ = c!"body") with
      | none => .ok none
      | some d => d.schema.bind fun s =>
        match Dict.get? p.body d.name with
        | none => .error .KeyError
        | some b => (env.marshal ct b s).map (fun x => some (ct, x)) := by
  induction ds with
  | nil => rfl
  | cons d ds ih =>
    rw [bodyLoop, List.find?_cons]
    by_cases hb : d.in_ = c!"body"
    · simp only [hb, if_true, decide_true]
      cases d.schema with
      | error e => rfl
      | ok s =>
        simp only [Except.bind]
        cases Dict.get? p.body d.name with
        | none => rfl
        | some b => simp only; cases env.marshal ct b s <;> rfl
    · simp only [hb, if_false, decide_false, ih]

/-- **C63** (payload). Files win over form fields, form fields over the body; the body payload is
the value supplied for the first body parameter, marshalled for the chosen type with that
parameter's schema. -/
theorem C63_payload (env : Env β δ π) (op : Op δ) (p : Params β) (c : Option Str) (hf : Bool) (ct d fs)
    (h : prepareData env op p c hf = .ok (ct, d, fs)) :
    if p.file ≠ [] then
      if hf then ∃ b, d = .bytes b ∧ (prepareFiles env op p).map (·.2) = .ok b
      else d = .form p.formData
    else if p.formData ≠ [] then d = .text (urlencode p.formData)
    else if p.body ≠ [] then
      match op.parameters.find? (fun q => q.in_ = c!"body") with
      | none => d = .none ∧ ct = none
      | some q => ∃ s b x, q.schema = .ok s ∧ Dict.get? p.body q.name = some b ∧
          env.marshal (C24.bodyType op.consumes c) b s = .ok x ∧ d = .payload x
    else d = .none ∧ ct = none := by
  unfold prepareData at h
  by_cases h1 : p.file ≠ []
  · rw [if_pos h1] at h ⊢
    cases hf with
    | true =>
      simp only [if_true] at h ⊢
      cases hp : prepareFiles env op p with
      | error e => rw [hp] at h; cases h
      | ok x => rw [hp] at h; cases h; exact ⟨_, rfl, rfl⟩
    | false => simp only [Bool.false_eq_true, if_false] at h ⊢; cases h; rfl
  · rw [if_neg h1] at h ⊢
    by_cases h2 : p.formData ≠ []
    · rw [if_pos h2] at h ⊢
      unfold prepareForms at h
      by_cases hd : op.consumes ≠ [] ∧ formType ∉ op.consumes
      · rw [if_pos hd] at h; cases h
      · rw [if_neg hd] at h; cases h; rfl
    · rw [if_neg h2] at h ⊢
      by_cases h3 : p.body ≠ []
      · rw [if_pos h3, C24.prepareBody_eq] at h
        rw [if_pos h3]
        by_cases hd : C24.declared op.consumes (C24.bodyType op.consumes c)
        · rw [if_pos hd, bodyLoop_eq] at h
          cases hq : op.parameters.find? (fun q => q.in_ = c!"body") with
          | none => rw [hq] at h; cases h; exact ⟨rfl, rfl⟩
          | some q =>
            rw [hq] at h
            simp only at h ⊢
            cases hs : q.schema with
            | error e => rw [hs] at h; cases h
            | ok s =>
              rw [hs] at h
              simp only [Except.bind] at h
              cases hb : Dict.get? p.body q.name with
              | none => rw [hb] at h; cases h
              | some b =>
                rw [hb] at h
                simp only at h
                cases hm : env.marshal (C24.bodyType op.consumes c) b s with
                | error e => rw [hm] at h; cases h
                | ok x => rw [hm] at h; cases h; exact ⟨s, b, x, rfl, rfl, hm, rfl⟩
        · rw [if_neg hd] at h; cases h
      · rw [if_neg h3] at h ⊢; cases h; exact ⟨rfl, rfl⟩

/-- the header and query parameters with the credentials the client knows applied -/
def authorised (c : Client) (op : Op δ) (r : Req β π) : HQ :=
  match c.security with
  | none => ⟨r.p.header, r.p.query⟩
  | some info => applySecurity info op.security ⟨r.p.header, r.p.query⟩

/-- **C63** (sending). What a client hands to its HTTP library: the operation's method, the query
parameters with credentials, the prepared URL patched by the options, and headers composed from
the custom ones and a request header in which every header parameter and header credential is
found (unless it is named like the announced `Accept` or `Content-Type`). -/
theorem C63_sent (env : Env β δ π) (op : Op δ) (c : Client) (opt) (hs) (r : Req β π) (res)
    (h : send env op c opt hs r = .ok res) :
    res.sent.method = op.method ∧ res.sent.query = (authorised c op r).query ∧
    (∃ l s u, prepareSchemes c.schemes op.schemes = .ok l ∧ chooseScheme r.scheme (.list l) = .ok s ∧
      format env.fmtExt (pathParams r.p) op.url = .ok u ∧
      res.sent.url = (patch opt (s ++ c!":" ++ u)).1) ∧
    format env.fmtExt (pathParams r.p) op.path = .ok res.sent.path ∧
    ∃ (hdr : CIDict Str) (opt' : Dict Str (Option Str)) (ct : Option Str),
      (composeHeaders hdr hs opt' c.asDict).map (·.result) = .ok res.sent.headers ∧
      (∃ q, q.header = (authorised c op r).header ∧ q.path = r.p.path ∧ q.body = r.p.body ∧
        q.formData = r.p.formData ∧ q.file = r.p.file ∧
        prepareData env op q r.consume c.handleFiles = .ok (ct, res.sent.data, res.sent.files)) ∧
      ∀ k v, lastCI env.lower (authorised c op r).header k = some v →
        env.lower k ≠ env.lower c!"Accept" → env.lower k ≠ env.lower c!"Content-Type" →
        CIDict.getitem env.lower hdr k = .ok v := by
  obtain ⟨l, r2, hh, hl, h2, h3, rfl⟩ := C20.send_ok.1 h
  have hA : ∃ q, authorise c.security op (reset op r) =
      { reset op r with p := q } ∧ q.header = (authorised c op r).header ∧
        q.query = (authorised c op r).query ∧ q.path = r.p.path ∧ q.body = r.p.body ∧
        q.formData = r.p.formData ∧ q.file = r.p.file := by
    unfold authorise authorised
    cases c.security with
    | none => exact ⟨r.p, rfl, rfl, rfl, rfl, rfl, rfl, rfl⟩
    | some info => exact ⟨_, rfl, rfl, rfl, rfl, rfl, rfl, rfl⟩
  obtain ⟨q, hq, q1, q2, q3, q4, q5, q6⟩ := hA
  rw [hq] at h2
  obtain ⟨ct, d, fs, hd, hd1, hd2, hk⟩ := C63_headers env op _ _ _ _ (by rfl) h2
  obtain ⟨f1, f2, f3, f4, f5, f6, f7, f8⟩ := C63_frame env op _ _ _ _ h2
  obtain ⟨s, path, url, ct', data, files, acc, hs1, hp1, hu1, _, _, e⟩ := prepare_ok.1 h2
  have hpp : pathParams q = pathParams r.p := by unfold pathParams; rw [q3]
  simp only [reset, hpp] at hp1 hu1 hs1
  refine ⟨rfl, ?_, ⟨l, s, url, hl, hs1, hu1, ?_⟩, ?_, r2.header, (patch opt r2.url).2, ct, ?_, ?_, ?_⟩
  · simp only; rw [f1]; exact q2
  · simp only; rw [e]
  · simp only; rw [e]; exact hp1
  · rw [h3]; rfl
  · refine ⟨q, q1, q3, q4, q5, q6, ?_⟩
    simp only [hd1, hd2]
    exact hd
  · intro k v hv h1 h2'
    have := hk k
    rw [this]
    simp only [h1, h2', false_and, if_false]
    simp only [q1, hv]

/-! Non-vacuity: a header parameter overridden by the announced type. -/
example : (prepare C24.env C24.op (.str c!"http") true
    { (init C24.op { C24.ps with header := [(c!"X", c!"1"), (c!"x", c!"2"), (c!"accept", c!"no")] } : Req Nat Nat) with
      produce := some c!"a/b" }).toOption.map (fun r => (r.header.iteritems, r.data)) =
    some ([(c!"x", c!"2"), (c!"Accept", c!"a/b"), (c!"Content-Type", c!"application/json")], .payload 8) := by
  decide

end Props.C63
