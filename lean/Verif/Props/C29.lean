import Verif.Props.C28
/-!
# C29: a response is interpreted by the matching status entry, else by `default`
-/

namespace Props.C29
open Py Utils Io Props.C28

variable {η h σ τ ρ υ D : Type}

/-- the media type announced by the headers kept so far: the first `Content-Type` in any
capitalisation, JSON when there is none -/
def announced (env : REnv η h σ τ ρ υ D) (l : List (Str × η)) : Except Exc Str :=
  match under env.lower c!"content-type" l with
  | [] => .ok c!"application/json"
  | v :: _ => env.lowerValue v

/-- what becomes of a body: `none` is left unconverted -/
def interpret (env : REnv η h σ τ ρ υ D) (schema : Option σ) (only : Bool) (l : List (Str × η))
    (raw : ρ) : Except Exc (Option D) :=
  match schema, only with
  | some s, false => do
    let ct ← announced env l
    let t ← env.deref s
    let u ← env.unmarshal ct raw t
    let x ← env.prim s u
    pure (some x)
  | _, _ => .ok none

theorem mediaType_eq (env : REnv η h σ τ ρ υ D) (d : CIDict (List η)) (hd : Inv env.lower d)
    (hl : env.lower c!"content-type" = c!"content-type") :
    mediaType env d = match valuesOf env.lower d c!"content-type" with
      | [] => .ok c!"application/json"
      | v :: _ => env.lowerValue v := by
  unfold mediaType valuesOf
  rw [hl]
  have key : d.iteritems.find? (fun e => env.lower e.1 = c!"content-type") =
      Dict.get? d c!"content-type" := by
    have hk := hd.key
    clear hd
    induction d with
    | nil => rfl
    | cons p d ih =>
      obtain ⟨k, n, l⟩ := p
      have h0 := hk _ (List.mem_cons_self ..)
      simp only at h0
      have ih := ih (fun e he => hk e (List.mem_cons_of_mem _ he))
      simp only [CIDict.iteritems, List.map_cons, List.find?_cons, Dict.get?, ← h0] at ih ⊢
      by_cases hc : k = c!"content-type"
      · simp [hc]
      · simp only [hc, decide_false, if_false]
        exact ih
  rw [key]
  cases hg : Dict.get? d c!"content-type" with
  | none => rfl
  | some p =>
    obtain ⟨n, l⟩ := p
    have := hd.ne _ (Dict.mem_of_get? hg)
    cases l with
    | nil => exact absurd rfl this
    | cons v l => rfl

/-- **C29** (entry). The entry of the exact status wins even if it declares no schema; `default`
counts only when the status is not declared. -/
theorem C29_entry (table : Dict Str (RespDecl h σ)) (n : Int) :
    (∀ r, Dict.get? table (toString n).toList = some r → respDecl table (some n) = some r) ∧
    (Dict.get? table (toString n).toList = none → respDecl table (some n) = Dict.get? table c!"default") := by
  rw [respDecl_eq]
  unfold entry statusText
  exact ⟨fun r hr => by rw [hr]; rfl, fun hr => by rw [hr]; rfl⟩

/-- **C29**. After any history, with `raw_body_only` set to anything, a call that delivers a body
under a known status and whose headers convert: the body is interpreted with the schema of the
entry of that status and the media type announced by all headers received so far. The data is the
outcome; if the body is left unconverted or the conversion fails the data stays what it was. -/
theorem C29_body (env : REnv η h σ τ ρ υ D) (table : Dict Str (RespDecl h σ))
    (cs : List (RespCall ρ)) (only : Bool) (c : RespCall ρ) (raw : ρ) (n : Int)
    (hl : env.lower c!"content-type" = c!"content-type")
    (hraw : c.raw = some raw)
    (hn : latest ((cs ++ [c]).map (·.status)) none = some n)
    (hok : ∀ e ∈ c.header.getD [], (value env (entry table (some n)) e.1 e.2).isOk) :
    let s : Resp η ρ D := { applyAll env table Resp.init cs with rawBodyOnly := only }
    let out := interpret env ((entry table (some n)).bind (·.schema)) only
      (received env table none (cs ++ [c])) raw
    (applyWith env table s c).1.data =
      (match out with | .ok (some x) => some x | _ => s.data) ∧
    (applyWith env table s c).2 = (match out with | .error e => some e | .ok _ => none) := by
  intro s out
  obtain ⟨hi, hv, _⟩ := applyAll_spec env table cs (Resp.init (D := D)) (inv_nil _)
  have hst : (applyAll env table (Resp.init (η := η) (D := D)) cs).status = latest (cs.map (·.status)) none :=
    C28_status ..
  have hn' : latest [c.status] (latest (cs.map (·.status)) none) = some n := by
    rw [← hn]; simp [latest]
  have hn2 : c.status.or s.status = some n := by
    rw [← hn', ← hst]; cases c.status <;> rfl
  obtain ⟨j1, j2, j3⟩ := addHeaders_spec env (entry table (some n)) (c.header.getD []) s.header hi
  have hrec : under env.lower c!"content-type" (received env table none (cs ++ [c])) =
      valuesOf env.lower (addHeaders env (entry table (some n)) s.header (c.header.getD [])).1
        c!"content-type" := by
    rw [j2, show valuesOf env.lower s.header c!"content-type" =
      under env.lower c!"content-type" (received env table none cs) from by
        have := hv c!"content-type"
        exact this]
    have happ : ∀ (cs : List (RespCall ρ)) (s0 : Option Int), received env table s0 (cs ++ [c]) =
        received env table s0 cs ++
          kept env (entry table (latest [c.status] (latest (cs.map (·.status)) s0))) (c.header.getD []) := by
      intro cs
      induction cs with
      | nil => intro s0; simp [received, latest]
      | cons a cs ih =>
        intro s0
        simp only [List.cons_append, received, ih, List.append_assoc]
        rfl
    rw [happ, hn']
    simp [under]
  have hmt : mediaType env (addHeaders env (entry table (some n)) s.header (c.header.getD [])).1 =
      announced env (received env table none (cs ++ [c])) := by
    rw [mediaType_eq env _ j1 hl, announced, hrec]
  have hnone := j3.2 hok
  have hout : out = interpret env ((entry table (some n)).bind (·.schema)) only
      (received env table none (cs ++ [c])) raw := rfl
  clear_value out
  have hdata : s.rawBodyOnly = only := rfl
  have hsd : ∃ d, d = s.data := ⟨_, rfl⟩
  unfold applyWith
  simp only [hn2, respDecl_eq]
  generalize hA : addHeaders env (entry table (some n)) s.header (c.header.getD []) = a at hmt hnone
  obtain ⟨d, e⟩ := a
  subst hnone
  simp only at hmt ⊢
  rw [hraw]
  simp only
  cases he : entry table (some n) with
  | none => rw [he] at hout; subst hout; exact ⟨rfl, rfl⟩
  | some r =>
    simp only
    cases hs : r.schema with
    | none =>
      rw [he] at hout
      simp only [Option.bind_some, hs, interpret] at hout
      subst hout; exact ⟨rfl, rfl⟩
    | some sch =>
      rw [he] at hout
      simp only [Option.bind_some, hs] at hout
      simp only [hdata]
      cases only with
      | true => simp only [interpret] at hout; subst hout; exact ⟨rfl, rfl⟩
      | false =>
        simp only [interpret] at hout
        simp only [convertBody, hmt, Bool.false_eq_true, if_false]
        cases h1 : announced env (received env table none (cs ++ [c])) with
        | error e => rw [h1] at hout; subst hout; exact ⟨rfl, rfl⟩
        | ok ct =>
        rw [h1] at hout
        cases h2 : env.deref sch with
        | error e => simp only [h2, bind, Except.bind] at hout; subst hout; exact ⟨by simp [bind, Except.bind], by simp [bind, Except.bind]⟩
        | ok t =>
        cases h3 : env.unmarshal ct raw t with
        | error e => simp only [h2, h3, bind, Except.bind] at hout; subst hout; exact ⟨by simp [h3, bind, Except.bind], by simp [h3, bind, Except.bind]⟩
        | ok u =>
        cases h4 : env.prim sch u with
        | error e => simp only [h2, h3, h4, bind, Except.bind] at hout; subst hout; exact ⟨by simp [h3, h4, bind, Except.bind], by simp [h3, h4, bind, Except.bind]⟩
        | ok x => simp only [h2, h3, h4, bind, Except.bind, pure, Except.pure] at hout; subst hout; exact ⟨by simp [h3, h4, bind, Except.bind], by simp [h3, h4, bind, Except.bind]⟩

/-- **C29** (one call). On a new response one call with status, body and headers: the data is the
interpretation of the body, unset if left unconverted. -/
theorem C29_once (env : REnv η h σ τ ρ υ D) (table : Dict Str (RespDecl h σ)) (only : Bool)
    (n : Int) (raw : ρ) (hd : List (Str × Str)) (x : Option D)
    (hl : env.lower c!"content-type" = c!"content-type")
    (hok : ∀ e ∈ hd, (value env (entry table (some n)) e.1 e.2).isOk)
    (hx : interpret env ((entry table (some n)).bind (·.schema)) only
      (kept env (entry table (some n)) hd) raw = .ok x) :
    (applyWith env table { Resp.init with rawBodyOnly := only } ⟨some n, some raw, some hd⟩).1.data = x ∧
    (applyWith env table ({ Resp.init with rawBodyOnly := only } : Resp η ρ D)
      ⟨some n, some raw, some hd⟩).2 = none := by
  have := C29_body env table [] only ⟨some n, some raw, some hd⟩ raw n hl rfl rfl hok
  simp only [List.nil_append, received, latest, List.foldl_cons, List.foldl_nil,
    Option.getD_some, List.append_nil, hx] at this
  obtain ⟨h1, h2⟩ := this
  refine ⟨?_, h2⟩
  cases x with
  | none => exact h1
  | some y => exact h1

/-- **C29** (raw bodies). With `raw_body_only` no body is ever converted: the data stays unset
over any history. -/
theorem C29_raw_only (env : REnv η h σ τ ρ υ D) (table : Dict Str (RespDecl h σ))
    (cs : List (RespCall ρ)) :
    (applyAll env table ({ Resp.init with rawBodyOnly := true } : Resp η ρ D) cs).data = none := by
  have key : ∀ (s : Resp η ρ D), s.rawBodyOnly = true → s.data = none →
      (applyAll env table s cs).data = none := by
    induction cs with
    | nil => intro s _ h; exact h
    | cons c cs ih =>
      intro s hs hd
      have : (applyWith env table s c).1.rawBodyOnly = true ∧ (applyWith env table s c).1.data = none := by
        unfold applyWith
        simp only [hs]
        repeat' split
        all_goals first | exact ⟨hs, hd⟩ | simp_all
      exact ih _ this.1 this.2
  exact key _ rfl rfl

/-! ## examples -/

/-- the media type is lower-cased and used; a status not declared falls back to `default` -/
example :
    (applyWith world table0 Resp.init
      ⟨some 200, some c!"x", some [(c!"CONTENT-Type", c!"Text/Plain")]⟩).1.data = some c!"text/plain|x" ∧
    (applyWith world table0 Resp.init ⟨some 200, some c!"x", none⟩).1.data
      = some c!"application/json|x" ∧
    (applyWith world [(c!"default", ⟨[], some ()⟩)] Resp.init ⟨some 404, some c!"x", none⟩).1.data
      = some c!"application/json|x" ∧
    (applyWith world table0 Resp.init ⟨some 404, some c!"x", none⟩).1.data = none := by decide

/-- "Left unconverted" does not mean unset: a response used twice without `reset` keeps the data of
the earlier body beside the new raw body and status. -/
theorem C29_stale_data_false :
    ¬ ∀ (table : Dict Str (RespDecl Unit Unit)) (cs : List (RespCall Str)) (n : Int) (raw : Str),
      (entry table (some n)).bind (·.schema) = none →
      (applyAll world table Resp.init (cs ++ [⟨some n, some raw, none⟩])).data = none := by
  intro H
  have := H table0 [⟨some 200, some c!"x", none⟩] 404 c!"y" (by decide)
  revert this; decide

/-- Headers delivered after the body do not count: the body was already read as JSON. -/
theorem C29_late_headers_false :
    ¬ ∀ (table : Dict Str (RespDecl Unit Unit)) (n : Int) (raw : Str) (hd : List (Str × Str)),
      (applyAll world table Resp.init [⟨some n, some raw, none⟩, ⟨none, none, some hd⟩]).data =
      (applyAll world table Resp.init [⟨some n, none, some hd⟩, ⟨none, some raw, none⟩]).data := by
  intro H
  have := H table0 200 c!"x" [(c!"Content-Type", c!"text/plain")]
  revert this; decide

end Props.C29
