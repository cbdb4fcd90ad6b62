import Verif.Model.Response
import Verif.Proofs.Dict
/-!
# C28: responses accumulate headers, status and raw data faithfully

A history is a list of `apply_with` calls, exceptions caught by the caller. `latest l x` is the
last value given, `x` if none was. `kept` lists what a call keeps of the headers it delivers:
every header up to the first one whose conversion fails.
-/

namespace Props.C28
open Py Utils Io

variable {η h σ τ ρ υ D : Type}

/-- the last value given in `l`, else `x` -/
def latest {α : Type} (l : List (Option α)) (x : Option α) : Option α :=
  l.foldl (fun acc o => match o with | some v => some v | none => acc) x

/-- the declaration a status selects -/
def entry (table : Dict Str (RespDecl h σ)) (status : Option Int) : Option (RespDecl h σ) :=
  (Dict.get? table (statusText status)).or (Dict.get? table c!"default")

/-- the value kept for a header: converted if the entry declares a header of exactly that
spelling, else the text -/
def value (env : REnv η h σ τ ρ υ D) (r : Option (RespDecl h σ)) (k v : Str) : Except Exc η :=
  match r.bind (fun r => Dict.get? r.headers k) with
  | some d => env.convert d v
  | none => .ok (env.keep v)

/-- the headers kept of those delivered by one call -/
def kept (env : REnv η h σ τ ρ υ D) (r : Option (RespDecl h σ)) : List (Str × Str) → List (Str × η)
  | [] => []
  | (k, v) :: l =>
    match value env r k v with
    | .ok x => (k, x) :: kept env r l
    | .error _ => []

/-- the headers kept of a history that starts with status `s` -/
def received (env : REnv η h σ τ ρ υ D) (table : Dict Str (RespDecl h σ)) :
    Option Int → List (RespCall ρ) → List (Str × η)
  | _, [] => []
  | s, c :: cs =>
    kept env (entry table (latest [c.status] s)) (c.header.getD []) ++
      received env table (latest [c.status] s) cs

/-- all the values kept under a name, in any capitalisation -/
def under (lower : Str → Str) (k : Str) (l : List (Str × η)) : List η :=
  (l.filter (fun e => lower k = lower e.1)).map Prod.snd

/-- the raw bodies stored by a history: those of the calls all of whose headers converted -/
def bodies (env : REnv η h σ τ ρ υ D) (table : Dict Str (RespDecl h σ)) :
    Option Int → List (RespCall ρ) → List (Option ρ)
  | _, [] => []
  | s, c :: cs =>
    (if ∀ e ∈ c.header.getD [], (value env (entry table (latest [c.status] s)) e.1 e.2).isOk
      then c.raw else none) ::
      bodies env table (latest [c.status] s) cs

/-! ## helper lemmas -/

theorem respDecl_eq (table : Dict Str (RespDecl h σ)) (s) : respDecl table s = entry table s := by
  unfold respDecl entry
  cases Dict.get? table (statusText s) <;> rfl

theorem headerValue_eq (env : REnv η h σ τ ρ υ D) (r) (k v) :
    headerValue env r k v = value env r k v := by
  unfold headerValue value
  cases r with
  | none => rfl
  | some r =>
    simp only [Option.bind_some]
    cases Dict.get? r.headers k <;> rfl

/-- the values under a name, empty if none -/
def valuesOf (lower : Str → Str) (d : CIDict (List η)) (k : Str) : List η :=
  match Dict.get? d (lower k) with
  | some (_, l) => l
  | none => []

/-- the header store: keys are the lower-cased names, no name is kept without value -/
structure Inv (lower : Str → Str) (d : CIDict (List η)) : Prop where
  wf : Dict.WF d
  key : ∀ e ∈ d, e.1 = lower e.2.1
  ne : ∀ e ∈ d, e.2.2 ≠ []

theorem inv_nil (lower : Str → Str) : Inv (η := η) lower [] :=
  ⟨Dict.WF_nil, by simp, by simp⟩

theorem mem_set {α β : Type} [DecidableEq α] {d : Dict α β} {k : α} {v : β} {e : α × β}
    (h : e ∈ Dict.set d k v) : e = (k, v) ∨ e ∈ d := by
  induction d with
  | nil => simp [Dict.set] at h; exact Or.inl h
  | cons p d ih =>
    obtain ⟨k', v'⟩ := p
    simp only [Dict.set] at h
    split at h
    next hk =>
      subst hk
      rcases List.mem_cons.1 h with h | h
      · exact Or.inl h
      · exact Or.inr (List.mem_cons_of_mem _ h)
    next hk =>
      rcases List.mem_cons.1 h with h | h
      · exact Or.inr (h ▸ List.mem_cons_self ..)
      · rcases ih h with h | h
        · exact Or.inl h
        · exact Or.inr (List.mem_cons_of_mem _ h)

theorem inv_add {lower : Str → Str} {d : CIDict (List η)} (hd : Inv lower d) (k : Str) (x : η) :
    Inv lower (addHeader lower d k x) := by
  unfold addHeader
  split
  next k0 l hg =>
    refine ⟨Dict.WF_set hd.wf _ _, ?_, ?_⟩
    · intro e he
      rcases mem_set he with rfl | he
      · have := hd.key _ (Dict.mem_of_get? hg)
        exact this
      · exact hd.key e he
    · intro e he
      rcases mem_set he with rfl | he
      · simp
      · exact hd.ne e he
  next hg =>
    refine ⟨Dict.WF_set hd.wf _ _, ?_, ?_⟩
    · intro e he
      rcases mem_set he with rfl | he
      · rfl
      · exact hd.key e he
    · intro e he
      rcases mem_set he with rfl | he
      · simp
      · exact hd.ne e he

theorem valuesOf_add (lower : Str → Str) (d : CIDict (List η)) (k : Str) (x : η) (q : Str) :
    valuesOf lower (addHeader lower d k x) q =
      valuesOf lower d q ++ under lower q [(k, x)] := by
  unfold valuesOf addHeader under
  by_cases hq : lower q = lower k
  · rw [hq]
    cases hg : Dict.get? d (lower k) with
    | none => simp [CIDict.setitem, Dict.get?_set_self]
    | some p => simp [Dict.get?_set_self]
  · cases hg : Dict.get? d (lower k) with
    | none => simp [CIDict.setitem, Dict.get?_set_ne _ _ hq, hq]
    | some p => simp [Dict.get?_set_ne _ _ hq, hq]

theorem addHeaders_spec (env : REnv η h σ τ ρ υ D) (r) (l : List (Str × Str)) (d : CIDict (List η))
    (hd : Inv env.lower d) :
    Inv env.lower (addHeaders env r d l).1 ∧
    (∀ q, valuesOf env.lower (addHeaders env r d l).1 q =
      valuesOf env.lower d q ++ under env.lower q (kept env r l)) ∧
    ((addHeaders env r d l).2 = none ↔ ∀ e ∈ l, (value env r e.1 e.2).isOk) := by
  induction l generalizing d with
  | nil => exact ⟨hd, by simp [addHeaders, kept, under], by simp [addHeaders]⟩
  | cons p l ih =>
    obtain ⟨k, v⟩ := p
    simp only [addHeaders, kept, headerValue_eq]
    cases hv : value env r k v with
    | error e =>
      refine ⟨hd, by simp [under], ?_⟩
      simp [hv, Except.isOk, Except.toBool]
    | ok x =>
      obtain ⟨h1, h2, h3⟩ := ih _ (inv_add hd k x)
      refine ⟨h1, ?_, ?_⟩
      · intro q
        rw [h2, valuesOf_add, List.append_assoc]
        congr 1
        simp only [under, List.filter_cons]
        split <;> simp
      · rw [h3]; simp [hv, Except.isOk, Except.toBool]

theorem applyWith_status (env : REnv η h σ τ ρ υ D) (table) (s : Resp η ρ D) (c : RespCall ρ) :
    (applyWith env table s c).1.status = latest [c.status] s.status := by
  have : latest [c.status] s.status = c.status.or s.status := by
    cases c.status <;> rfl
  rw [this]
  unfold applyWith
  simp only
  repeat' split
  all_goals first | rfl | simp_all

theorem applyWith_header (env : REnv η h σ τ ρ υ D) (table) (s : Resp η ρ D) (c : RespCall ρ) :
    (applyWith env table s c).1.header =
      (addHeaders env (entry table (latest [c.status] s.status)) s.header (c.header.getD [])).1 := by
  have : latest [c.status] s.status = c.status.or s.status := by
    cases c.status <;> rfl
  rw [this, ← respDecl_eq]
  unfold applyWith
  simp only
  generalize addHeaders _ _ _ _ = a
  obtain ⟨d, e⟩ := a
  cases e <;> simp only
  repeat' split
  all_goals rfl

theorem applyWith_raw (env : REnv η h σ τ ρ υ D) (table) (s : Resp η ρ D) (c : RespCall ρ) :
    (applyWith env table s c).1.raw =
      if (addHeaders env (entry table (latest [c.status] s.status)) s.header (c.header.getD [])).2 = none
      then latest [c.raw] s.raw else s.raw := by
  have : latest [c.status] s.status = c.status.or s.status := by
    cases c.status <;> rfl
  rw [this, ← respDecl_eq]
  unfold applyWith
  simp only
  generalize addHeaders _ _ _ _ = a
  obtain ⟨d, e⟩ := a
  cases e <;> simp only
  · rw [if_pos trivial]
    cases c.raw <;> simp only
    · rfl
    · repeat' split
      all_goals rfl
  · rw [if_neg (by simp)]

theorem applyAll_spec (env : REnv η h σ τ ρ υ D) (table) (cs : List (RespCall ρ)) (s : Resp η ρ D)
    (hs : Inv env.lower s.header) :
    Inv env.lower (applyAll env table s cs).header ∧
    (∀ q, valuesOf env.lower (applyAll env table s cs).header q =
      valuesOf env.lower s.header q ++ under env.lower q (received env table s.status cs)) ∧
    (applyAll env table s cs).raw = latest (bodies env table s.status cs) s.raw := by
  induction cs generalizing s with
  | nil => exact ⟨hs, by simp [applyAll, received, under], rfl⟩
  | cons c cs ih =>
    obtain ⟨i1, i2, i3⟩ := addHeaders_spec env (entry table (latest [c.status] s.status))
      (c.header.getD []) s.header hs
    have hs' : Inv env.lower (applyWith env table s c).1.header := by
      rw [applyWith_header]; exact i1
    obtain ⟨h1, h2, h3⟩ := ih _ hs'
    refine ⟨h1, ?_, ?_⟩
    · intro q
      simp only [applyAll, received]
      rw [h2, applyWith_header, i2, applyWith_status, List.append_assoc]
      simp [under]
    · simp only [applyAll, bodies]
      rw [h3, applyWith_status, applyWith_raw]
      by_cases hk : ∀ e ∈ c.header.getD [], (value env (entry table (latest [c.status] s.status)) e.1 e.2).isOk
      · rw [if_pos (i3.2 hk), if_pos hk]
        rfl
      · rw [if_neg (fun hc => hk (i3.1 hc)), if_neg hk]
        rfl

/-! ## the property -/

/-- **C28** (status). After any history, failed calls included, the status is the last one given. -/
theorem C28_status (env : REnv η h σ τ ρ υ D) (table) (cs : List (RespCall ρ)) (s : Resp η ρ D) :
    (applyAll env table s cs).status = latest (cs.map (·.status)) s.status := by
  induction cs generalizing s with
  | nil => rfl
  | cons c cs ih => rw [applyAll, ih, applyWith_status]; rfl

/-- **C28** (headers). After any history from a new response, failed calls included, looking up a
header in any capitalisation gives all the values kept for it, in order of arrival, and
`KeyError` if there are none. -/
theorem C28_headers (env : REnv η h σ τ ρ υ D) (table) (cs : List (RespCall ρ)) (k : Str) :
    CIDict.getitem env.lower (applyAll env table (Resp.init (D := D)) cs).header k =
      if under env.lower k (received env table none cs) = [] then .error .KeyError
      else .ok (under env.lower k (received env table none cs)) := by
  obtain ⟨h1, h2, _⟩ := applyAll_spec env table cs (Resp.init (D := D)) (inv_nil _)
  have h2 := h2 k
  have h0 : valuesOf env.lower (Resp.init (η := η) (ρ := ρ) (D := D)).header k = [] := rfl
  have hst : (Resp.init (η := η) (ρ := ρ) (D := D)).status = none := rfl
  rw [h0, hst, List.nil_append] at h2
  rw [← h2]
  unfold CIDict.getitem valuesOf
  cases hg : Dict.get? (applyAll env table (Resp.init (D := D)) cs).header (env.lower k) with
  | none => rfl
  | some p =>
    have := h1.ne _ (Dict.mem_of_get? hg)
    simp only at this ⊢
    rw [if_neg this]

/-- **C28** (raw). After any history, the raw body is that of the last call that delivered one and
whose headers all converted. -/
theorem C28_raw (env : REnv η h σ τ ρ υ D) (table) (cs : List (RespCall ρ)) :
    (applyAll env table (Resp.init (D := D)) cs).raw = latest (bodies env table none cs) none :=
  (applyAll_spec env table cs (Resp.init (D := D)) (inv_nil _)).2.2

/-- **C28** (raw, without failing conversions). If no header conversion fails, the raw body is the
last one given. -/
theorem C28_raw_last (env : REnv η h σ τ ρ υ D) (table) (cs : List (RespCall ρ))
    (hok : ∀ d v, (env.convert d v).isOk) :
    (applyAll env table (Resp.init (D := D)) cs).raw = latest (cs.map (·.raw)) none := by
  have hv : ∀ r k v, (value env r k v).isOk := by
    intro r k v
    unfold value
    split
    · exact hok _ _
    · rfl
  have hb : ∀ s, bodies env table s cs = cs.map (·.raw) := by
    induction cs with
    | nil => intro s; rfl
    | cons c cs ih => intro s; rw [bodies, if_pos (fun e _ => hv _ _ _), ih]; rfl
  rw [C28_raw, hb]

/-- **C28** (order). A call that delivers a body before any status was given raises, provided its
headers convert. -/
theorem C28_status_first (env : REnv η h σ τ ρ υ D) (table) (cs : List (RespCall ρ)) (raw : ρ) (hd)
    (hs : ∀ c ∈ cs, c.status = none)
    (hok : ∀ e ∈ hd.getD [], (value env (entry table none) e.1 e.2).isOk) :
    (applyWith env table (applyAll env table (Resp.init (D := D)) cs) ⟨none, some raw, hd⟩).2 =
      some .Exception := by
  have hst : (applyAll env table (Resp.init (D := D)) cs).status = none := by
    rw [C28_status]
    have : ∀ x : Option Int, latest (cs.map (·.status)) x = x := by
      induction cs with
      | nil => intro x; rfl
      | cons c cs ih =>
        intro x
        have hc := hs c (List.mem_cons_self ..)
        simp only [latest, List.map_cons, List.foldl_cons, hc]
        exact ih (fun c hc => hs c (List.mem_cons_of_mem _ hc)) x
    rw [this]; rfl
  obtain ⟨hi, _, _⟩ := applyAll_spec env table cs (Resp.init (D := D)) (inv_nil _)
  generalize applyAll env table (Resp.init (D := D)) cs = s at *
  obtain ⟨_, _, i3⟩ := addHeaders_spec env (entry table none) (hd.getD []) s.header hi
  have := i3.2 hok
  unfold applyWith
  simp only [hst, respDecl_eq, Option.or_none]
  generalize addHeaders env (entry table none) s.header (hd.getD []) = a at this
  obtain ⟨d, e⟩ := a
  subst this
  rfl

/-- **C28** (reset). `reset` forgets everything delivered before; the option stays. -/
theorem C28_reset (env : REnv η h σ τ ρ υ D) (table) (s : Resp η ρ D) (cs : List (RespCall ρ)) :
    s.reset.rawBodyOnly = s.rawBodyOnly ∧
    (∀ k, CIDict.getitem env.lower (applyAll env table s.reset cs).header k =
      CIDict.getitem env.lower (applyAll env table (Resp.init (D := D)) cs).header k) ∧
    (applyAll env table s.reset cs).status = (applyAll env table (Resp.init (D := D)) cs).status ∧
    (applyAll env table s.reset cs).raw = (applyAll env table (Resp.init (D := D)) cs).raw ∧
    s.reset.data = none := by
  obtain ⟨a1, a2, a3⟩ := applyAll_spec env table cs s.reset (inv_nil _)
  obtain ⟨b1, b2, b3⟩ := applyAll_spec env table cs (Resp.init (D := D)) (inv_nil _)
  refine ⟨rfl, ?_, ?_, ?_, rfl⟩
  · intro k
    have e : valuesOf env.lower (applyAll env table s.reset cs).header k =
        valuesOf env.lower (applyAll env table (Resp.init (D := D)) cs).header k := by
      rw [a2, b2]; rfl
    unfold CIDict.getitem
    unfold valuesOf at e
    cases ha : Dict.get? (applyAll env table s.reset cs).header (env.lower k) with
    | none =>
      cases hb : Dict.get? (applyAll env table (Resp.init (D := D)) cs).header (env.lower k) with
      | none => rfl
      | some q =>
        rw [ha, hb] at e
        exact absurd e.symm (b1.ne _ (Dict.mem_of_get? hb))
    | some p =>
      cases hb : Dict.get? (applyAll env table (Resp.init (D := D)) cs).header (env.lower k) with
      | none =>
        rw [ha, hb] at e
        exact absurd e (a1.ne _ (Dict.mem_of_get? ha))
      | some q =>
        rw [ha, hb] at e
        simp only at e ⊢
        rw [e]
  · rw [C28_status, C28_status]; rfl
  · rw [a3, b3]; rfl

/-! ## examples -/

/-- a world in which header values are numbers if declared -/
def world : REnv (Str ⊕ Nat) Unit Unit Unit Str Str Str where
  lower := fun s => s.map Char.toLower
  keep := .inl
  convert := fun _ v => match v with | ['7'] => .ok (.inr 7) | _ => .error .ValueError
  lowerValue := fun v => match v with | .inl s => .ok (s.map Char.toLower) | .inr _ => .error .AttributeError
  deref := .ok
  unmarshal := fun ct raw _ => .ok (ct ++ '|' :: raw)
  prim := fun _ x => .ok x

def table0 : Dict Str (RespDecl Unit Unit) :=
  [(c!"200", ⟨[(c!"X-N", ())], some ()⟩), (c!"default", ⟨[], none⟩)]

def calls0 : List (RespCall Str) :=
  [⟨some 200, none, some [(c!"X-N", c!"7"), (c!"Set-Cookie", c!"a")]⟩,
   ⟨none, some c!"body", some [(c!"SET-cookie", c!"b")]⟩]

example :
    (applyAll world table0 Resp.init calls0).status = some 200 ∧
    (applyAll world table0 Resp.init calls0).raw = some c!"body" ∧
    (CIDict.getitem world.lower (applyAll world table0 Resp.init calls0).header c!"set-COOKIE").toOption
      = some [.inl c!"a", .inl c!"b"] ∧
    (CIDict.getitem world.lower (applyAll world table0 Resp.init calls0).header c!"x-n").toOption
      = some [.inr 7] := by decide

example : (applyWith world table0 Resp.init ⟨none, some c!"x", none⟩).2 = some .Exception := by decide

/-- Header declarations are matched by exact spelling: the same header in another capitalisation
is kept as text although it is found under the declared name. -/
theorem C28_declared_spelling_false :
    ¬ ∀ (table : Dict Str (RespDecl Unit Unit)) (k k' v : Str),
      world.lower k = world.lower k' →
      (CIDict.getitem world.lower (applyWith world table Resp.init ⟨some 200, none, some [(k, v)]⟩).1.header k).toOption =
      (CIDict.getitem world.lower (applyWith world table Resp.init ⟨some 200, none, some [(k', v)]⟩).1.header k).toOption := by
  intro H
  have := H table0 c!"X-N" c!"x-n" c!"7" (by decide)
  revert this; decide

end Props.C28
