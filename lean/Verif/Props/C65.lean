import Verif.Model.Clients
import Verif.Props.C29
/-!
# C65: every bundled client reads a reply by its own status and headers

`Read … l out`: status and body are those of the reply, the body is interpreted with the schema of
the status entry and the media type announced by the headers `l`, and every header can be looked
up.
-/

namespace Props.C65
open Py Utils Io Core Clients Props.C28 Props.C29

variable {β δ π η h σ τ ρ υ D Q : Type}

/-- what the response and the exception must be for a reply whose media type is announced by `l` -/
structure Read (env : REnv η h σ τ ρ υ D) (table : Dict Str (RespDecl h σ)) (only : Bool)
    (reply : Reply ρ) (l : List (Str × η)) (out : Outcome Q η ρ D) : Prop where
  status : out.resp.status = some reply.status
  raw : out.resp.raw = some reply.body
  failed : ∀ e, interpret env ((entry table (some reply.status)).bind (·.schema)) only l reply.body =
    .error e → out.exc = some e ∧ out.resp.data = none
  data : ∀ x, interpret env ((entry table (some reply.status)).bind (·.schema)) only l reply.body =
    .ok x → out.exc = none ∧ out.resp.data = x
  headers : out.exc = none → ∀ k, CIDict.getitem env.lower out.resp.header k =
    if under env.lower k (kept env (entry table (some reply.status)) reply.headers) = []
    then .error .KeyError
    else .ok (under env.lower k (kept env (entry table (some reply.status)) reply.headers))

/-- the outcome of an exchange whose request was answered -/
theorem exchange_reply {w : World β δ π η h σ τ ρ υ D} {c : Client} {opt hs} {req : Req β π}
    {resp : Resp η ρ D} {build : Sent π → Req β π → Except Exc Q} {server calls} {q : Q} {reply}
    (hq : (exchange w c opt hs req resp build server calls).sent = some q)
    (hr : server q = .ok reply) :
    (exchange w c opt hs req resp build server calls).resp =
      (applySeq w.renv w.table resp.reset (calls reply)).1 ∧
    (exchange w c opt hs req resp build server calls).exc =
      (applySeq w.renv w.table resp.reset (calls reply)).2 := by
  unfold exchange at hq ⊢
  simp only at hq ⊢
  split at hq
  · cases hq
  · split at hq
    · cases hq
    · rename_i q' hb
      have hq' : q' = q := by
        split at hq <;> simpa using hq
      subst hq'
      simp only [hb, hr]
      exact ⟨trivial, trivial⟩

theorem seq_all (env : REnv η h σ τ ρ υ D) (table : Dict Str (RespDecl h σ)) (cs : List (RespCall ρ))
    (s : Resp η ρ D) (hn : (applySeq env table s cs).2 = none) :
    (applySeq env table s cs).1 = applyAll env table s cs := by
  induction cs generalizing s with
  | nil => rfl
  | cons c cs ih =>
    unfold applySeq at hn ⊢
    cases ha : applyWith env table s c with
    | mk s' e =>
      cases e with
      | some e => rw [ha] at hn; cases hn
      | none =>
        rw [ha] at hn
        simp only [applyAll, ha]
        exact ih s' hn

theorem reset_eq (resp : Resp η ρ D) : resp.reset = { Resp.init with rawBodyOnly := resp.rawBodyOnly } := rfl

theorem getitem_values (lower : Str → Str) (d : CIDict (List η)) (hd : Inv lower d) (k : Str) :
    CIDict.getitem lower d k =
      if valuesOf lower d k = [] then .error .KeyError else .ok (valuesOf lower d k) := by
  unfold CIDict.getitem valuesOf
  cases hg : Dict.get? d (lower k) with
  | none => simp
  | some p =>
    obtain ⟨k0, l⟩ := p
    have hm := Dict.mem_of_get? hg
    have := hd.ne _ hm
    simp only at this
    simp [this]

theorem branch {a b : List η} {i : Decidable (a = [])} {j : Decidable (b = [])} (hab : a = b) :
    (@ite _ (a = []) i (.error .KeyError) (.ok a) : Except Exc (List η)) =
      @ite _ (b = []) j (.error .KeyError) (.ok b) := by
  subst hab
  by_cases ha : a = []
  · rw [if_pos ha, if_pos ha]
  · rw [if_neg ha, if_neg ha]

/-- a reply applied in one call -/
theorem once_read {env : REnv η h σ τ ρ υ D} {table : Dict Str (RespDecl h σ)} {resp : Resp η ρ D}
    {reply : Reply ρ} {out : Outcome Q η ρ D}
    (h1 : out.resp = (applySeq env table resp.reset (atOnce reply)).1)
    (h2 : out.exc = (applySeq env table resp.reset (atOnce reply)).2)
    (hl : env.lower c!"content-type" = c!"content-type")
    (hok : ∀ e ∈ reply.headers, (value env (entry table (some reply.status)) e.1 e.2).isOk) :
    Read env table resp.rawBodyOnly reply (kept env (entry table (some reply.status)) reply.headers) out := by
  have hone : applySeq env table resp.reset (atOnce reply) =
      applyWith env table resp.reset ⟨some reply.status, some reply.body, some reply.headers⟩ := by
    unfold atOnce applySeq
    cases ha : applyWith env table resp.reset ⟨some reply.status, some reply.body, some reply.headers⟩ with
    | mk s e => cases e <;> rfl
  rw [hone] at h1 h2
  have hb := C29_body env table [] resp.rawBodyOnly
    ⟨some reply.status, some reply.body, some reply.headers⟩ reply.body reply.status hl rfl rfl hok
  simp only [List.nil_append, received, latest, List.foldl_cons, List.foldl_nil,
    Option.getD_some, List.append_nil, applyAll] at hb
  obtain ⟨hb1, hb2⟩ := hb
  rw [← reset_eq] at hb1 hb2
  obtain ⟨i1, i2, i3⟩ := addHeaders_spec env (entry table (some reply.status)) reply.headers
    (resp.reset).header (inv_nil _)
  constructor
  · rw [h1, applyWith_status]; rfl
  · rw [h1, applyWith_raw]
    exact if_pos (i3.2 hok)
  · intro e he
    rw [h1, h2, hb1, hb2, he]
    exact ⟨rfl, rfl⟩
  · intro x hx
    rw [h1, h2, hb1, hb2, hx]
    refine ⟨rfl, ?_⟩
    cases x <;> rfl
  · intro _ k
    rw [h1, applyWith_header]
    have e1 : latest [some reply.status] (resp.reset).status = some reply.status := rfl
    simp only [e1, Option.getD_some]
    rw [getitem_values _ _ i1, i2]
    exact branch (by simp [valuesOf, Resp.reset])

/-- **C65** (requests). -/
theorem C65_requests (w : World β δ π η h σ τ ρ υ D) (security) (opt) (hs) (req : Req β π)
    (resp : Resp η ρ D) (server : RequestsReq π → Except Exc (Reply ρ)) (q) (reply)
    (hq : (requestsRequest w security opt hs req resp server).sent = some q)
    (hr : server q = .ok reply)
    (hl : w.renv.lower c!"content-type" = c!"content-type")
    (hok : ∀ e ∈ reply.headers, (value w.renv (entry w.table (some reply.status)) e.1 e.2).isOk) :
    Read w.renv w.table resp.rawBodyOnly reply
      (kept w.renv (entry w.table (some reply.status)) reply.headers)
      (requestsRequest w security opt hs req resp server) :=
  once_read (exchange_reply hq hr).1 (exchange_reply hq hr).2 hl hok

/-- **C65** (flask). -/
theorem C65_flask (w : World β δ π η h σ τ ρ υ D) (security) (opt) (hs) (req : Req β π)
    (resp : Resp η ρ D) (server : FlaskReq π → Except Exc (Reply ρ)) (q) (reply)
    (hq : (flaskRequest w security opt hs req resp server).sent = some q)
    (hr : server q = .ok reply)
    (hl : w.renv.lower c!"content-type" = c!"content-type")
    (hok : ∀ e ∈ reply.headers, (value w.renv (entry w.table (some reply.status)) e.1 e.2).isOk) :
    Read w.renv w.table resp.rawBodyOnly reply
      (kept w.renv (entry w.table (some reply.status)) reply.headers)
      (flaskRequest w security opt hs req resp server) :=
  once_read (exchange_reply hq hr).1 (exchange_reply hq hr).2 hl hok

/-- **C65** (webapp2). -/
theorem C65_webapp2 (w : World β δ π η h σ τ ρ υ D) (security keep ck) (opt) (hs) (req : Req β π)
    (resp : Resp η ρ D) (server : WebReq π → Except Exc (Reply ρ)) (q) (reply)
    (hq : (webRequest w security keep ck opt hs req resp server).1.sent = some q)
    (hr : server q = .ok reply)
    (hl : w.renv.lower c!"content-type" = c!"content-type")
    (hok : ∀ e ∈ reply.headers, (value w.renv (entry w.table (some reply.status)) e.1 e.2).isOk) :
    Read w.renv w.table resp.rawBodyOnly reply
      (kept w.renv (entry w.table (some reply.status)) reply.headers)
      (webRequest w security keep ck opt hs req resp server).1 :=
  once_read (exchange_reply hq hr).1 (exchange_reply hq hr).2 hl hok

theorem applyWith_header_only (env : REnv η h σ τ ρ υ D) (table : Dict Str (RespDecl h σ))
    (s : Resp η ρ D) (kv : Str × Str)
    (hok : (value env (entry table s.status) kv.1 kv.2).isOk) (hs : Inv env.lower s.header) :
    (applyWith env table s ⟨none, none, some [kv]⟩).2 = none ∧
    (applyWith env table s ⟨none, none, some [kv]⟩).1.data = s.data := by
  have h3 := (addHeaders_spec env (entry table s.status) [kv] s.header hs).2.2.2 (by simpa using hok)
  unfold applyWith
  simp only [Option.none_or, Option.getD_some, respDecl_eq]
  generalize addHeaders env (entry table s.status) s.header [kv] = a at h3
  obtain ⟨d, e⟩ := a
  simp only at h3
  subst h3
  exact ⟨rfl, rfl⟩

/-- the headers of a reply applied one by one -/
theorem seq_headers (env : REnv η h σ τ ρ υ D) (table : Dict Str (RespDecl h σ))
    (hd : List (Str × Str)) (s : Resp η ρ D) (hs : Inv env.lower s.header)
    (hok : ∀ e ∈ hd, (value env (entry table s.status) e.1 e.2).isOk) :
    let calls := hd.map (fun kv => (⟨none, none, some [kv]⟩ : RespCall ρ))
    (applySeq env table s calls).2 = none ∧ (applySeq env table s calls).1.data = s.data ∧
    (applySeq env table s calls).1.status = s.status ∧ (applySeq env table s calls).1.raw = s.raw ∧
    Inv env.lower (applySeq env table s calls).1.header ∧
    ∀ q, valuesOf env.lower (applySeq env table s calls).1.header q =
      valuesOf env.lower s.header q ++ under env.lower q (kept env (entry table s.status) hd) := by
  induction hd generalizing s with
  | nil => exact ⟨rfl, rfl, rfl, rfl, hs, by simp [applySeq, kept, under]⟩
  | cons kv hd ih =>
    intro calls
    obtain ⟨h1, h2⟩ := applyWith_header_only env table s kv (hok kv (by simp)) hs
    have hst : (applyWith env table s ⟨none, none, some [kv]⟩).1.status = s.status := by
      rw [applyWith_status]; rfl
    have hrw : (applyWith env table s ⟨none, none, some [kv]⟩).1.raw = s.raw := by
      rw [applyWith_raw]; split <;> rfl
    obtain ⟨i1, i2, i3⟩ := addHeaders_spec env (entry table s.status) [kv] s.header hs
    have hhd : (applyWith env table s ⟨none, none, some [kv]⟩).1.header =
        (addHeaders env (entry table s.status) s.header [kv]).1 := by
      rw [applyWith_header]; rfl
    have hinv : Inv env.lower (applyWith env table s ⟨none, none, some [kv]⟩).1.header := by
      rw [hhd]; exact i1
    have hstep : applySeq env table s calls =
        applySeq env table (applyWith env table s ⟨none, none, some [kv]⟩).1
          (hd.map (fun kv => (⟨none, none, some [kv]⟩ : RespCall ρ))) := by
      show applySeq env table s ((⟨none, none, some [kv]⟩ : RespCall ρ) :: _) = _
      rw [applySeq]
      generalize applyWith env table s ⟨none, none, some [kv]⟩ = a at h1
      obtain ⟨s', e⟩ := a
      simp only at h1
      subst h1
      rfl
    obtain ⟨j1, j2, j3, j4, j5, j6⟩ := ih (applyWith env table s ⟨none, none, some [kv]⟩).1 hinv
      (by rw [hst]; exact fun e he => hok e (by simp [he]))
    rw [hstep]
    refine ⟨j1, j2.trans h2, j3.trans hst, j4.trans hrw, j5, fun q => ?_⟩
    rw [j6, hst, hhd, i2, List.append_assoc]
    congr 1
    obtain ⟨k, v⟩ := kv
    have hv := hok (k, v) (by simp)
    cases hval : value env (entry table s.status) k v with
    | error e => simp [hval, Except.isOk, Except.toBool] at hv
    | ok x =>
      simp only [kept, hval, under, List.filter_cons, List.filter_nil]
      split <;> simp

/-- **C65** (tornado). The tornado client reads the body of every reply as if it had no headers,
that is, as JSON; the rest is as with the other clients. -/
theorem C65_tornado (w : World β δ π η h σ τ ρ υ D) (security) (opt) (hs) (req : Req β π)
    (resp : Resp η ρ D) (server : TornadoReq π → Except Exc (Reply ρ)) (q) (reply)
    (hq : (tornadoRequest w security opt hs req resp server).sent = some q)
    (hr : server q = .ok reply)
    (hl : w.renv.lower c!"content-type" = c!"content-type")
    (hok : ∀ e ∈ reply.headers, (value w.renv (entry w.table (some reply.status)) e.1 e.2).isOk) :
    Read w.renv w.table resp.rawBodyOnly reply [] (tornadoRequest w security opt hs req resp server) := by
  obtain ⟨h1, h2⟩ := exchange_reply hq hr
  change (tornadoRequest w security opt hs req resp server).resp = _ at h1
  change (tornadoRequest w security opt hs req resp server).exc = _ at h2
  generalize tornadoRequest w security opt hs req resp server = out at h1 h2
  have hb := C29_body w.renv w.table [] resp.rawBodyOnly
    ⟨some reply.status, some reply.body, none⟩ reply.body reply.status hl rfl rfl (by simp)
  simp only [List.nil_append, received, latest, List.foldl_cons, List.foldl_nil,
    Option.getD_none, applyAll, kept] at hb
  obtain ⟨hb1, hb2⟩ := hb
  rw [← reset_eq] at hb1 hb2
  have hst : (applyWith w.renv w.table resp.reset ⟨some reply.status, some reply.body, none⟩).1.status =
      some reply.status := by rw [applyWith_status]; rfl
  have hrw : (applyWith w.renv w.table resp.reset ⟨some reply.status, some reply.body, none⟩).1.raw =
      some reply.body := by
    rw [applyWith_raw]; rfl
  have hhd : (applyWith w.renv w.table resp.reset ⟨some reply.status, some reply.body, none⟩).1.header = [] := by
    rw [applyWith_header]; rfl
  unfold tornadoCalls at h1 h2
  rw [applySeq] at h1 h2
  generalize applyWith w.renv w.table resp.reset ⟨some reply.status, some reply.body, none⟩ = a at *
  obtain ⟨s, e⟩ := a
  simp only at hb1 hb2 hst hrw hhd
  cases e with
  | some e =>
    simp only at h1 h2
    constructor
    · rw [h1]; exact hst
    · rw [h1]; exact hrw
    · intro e' he
      rw [he] at hb1 hb2
      rw [h1, h2, hb2]
      exact ⟨rfl, hb1⟩
    · intro x hx
      rw [hx] at hb2
      cases hb2
    · intro hn
      rw [h2] at hn; cases hn
  | none =>
    simp only at h1 h2
    obtain ⟨j1, j2, j3, j4, j5, j6⟩ := seq_headers w.renv w.table reply.headers s
      (by rw [hhd]; exact inv_nil _) (by rw [hst]; exact hok)
    constructor
    · rw [h1, j3]; exact hst
    · rw [h1, j4]; exact hrw
    · intro e' he
      rw [he] at hb2
      cases hb2
    · intro x hx
      rw [hx] at hb1
      rw [h1, h2, j1, j2, hb1]
      refine ⟨rfl, ?_⟩
      cases x <;> rfl
    · intro _ k
      rw [h1, getitem_values _ _ j5, j6, hhd, hst]
      exact branch (by simp [valuesOf])

/-! ## Concrete replies -/

/-- `GET /p`; the body is read as `type|body` for its media type -/
def world : World Unit Unit Unit Str Unit Unit Unit Str Str Str where
  env := ⟨fun _ _ _ => .ok (), id, fun _ _ => .error .KeyError, fun _ => .ok [], fun _ => .ok [], c!"b"⟩
  renv := ⟨fun s => s.map Char.toLower, id, fun _ v => .ok v, .ok, fun _ => .ok (),
    fun ct raw _ => .ok (ct ++ c!"|" ++ raw), fun _ v => .ok v⟩
  op := ⟨c!"//h/p", c!"/p", c!"get", [], [], [c!"http"], none, []⟩
  table := [(c!"default", ⟨[], some ()⟩)]
  upper := id

def request : Req Unit Unit := init world.op ⟨[], [], [], [], [], []⟩

/-- a reply of plain text -/
def plain : Reply Str := ⟨200, [(c!"Content-Type", c!"text/plain")], c!"hi"⟩

/-- requests, flask and webapp2 read it as plain text -/
example : (requestsRequest world none [] .none request Resp.init (fun _ => .ok plain)).resp.data =
      some c!"text/plain|hi" ∧
    (flaskRequest world none [] .none request Resp.init (fun _ => .ok plain)).resp.data =
      some c!"text/plain|hi" ∧
    (webRequest world none false none [] .none request Resp.init (fun _ => .ok plain)).1.resp.data =
      some c!"text/plain|hi" := by decide +kernel

/-- The tornado client reads a reply of plain text as JSON. -/
theorem C65_tornado_false :
    ∃ (w : World Unit Unit Unit Str Unit Unit Unit Str Str Str) (reply : Reply Str),
      (requestsRequest w none [] .none request Resp.init (fun _ => .ok reply)).resp.data =
        some c!"text/plain|hi" ∧
      (tornadoRequest w none [] .none request Resp.init (fun _ => .ok reply)).resp.data =
        some c!"application/json|hi" :=
  ⟨world, plain, by decide +kernel, by decide +kernel⟩

end Props.C65
