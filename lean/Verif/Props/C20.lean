import Verif.Props.C27
import Verif.Props.C18
/-!
# C20: resending a request rebuilds the same request

`send` is the common part of the `request` methods of the four clients: reset, authorise, choose
the scheme, prepare, patch the URL, compose the headers; its result contains everything handed to
the HTTP library (`sent`) and the request object afterwards (`req`).
-/

namespace Props.C20
open Py Utils Io Core

variable {β δ π : Type}

/-- Sending a request `n + 1` times through the same client with equal options and headers,
drawing the boundaries `bs` one after the other: everything that was sent. -/
def sends (env : Env β δ π) (op : Op δ) (c : Client) (opt : Dict Str (Option Str)) (hs : HeadersArg) :
    List Str → Req β π → Except Exc (List (Sent π))
  | [], _ => .ok []
  | b :: bs, r => do
    let res ← send { env with boundary := b } op c opt hs r
    let rest ← sends env op c opt hs bs res.req
    return res.sent :: rest

/-- the result of `send`, taken apart -/
theorem send_ok {env : Env β δ π} {op : Op δ} {c : Client} {opt} {hs} {r : Req β π} {res} :
    send env op c opt hs r = .ok res ↔
      ∃ l r2 h, prepareSchemes c.schemes op.schemes = .ok l ∧
        prepare env op (.list l) c.handleFiles (authorise c.security op (reset op r)) = .ok r2 ∧
        composeHeaders r2.header hs (patch opt r2.url).2 c.asDict = .ok h ∧
        res = ⟨⟨op.method, (patch opt r2.url).1, r2.path, r2.p.query, h.result, r2.data, r2.p.file⟩,
          { r2 with url := (patch opt r2.url).1 }, h.opt, h.headers⟩ := by
  unfold send
  constructor
  · intro h
    obtain ⟨l, hl, h⟩ := bind_ok.1 h
    obtain ⟨r2, h2, h⟩ := bind_ok.1 h
    obtain ⟨hh, h3, h⟩ := bind_ok.1 h
    simp only [pure, Except.pure, Except.ok.injEq] at h
    exact ⟨l, r2, hh, hl, h2, h3, h.symm⟩
  · rintro ⟨l, r2, hh, hl, h2, h3, rfl⟩
    simp only [hl, h2, h3, bind, Except.bind, pure, Except.pure]

theorem reset_authorise (info) (op : Op δ) (r : Req β π) :
    reset op (authorise info op (reset op r)) = authorise info op (reset op r) := by
  unfold authorise
  cases info <;> rfl

theorem authorise_idem (info) (op : Op δ) (r : Req β π) (hw : Dict.WF r.p.header) :
    authorise info op (authorise info op r) = authorise info op r := by
  cases info with
  | none => rfl
  | some info =>
    have := C18.C18_idempotent info op.security ⟨r.p.header, r.p.query⟩ hw
    simp only [authorise]
    rw [this]

/-- Preparing does not depend on the boundary unless a multipart body is built. -/
theorem prepareData_boundary (env : Env β δ π) (op : Op δ) (p : Params β) (c) (hf : Bool) (b : Str)
    (h : p.file = [] ∨ hf = false) :
    prepareData { env with boundary := b } op p c hf = prepareData env op p c hf := by
  have hl : ∀ ct ds, bodyLoop { env with boundary := b } ct p ds = bodyLoop env ct p ds := by
    intro ct ds
    induction ds with
    | nil => rfl
    | cons d ds ih => simp only [bodyLoop, ih]
  have hb : prepareBody { env with boundary := b } op p c = prepareBody env op p c := by
    simp only [prepareBody, hl]
  unfold prepareData
  rcases h with h | h
  · simp only [h, ne_eq, not_true_eq_false, if_false, hb]
  · subst h
    simp only [hb, Bool.false_eq_true, if_false]

theorem prepare_boundary (env : Env β δ π) (op : Op δ) (s) (hf : Bool) (b : Str) (r : Req β π)
    (h : r.p.file = [] ∨ hf = false) :
    prepare { env with boundary := b } op s hf r = prepare env op s hf r := by
  unfold prepare
  simp only [prepareData_boundary env op r.p r.consume hf b h]

theorem send_boundary (env : Env β δ π) (op : Op δ) (c : Client) (opt) (hs) (b : Str) (r : Req β π)
    (h : r.p.file = [] ∨ c.handleFiles = false) :
    send { env with boundary := b } op c opt hs r = send env op c opt hs r := by
  have h' : (authorise c.security op (reset op r)).p.file = [] ∨ c.handleFiles = false := by
    rcases h with h | h
    · left
      unfold authorise
      cases c.security <;> exact h
    · exact Or.inr h
  unfold send
  simp only [prepare_boundary env op _ _ b _ h']

/-- the files left after preparing -/
theorem files_after {env : Env β δ π} {op : Op δ} {p : Params β} {c} {hf : Bool} {ct d fs}
    (h : prepareData env op p c hf = .ok (ct, d, fs)) :
    fs = if p.file ≠ [] ∧ hf = true then drainFiles p.file else p.file := by
  unfold prepareData at h
  by_cases h1 : p.file ≠ []
  · rw [if_pos h1] at h
    cases hf with
    | true =>
      simp only [if_true] at h
      cases hp : prepareFiles env op p with
      | error e => rw [hp] at h; cases h
      | ok x =>
        rw [hp] at h; cases h
        simp [h1]
    | false => simp at h; simp [h.2.2]
  · rw [if_neg h1] at h
    rw [if_neg (fun hc => h1 hc.1)]
    split at h
    · split at h
      · cases h
      · cases h; rfl
    · split at h
      · split at h
        · cases h
        · cases h; rfl
        · cases h; rfl
      · cases h; rfl

/-- **C20** (fixed point). After a request has been sent, sending the same object again with
equal options and headers has the very same result, provided the first sending left the request's
files as they were. The two sendings may draw different boundaries when no multipart body is
built by the library. -/
theorem C20_fixed (env : Env β δ π) (op : Op δ) (c : Client) (opt) (hs) (r : Req β π)
    (hw : Dict.WF r.p.header) (hfile : r.p.file = [] ∨ c.handleFiles = false ∨
      drainFiles r.p.file = r.p.file) (res)
    (h : send env op c opt hs r = .ok res) : send env op c opt hs res.req = .ok res := by
  obtain ⟨l, r2, hh, hl, h2, h3, rfl⟩ := send_ok.1 h
  refine send_ok.2 ⟨l, r2, hh, hl, ?_, h3, rfl⟩
  have : reset op { r2 with url := (patch opt r2.url).1 } = authorise c.security op (reset op r) := by
    obtain ⟨s, path, url, ct, data, files, acc, _, _, _, hd, _, rfl⟩ := prepare_ok.1 h2
    have hf := files_after hd
    have hpf : (authorise c.security op (reset op r)).p.file = r.p.file := by
      unfold authorise; cases c.security <;> rfl
    rw [hpf] at hf
    have hff : files = r.p.file := by
      rw [hf]
      split
      · rename_i hc
        rcases hfile with h | h | h
        · exact absurd h hc.1
        · rw [h] at hc; cases hc.2
        · exact h
      · rfl
    rw [hff, ← hpf]
    conv => rhs; rw [← reset_authorise]
    rfl
  rw [this, authorise_idem _ _ _ (by exact hw)]
  exact h2

/-- **C20** (any number of resends). For a request without files, or a client whose library
encodes files itself, everything sent is the same each time, however often it is sent and
whatever boundaries are drawn. -/
theorem C20_resend (env : Env β δ π) (op : Op δ) (c : Client) (opt) (hs) (r : Req β π)
    (hw : Dict.WF r.p.header) (hfile : r.p.file = [] ∨ c.handleFiles = false)
    (b : Str) (bs : List Str) (l) (h : sends env op c opt hs (b :: bs) r = .ok l) :
    ∃ s, l = List.replicate (bs.length + 1) s := by
  have key : ∀ (bs : List Str) (res), send env op c opt hs r = .ok res →
      sends env op c opt hs bs res.req = .ok (List.replicate bs.length res.sent) := by
    intro bs res hr
    have hfix := C20_fixed env op c opt hs r hw
      (by rcases hfile with h | h; exact Or.inl h; exact Or.inr (Or.inl h)) res hr
    have hfile' : res.req.p.file = [] ∨ c.handleFiles = false := by
      rcases hfile with h | h
      · left
        obtain ⟨l, r2, hh, hl, h2, h3, rfl⟩ := send_ok.1 hr
        obtain ⟨s, path, url, ct, data, files, acc, _, _, _, hd, _, rfl⟩ := prepare_ok.1 h2
        have hf := files_after hd
        have hpf : (authorise c.security op (reset op r)).p.file = r.p.file := by
          unfold authorise; cases c.security <;> rfl
        rw [hpf, h] at hf
        simpa using hf
      · exact Or.inr h
    induction bs with
    | nil => rfl
    | cons b bs ih =>
      simp only [sends, send_boundary env op c opt hs b res.req hfile', hfix, ih, bind, Except.bind,
        pure, Except.pure, List.length_cons, List.replicate_succ]
  simp only [sends] at h
  obtain ⟨res, h1, h⟩ := bind_ok.1 h
  obtain ⟨rest, h2, h⟩ := bind_ok.1 h
  rw [send_boundary env op c opt hs b r hfile] at h1
  rw [key bs res h1] at h2
  cases h2
  simp only [pure, Except.pure, Except.ok.injEq] at h
  exact ⟨res.sent, h.symm⟩

/-- **C20** (no failure on resending). If the first sending succeeds, so do all others. -/
theorem C20_never_fails (env : Env β δ π) (op : Op δ) (c : Client) (opt) (hs) (r : Req β π)
    (hw : Dict.WF r.p.header) (hfile : r.p.file = [] ∨ c.handleFiles = false) (res)
    (h : send env op c opt hs r = .ok res) (b : Str) :
    send { env with boundary := b } op c opt hs res.req = .ok res := by
  rw [← send_boundary env op c opt hs b r hfile] at h
  exact C20_fixed _ op c opt hs r hw
    (by rcases hfile with h | h; exact Or.inl h; exact Or.inr (Or.inl h)) res h

/-- **C20** (files given by name). With the same boundary drawn, the multipart body is rebuilt
the same when no file is an open stream. -/
theorem C20_named_files (env : Env β δ π) (op : Op δ) (c : Client) (opt) (hs) (r : Req β π)
    (hw : Dict.WF r.p.header) (hn : ∀ e ∈ r.p.file, ∀ f ∈ e.2.files, f.data = none) (res)
    (h : send env op c opt hs r = .ok res) : send env op c opt hs res.req = .ok res := by
  refine C20_fixed env op c opt hs r hw (Or.inr (Or.inr ?_)) res h
  have hd : ∀ f : File, f.data = none → drainFile f = f := by
    intro f hf
    obtain ⟨a, b, d⟩ := f
    simp only at hf
    subst hf; rfl
  unfold drainFiles
  conv => rhs; rw [← List.map_id r.p.file]
  apply List.map_congr_left
  rintro ⟨k, v⟩ he
  have := hn _ he
  cases v with
  | one f => simp only [id]; rw [hd f (this f (by simp [FileVal.files]))]
  | many l =>
    simp only [id]
    congr 2
    conv => rhs; rw [← List.map_id l]
    exact List.map_congr_left (fun f hf => hd f (this f hf))

/-- **C20** (the caller's dict). Passing the dict that an earlier sending has modified (see
`C27_containers_false`) makes no difference. -/
theorem C20_same_dict (env : Env β δ π) (op : Op δ) (c : Client) (opt) (d : Dict Str Str) (r : Req β π)
    (hw : Dict.WF r.p.header) (hd : Dict.WF d) (hfile : r.p.file = [] ∨ c.handleFiles = false) (res)
    (h : send env op c opt (.dict d) r = .ok res) :
    (send env op c opt res.headers res.req).map (·.sent) = .ok res.sent := by
  have hfix := C20_never_fails env op c opt (.dict d) r hw hfile res h env.boundary
  obtain ⟨l, r2, hh, hl, h2, h3, hres⟩ := send_ok.1 hfix
  have hupd : ∀ e : List (Str × Str), Dict.update (Dict.update d e) e = Dict.update d e := by
    intro e
    have hwu := Dict.WF_update hd e
    have e1 : Dict.update d e = replaceAll d e := foldl_set_eq_replaceAll hd e
    have e2 : Dict.update (Dict.update d e) e = replaceAll (Dict.update d e) e :=
      foldl_set_eq_replaceAll hwu e
    rw [e2, e1, replaceAll_idem]
  have hc : ∃ h', composeHeaders r2.header res.headers (patch opt r2.url).2 c.asDict = .ok h' ∧
      h'.result = hh.result := by
    have hr : res.headers = hh.headers := by rw [hres]
    rw [hr]
    unfold composeHeaders at h3
    simp only at h3
    split at h3
    · rename_i hcond
      cases h3
      simp only [composeHeaders, hcond, if_true]
      exact ⟨_, rfl, hupd _⟩
    · rename_i hcond
      simp only [composeHeaders.finish, Except.ok.injEq] at h3
      subst h3
      simp only [composeHeaders, hcond, composeHeaders.finish]
      exact ⟨_, rfl, rfl⟩
  obtain ⟨h', hc', hr'⟩ := hc
  have := send_ok (env := env) (op := op) (c := c) (opt := opt) (hs := res.headers) (r := res.req)
    (res := ⟨⟨op.method, (patch opt r2.url).1, r2.path, r2.p.query, h'.result, r2.data, r2.p.file⟩,
          { r2 with url := (patch opt r2.url).1 }, h'.opt, h'.headers⟩) |>.2
      ⟨l, r2, h', hl, h2, hc', rfl⟩
  rw [this, hr', hres]
  rfl

/-! Refutations and non-vacuity. -/
def env : Env Nat Unit Nat := ⟨fun _ b _ => .ok (b + 1), List.map Char.toLower, fun _ _ => .ok [],
  fun s => .ok (utf8 s), fun _ => .ok [65], c!"b"⟩
def op : Op Unit := ⟨c!"//h/x", c!"/x", c!"post", [], [], [c!"http"], none, []⟩
def client : Client := ⟨[c!"http"], true, false, none⟩

/-- **C20**, refuted for one option object: the first sending removes `url_netloc` from the
caller's dict, so the second goes to another host. -/
theorem C20_shared_options_false :
    ∃ res1 res2, send env op client [(c!"url_netloc", some c!"a.b")] .none
        (init op ⟨[], [], [], [], [], []⟩) = .ok res1 ∧
      send env op client res1.opt .none res1.req = .ok res2 ∧
      res1.sent.url = c!"http://a.b/x" ∧ res2.sent.url = c!"http://h/x" := by
  exact ⟨⟨⟨c!"post", c!"http://a.b/x", c!"/x", [], [], .none, []⟩,
    ⟨⟨[], [], [], [], [], []⟩, c!"http://a.b/x", c!"/x", [], .none, none, none, none⟩, [], .none⟩,
    ⟨⟨c!"post", c!"http://h/x", c!"/x", [], [], .none, []⟩,
    ⟨⟨[], [], [], [], [], []⟩, c!"http://h/x", c!"/x", [], .none, none, none, none⟩, [], .none⟩,
    by decide, by decide, rfl, rfl⟩

/-- **C20**, refuted for file streams: the second sending uploads an empty file. -/
theorem C20_streams_false :
    ∃ (r : Req Nat Nat) (res1 res2 : SendResult Nat Nat),
      send env op client [] .none r = .ok res1 ∧ send env op client [] .none res1.req = .ok res2 ∧
      res1.sent.headers = res2.sent.headers ∧ res1.sent.data ≠ res2.sent.data := by
  have h : ((send env op client [] .none (init op ⟨[], [], [], [], [],
      [(c!"f", .one ⟨[], c!"n", some (.bytes [65, 66])⟩)]⟩ : Req Nat Nat)).toOption.bind (fun r1 =>
      (send env op client [] .none r1.req).toOption.map (fun r2 =>
        decide (r1.sent.headers = r2.sent.headers ∧ r1.sent.data ≠ r2.sent.data)))) = some true := by
    decide +kernel
  cases h1 : send env op client [] .none (init op ⟨[], [], [], [], [],
      [(c!"f", .one ⟨[], c!"n", some (.bytes [65, 66])⟩)]⟩ : Req Nat Nat) with
  | error e => rw [h1] at h; cases h
  | ok r1 =>
    rw [h1] at h
    simp only [Except.toOption, Option.bind_some] at h
    cases h2 : send env op client [] .none r1.req with
    | error e => rw [h2] at h; cases h
    | ok r2 =>
      rw [h2] at h
      simp only [Option.map_some, Option.some.injEq, decide_eq_true_eq] at h
      exact ⟨_, r1, r2, h1, h2, h.1, h.2⟩

def once : Sent Nat := ⟨c!"post", c!"http://a.b/x", c!"/x", [], [(c!"Y", c!"2"),
  (c!"Content-Type", c!"application/x-www-form-urlencoded"), (c!"X", c!"1")], .text c!"k=v+w", []⟩

example : (sends env op client [(c!"url_netloc", some c!"a.b")] (.list [(c!"X", c!"1")]) [c!"p", c!"q"]
    (init op ⟨[(c!"Y", c!"2")], [], [], [], [(c!"k", c!"v w")], []⟩)).toOption = some [once, once] := by
  decide +kernel

end Props.C20
