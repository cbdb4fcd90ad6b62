import Verif.Model.Clients
/-!
# C62: a cookie-keeping client replays the last cookie it was given

`Gave c out v`: the exchange of call `c` with outcome `out` completed and its reply set the cookie
`v` (with several `Set-Cookie` headers, the last one).
-/

namespace Props.C62
open Py Utils Io Core Clients

variable {β δ π η h σ τ ρ υ D : Type}

/-- `v` is the value of the last `Set-Cookie` header -/
def LastSetCookie (lower : Str → Str) (l : List (Str × Str)) (v : Str) : Prop :=
  ∃ a k b, l = a ++ (k, v) :: b ∧ lower k = lower c!"Set-Cookie" ∧
    ∀ e ∈ b, lower e.1 ≠ lower c!"Set-Cookie"

/-- the exchange completed without exception and its reply set the cookie `v` -/
def Gave (c : WebCall β δ π η h σ τ ρ υ D) (out : Outcome (WebReq π) η ρ D) (v : Str) : Prop :=
  out.exc = none ∧ ∃ q reply, out.sent = some q ∧ c.server q = .ok reply ∧
    LastSetCookie c.world.env.lower reply.headers v

theorem setCookie_iff (lower : Str → Str) (l : List (Str × Str)) (v : Str) :
    setCookie lower l = some v ↔ LastSetCookie lower l v := by
  unfold setCookie LastSetCookie
  constructor
  · intro hh
    cases hf : l.reverse.find? (fun kv => lower kv.1 = lower c!"Set-Cookie") with
    | none => rw [hf] at hh; cases hh
    | some e =>
      rw [hf] at hh
      simp only [Option.map_some, Option.some.injEq] at hh
      subst hh
      obtain ⟨h1, as, bs, h2, h3⟩ := List.find?_eq_some_iff_append.1 hf
      refine ⟨bs.reverse, e.1, as.reverse, ?_, by simpa using h1, ?_⟩
      · have := congrArg List.reverse h2
        simpa using this
      · intro x hx
        simpa using h3 x (List.mem_reverse.1 hx)
  · rintro ⟨a, k, b, rfl, hk, hb⟩
    have : (a ++ (k, v) :: b).reverse.find? (fun kv => lower kv.1 = lower c!"Set-Cookie") = some (k, v) := by
      rw [List.find?_eq_some_iff_append]
      refine ⟨by simpa using hk, b.reverse, a.reverse, by simp, ?_⟩
      intro x hx
      simpa using hb x (List.mem_reverse.1 hx)
    rw [this]; rfl

theorem setCookie_none (lower : Str → Str) (l : List (Str × Str)) :
    setCookie lower l = none ↔ ∀ v, ¬ LastSetCookie lower l v := by
  constructor
  · intro hh v hv
    rw [← setCookie_iff, hh] at hv; cases hv
  · intro hh
    cases hs : setCookie lower l with
    | none => rfl
    | some v => exact absurd ((setCookie_iff _ _ _).1 hs) (hh v)

/-- the cookie kept before the `i`-th request -/
def cookieAt (security : Option (Dict Str Cred)) (keep : Bool) :
    Option Str → List (WebCall β δ π η h σ τ ρ υ D) → Nat → Option Str
  | ck, [], _ => ck
  | ck, _ :: _, 0 => ck
  | ck, c :: cs, i + 1 =>
    cookieAt security keep
      (webRequest c.world security keep ck c.opt c.headers c.req c.resp c.server).2 cs i

theorem session_get (security : Option (Dict Str Cred)) (keep : Bool)
    (cs : List (WebCall β δ π η h σ τ ρ υ D)) (ck : Option Str) (i : Nat)
    (c : WebCall β δ π η h σ τ ρ υ D) (hc : cs[i]? = some c) :
    (webSession security keep ck cs)[i]? =
      some (webRequest c.world security keep (cookieAt security keep ck cs i) c.opt c.headers c.req
        c.resp c.server).1 ∧
    cookieAt security keep ck cs (i + 1) =
      (webRequest c.world security keep (cookieAt security keep ck cs i) c.opt c.headers c.req
        c.resp c.server).2 := by
  induction cs generalizing ck i with
  | nil => simp at hc
  | cons a cs ih =>
    cases i with
    | zero =>
      simp only [List.getElem?_cons_zero, Option.some.injEq] at hc
      subst hc
      refine ⟨by simp [webSession, cookieAt], ?_⟩
      simp only [cookieAt]
      cases cs <;> simp [cookieAt]
    | succ i =>
      simp only [List.getElem?_cons_succ] at hc
      obtain ⟨h1, h2⟩ := ih (webRequest a.world security keep ck a.opt a.headers a.req a.resp a.server).2 i hc
      refine ⟨by simpa [webSession, cookieAt] using h1, ?_⟩
      rw [cookieAt, h2]
      rfl

theorem session_length (security : Option (Dict Str Cred)) (keep : Bool)
    (cs : List (WebCall β δ π η h σ τ ρ υ D)) (ck : Option Str) :
    (webSession security keep ck cs).length = cs.length := by
  induction cs generalizing ck with
  | nil => rfl
  | cons c cs ih => simp [webSession, ih]

theorem build_cookie {w : World β δ π η h σ τ ρ υ D} {c : Client} {opt hs} {req : Req β π}
    {resp : Resp η ρ D} {ck : Option Str} {server} {calls} {q : WebReq π}
    (hq : (exchange w c opt hs req resp (webBuild w ck) server calls).sent = some q) :
    q.cookie = truthy ck := by
  unfold exchange at hq
  simp only at hq
  split at hq
  · cases hq
  · split at hq
    · cases hq
    · rename_i q' hb
      have hq' : q' = q := by
        split at hq <;> simpa using hq
      subst hq'
      unfold webBuild at hb
      split at hb
      · cases hb
      · cases hb; rfl

theorem next_cookie (c : WebCall β δ π η h σ τ ρ υ D) (security : Option (Dict Str Cred))
    (keep : Bool) (ck : Option Str) :
    let r := webRequest c.world security keep ck c.opt c.headers c.req c.resp c.server
    (∀ v, Gave c r.1 v → r.2 = if keep then some v else ck) ∧
    ((∀ v, ¬ Gave c r.1 v) → r.2 = ck) := by
  intro r
  have hr : r = webRequest c.world security keep ck c.opt c.headers c.req c.resp c.server := rfl
  unfold webRequest at hr
  simp only at hr
  generalize exchange c.world _ c.opt c.headers c.req c.resp (webBuild c.world ck) c.server atOnce = out at hr
  constructor
  · rintro v ⟨h1, q, reply, h2, h3, h4⟩
    rw [hr] at h1 h2 ⊢
    simp only at h1 h2
    simp only [h1, h2, h3, (setCookie_iff _ _ _).2 h4]
  · intro hno
    rw [hr] at hno ⊢
    simp only at hno ⊢
    split
    · rename_i q hs he
      split
      · rename_i reply hrep
        cases keep with
        | false => rfl
        | true =>
          have : setCookie c.world.env.lower reply.headers = none := by
            rw [setCookie_none]
            exact fun v hv => hno v ⟨he, q, reply, hs, hrep, hv⟩
          simp [this]
      · rfl
    · rfl

theorem sent_cookie {security : Option (Dict Str Cred)} {keep : Bool}
    {calls : List (WebCall β δ π η h σ τ ρ υ D)} {i : Nat} {out} {q : WebReq π}
    (ho : (webClient security keep calls)[i]? = some out) (hq : out.sent = some q) :
    q.cookie = truthy (cookieAt security keep none calls i) := by
  have hlt : i < calls.length := by
    rw [← session_length security keep calls none]
    exact (List.getElem?_eq_some_iff.1 ho).1
  obtain ⟨h1, _⟩ := session_get security keep calls none i calls[i] (by simp [hlt])
  unfold webClient at ho
  rw [h1] at ho
  cases ho
  exact build_cookie hq

theorem gave_out {security : Option (Dict Str Cred)} {keep : Bool}
    {calls : List (WebCall β δ π η h σ τ ρ υ D)} {j : Nat} {c out}
    (hc : calls[j]? = some c) (ho : (webClient security keep calls)[j]? = some out) :
    out = (webRequest c.world security keep (cookieAt security keep none calls j) c.opt c.headers
      c.req c.resp c.server).1 := by
  obtain ⟨h1, _⟩ := session_get security keep calls none j c hc
  unfold webClient at ho
  rw [h1] at ho
  cases ho
  rfl

/-- nothing changes the cookie between `j` and `i` if no exchange in between gives one -/
theorem cookie_stays (security : Option (Dict Str Cred)) (keep : Bool)
    (calls : List (WebCall β δ π η h σ τ ρ υ D)) (j : Nat) :
    ∀ i, j ≤ i → i ≤ calls.length →
      (∀ m c out v, j ≤ m → m < i → calls[m]? = some c →
        (webClient security keep calls)[m]? = some out → ¬ Gave c out v) →
      cookieAt security keep none calls i = cookieAt security keep none calls j := by
  intro i hji
  induction i with
  | zero =>
    intro _ _
    have : j = 0 := by omega
    rw [this]
  | succ i ih =>
    intro hi hno
    by_cases he : j = i + 1
    · rw [he]
    · have hlt : i < calls.length := by omega
      obtain ⟨h1, h2⟩ := session_get security keep calls none i calls[i] (by simp [hlt])
      rw [h2]
      rw [(next_cookie calls[i] security keep _).2 fun v hv =>
        hno i calls[i] _ v (by omega) (by omega) (by simp [hlt]) h1 hv]
      exact ih (by omega) (by omega) fun m c out v hm hm' => hno m c out v hm (by omega)

/-- With `keep_cookie`, a request carries no cookie as long as no earlier exchange gave one;
otherwise it carries the cookie given by the latest exchange that gave one (none if that value is
empty). -/
theorem C62_keep (security : Option (Dict Str Cred)) (calls : List (WebCall β δ π η h σ τ ρ υ D))
    (i : Nat) (out : Outcome (WebReq π) η ρ D) (q : WebReq π)
    (ho : (webClient security true calls)[i]? = some out) (hq : out.sent = some q) :
    ((∀ m c o v, m < i → calls[m]? = some c → (webClient security true calls)[m]? = some o →
      ¬ Gave c o v) → q.cookie = none) ∧
    (∀ j c o v, j < i → calls[j]? = some c → (webClient security true calls)[j]? = some o →
      Gave c o v →
      (∀ m c o v, j < m → m < i → calls[m]? = some c →
        (webClient security true calls)[m]? = some o → ¬ Gave c o v) →
      q.cookie = if v = [] then none else some v) := by
  have hlt : i < calls.length := by
    rw [← session_length security true calls none]
    exact (List.getElem?_eq_some_iff.1 ho).1
  refine ⟨?_, ?_⟩
  · intro hno
    rw [sent_cookie ho hq, cookie_stays security true calls 0 i (by omega) (by omega)
      (fun m c o v _ hm => hno m c o v hm)]
    cases calls <;> rfl
  · intro j c o v hj hc hoj hg hno
    rw [sent_cookie ho hq, cookie_stays security true calls (j + 1) i (by omega) (by omega)
      (fun m c o v hm hm' => hno m c o v (by omega) hm')]
    obtain ⟨_, h2⟩ := session_get security true calls none j c hc
    rw [gave_out hc hoj] at hg
    rw [h2, (next_cookie c security true _).1 v hg]
    cases v <;> simp [truthy]

/-- Without `keep_cookie` no request carries a cookie. -/
theorem C62_off (security : Option (Dict Str Cred)) (calls : List (WebCall β δ π η h σ τ ρ υ D))
    (i : Nat) (out : Outcome (WebReq π) η ρ D) (q : WebReq π)
    (ho : (webClient security false calls)[i]? = some out) (hq : out.sent = some q) :
    q.cookie = none := by
  rw [sent_cookie ho hq]
  have : ∀ (cs : List (WebCall β δ π η h σ τ ρ υ D)) i, cookieAt security false none cs i = none := by
    intro cs
    induction cs with
    | nil => intro i; rfl
    | cons c cs ih =>
      intro i
      cases i with
      | zero => rfl
      | succ i =>
        have : (webRequest c.world security false none c.opt c.headers c.req c.resp c.server).2 = none := by
          obtain ⟨h1, h2⟩ := next_cookie c security false none
          by_cases hg : ∃ v, Gave c (webRequest c.world security false none c.opt c.headers c.req c.resp c.server).1 v
          · obtain ⟨v, hv⟩ := hg
            simpa using h1 v hv
          · exact h2 fun v hv => hg ⟨v, hv⟩
        simp only [cookieAt, this, ih]
  rw [this]
  rfl

/-! ## Concrete sessions -/

/-- an operation without parameters; the body of a reply is kept as it is, unless it is `bad` -/
def world : World Unit Unit Unit Str Unit Unit Unit Str Str Str where
  env := ⟨fun _ _ _ => .ok (), id, fun _ _ => .error .KeyError, fun _ => .ok [], fun _ => .ok [], c!"b"⟩
  renv := ⟨id, id, fun _ v => .ok v, .ok, fun _ => .ok (), fun _ raw _ => .ok raw,
    fun _ v => if v = c!"bad" then .error .ValueError else .ok v⟩
  op := ⟨c!"//h/p", c!"/p", c!"get", [], [], [c!"http"], none, []⟩
  table := [(c!"default", ⟨[], some ()⟩)]
  upper := id

/-- a call whose reply has the given body and headers -/
def call (body : Str) (headers : List (Str × Str)) :
    WebCall Unit Unit Unit Str Unit Unit Unit Str Str Str :=
  ⟨world, [], .none, init world.op ⟨[], [], [], [], [], []⟩, Resp.init, fun _ => .ok ⟨200, headers, body⟩⟩

/-- the cookies carried by the requests of a session -/
def cookies (keep : Bool) (l : List (WebCall Unit Unit Unit Str Unit Unit Unit Str Str Str)) :
    List (Option Str) :=
  (webClient none keep l).map (fun o => o.sent.bind (·.cookie))

/-- four requests: the first reply sets a cookie, the second none, the third another -/
example : cookies true [call c!"ok" [(c!"Set-Cookie", c!"a=1")], call c!"ok" [],
    call c!"ok" [(c!"Set-Cookie", c!"a=2")], call c!"ok" []] =
    [none, some c!"a=1", some c!"a=1", some c!"a=2"] := by decide +kernel

/-- A cookie is lost when the body of its reply cannot be converted: the exception is raised before
the cookie is kept, although the reply set one. -/
theorem C62_failed_false :
    ∃ (calls : List (WebCall Unit Unit Unit Str Unit Unit Unit Str Str Str)) (reply : Reply Str)
      (o : Outcome (WebReq Unit) Str Str Str) (q : WebReq Unit),
      (∃ c, calls[0]? = some c ∧ (∀ q, c.server q = .ok reply) ∧
        LastSetCookie c.world.env.lower reply.headers c!"a=1") ∧
      (webClient none true calls)[1]? = some o ∧ o.sent = some q ∧ q.cookie = none := by
  refine ⟨[call c!"bad" [(c!"Set-Cookie", c!"a=1")], call c!"ok" []],
    ⟨200, [(c!"Set-Cookie", c!"a=1")], c!"bad"⟩, _, _, ⟨_, rfl, fun _ => rfl, ?_⟩, rfl, rfl, rfl⟩
  exact ⟨[], c!"Set-Cookie", [], rfl, rfl, by simp⟩

/-- Of several cookies set by one reply only the last is replayed. -/
theorem C62_several_false :
    cookies true [call c!"ok" [(c!"Set-Cookie", c!"a=1"), (c!"Set-Cookie", c!"b=2")], call c!"ok" []] =
      [none, some c!"b=2"] := by decide +kernel

end Props.C62
