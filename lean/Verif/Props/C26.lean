import Verif.Proofs.Request
import Verif.Proofs.Url
/-!
# C26: URL options change only scheme and host
-/

namespace Props.C26
open Py Utils Io

/-- The options that remain: everything but the two used. -/
theorem C26_options (opt : Dict Str (Option Str)) (hw : Dict.WF opt) (url k : Str) :
    Dict.get? (patch opt url).2 k =
      if k = c!"url_netloc" ∨ k = c!"url_scheme" then none else Dict.get? opt k := by
  have hpop : ∀ (o : Dict Str (Option Str)) (x : Str), Dict.WF o →
      Dict.WF (popOpt o x).2 ∧
        ∀ k, Dict.get? (popOpt o x).2 k = if k = x then none else Dict.get? o k := by
    intro o x ho
    unfold popOpt
    cases hg : Dict.get? o x with
    | none =>
      refine ⟨ho, fun k => ?_⟩
      by_cases hk : k = x
      · subst hk; simp [hg]
      · simp [hk]
    | some v =>
      refine ⟨Dict.WF_del ho x, fun k => ?_⟩
      have := Dict.get?_del ho x k
      simpa using this
  have h1 := hpop opt c!"url_netloc" hw
  have h2 := hpop _ c!"url_scheme" h1.1
  have : (patch opt url).2 = (popOpt (popOpt opt c!"url_netloc").2 c!"url_scheme").2 := by
    unfold patch
    simp only
    split <;> rfl
  rw [this, h2.2, h1.2]
  by_cases e1 : k = c!"url_netloc" <;> by_cases e2 : k = c!"url_scheme" <;> simp [e1, e2]

/-- The value of an option: absent, `None` and empty all count as not given. -/
def given (opt : Dict Str (Option Str)) (k : Str) : Option Str :=
  match Dict.get? opt k with
  | some (some (c :: s)) => some (c :: s)
  | _ => none

theorem truthy_pop (opt : Dict Str (Option Str)) (k : Str) : truthy (popOpt opt k).1 = given opt k := by
  unfold popOpt given
  cases Dict.get? opt k with
  | none => rfl
  | some v => cases v with
    | none => rfl
    | some s => cases s <;> rfl

theorem given_pop (opt : Dict Str (Option Str)) (hw : Dict.WF opt) (k x : Str) (h : k ≠ x) :
    given (popOpt opt x).2 k = given opt k := by
  unfold popOpt
  cases hg : Dict.get? opt x with
  | none => rfl
  | some v =>
    simp only [given]
    rw [Dict.get?_del hw, if_neg h]

/-- **C26** (exact result). -/
theorem C26_result (opt : Dict Str (Option Str)) (hw : Dict.WF opt) (url : Str) :
    (patch opt url).1 =
      match given opt c!"url_netloc", given opt c!"url_scheme" with
      | none, none => url
      | n, s => urlunparse { urlparse url with
          scheme := s.getD (urlparse url).scheme, netloc := n.getD (urlparse url).netloc } := by
  unfold patch
  simp only [truthy_pop, given_pop opt hw c!"url_scheme" c!"url_netloc" (by decide)]
  cases given opt c!"url_netloc" <;> cases given opt c!"url_scheme" <;> rfl

/-- **C26** (no options). Without them the URL text is unchanged. -/
theorem C26_unchanged (opt : Dict Str (Option Str)) (hw : Dict.WF opt) (url : Str)
    (h1 : given opt c!"url_netloc" = none) (h2 : given opt c!"url_scheme" = none) :
    (patch opt url).1 = url := by
  rw [C26_result opt hw, h1, h2]

/-- A scheme that may be put into a URL: non-empty, scheme characters, lower case. -/
structure GoodScheme (s : Str) : Prop where
  ne : s ≠ []
  chars : s.all isSchemeChar = true
  lower : s.map Char.toLower = s

/-- **C26** (components). For every absolute URL with a host, and options that are a well-formed
lower-case scheme and a host without `/`, `?`, `#`, the patched URL parses to the same components
with scheme and network location replaced as asked. The two schemes must agree on whether `;`
parameters exist (they do for `http`, `https`; not for `ws`, `wss`), see
`C26_params_scheme_false`. -/
theorem C26_components (opt : Dict Str (Option Str)) (hw : Dict.WF opt) (url : Str)
    (habs : AbsUrl (urlparse url)) (hnet : (urlparse url).netloc ≠ [])
    (hs : ∀ s, given opt c!"url_scheme" = some s →
      GoodScheme s ∧ (s ∈ usesParams ↔ (urlparse url).scheme ∈ usesParams))
    (hn : ∀ n, given opt c!"url_netloc" = some n → ∀ c ∈ n, endsNetloc c = false) :
    let u := urlparse url
    urlparse (patch opt url).1 =
      ⟨(given opt c!"url_scheme").getD u.scheme, (given opt c!"url_netloc").getD u.netloc,
        u.path, u.params, u.query, u.fragment⟩ := by
  intro u
  have hc : Canon u := canon_urlparse habs
  rw [C26_result opt hw]
  have hgn : ∀ n, given opt c!"url_netloc" = some n → n ≠ [] := by
    intro n h
    unfold given at h
    split at h
    · cases h; simp
    · cases h
  generalize given opt c!"url_netloc" = n at *
  generalize given opt c!"url_scheme" = s at *
  have key : Canon { u with scheme := s.getD u.scheme, netloc := n.getD u.netloc } := by
    have hS : GoodScheme (s.getD u.scheme) ∧ (s.getD u.scheme ∈ usesParams ↔ u.scheme ∈ usesParams) := by
      cases s with
      | none => exact ⟨⟨hc.scheme_ne, hc.scheme_chars, hc.scheme_lower⟩, Iff.rfl⟩
      | some s => exact hs s rfl
    have hN : n.getD u.netloc ≠ [] := by
      cases n with
      | none => exact hnet
      | some n => exact hgn n rfl
    exact
    { scheme_ne := hS.1.ne
      scheme_chars := hS.1.chars
      scheme_lower := hS.1.lower
      netloc_ok := by
        cases n with
        | none => exact hc.netloc_ok
        | some n => exact hn n rfl
      auth := Or.inl hN
      path_abs := hc.path_abs
      path_query := hc.path_query
      path_frag := hc.path_frag
      path_auth := fun h => absurd h hN
      path_rooted := hc.path_rooted
      seg_params := fun h => hc.seg_params (hS.2.1 h)
      params_scheme := fun h => hc.params_scheme (fun h' => h (hS.2.2 h'))
      params_slash := hc.params_slash
      params_query := hc.params_query
      params_frag := hc.params_frag
      query_frag := hc.query_frag }
  have hfin := urlparse_urlunparse key
  cases n with
  | some n => cases s <;> exact hfin
  | none => cases s with
    | some s => exact hfin
    | none => rfl

/-- **C26** without the condition on `;` parameters fails: patching an `http` URL with
`url_scheme = "foo"` turns the parameter into part of the path for a standard parser. -/
theorem C26_params_scheme_false :
    urlparse c!"http://h/a;x=1" = ⟨c!"http", c!"h", c!"/a", c!"x=1", [], []⟩ ∧
    urlparse (patch [(c!"url_scheme", some c!"foo")] c!"http://h/a;x=1").1 =
      ⟨c!"foo", c!"h", c!"/a;x=1", [], [], []⟩ := by decide

example : patch [(c!"url_netloc", some c!"x.com:80"), (c!"z", some c!"1"), (c!"url_scheme", some c!"https")]
    c!"http://h/p/q;r?a=b#f" = (c!"https://x.com:80/p/q;r?a=b#f", [(c!"z", some c!"1")]) := by decide
example : AbsUrl (urlparse c!"http://h/p/q;r?a=b#f") := ⟨by decide, Or.inl (by decide)⟩
example : GoodScheme c!"https" ∧ (c!"https" ∈ usesParams ↔ c!"http" ∈ usesParams) :=
  ⟨⟨by decide, by decide, by decide⟩, by decide⟩

end Props.C26
