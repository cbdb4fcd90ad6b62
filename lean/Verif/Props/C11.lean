import Verif.Proofs.Derel
/-!
# C11: dot segments are removed and never escape the root

Spec side: `Spec.Dots.Simplified`, a rewriting system on lists of path segments. The hypotheses
on the URL: it is absolute; its path has no `;` (path parameters inside the path change their
role when the last segment goes away, see `C11_params_false`); and if it has no authority
(`file:///…`), its path has no `//` (which would be taken for an authority).
-/

namespace Props.C11
open Py Utils Spec.Dots

/-- The URLs covered. -/
def Plain (url : Str) : Prop :=
  AbsUrl (urlparse url) ∧ ';' ∉ (urlparse url).path ∧
    ((urlparse url).netloc = [] → ¬ c!"//" <:+: (urlparse url).path)

/-- Every list of segments has exactly one simplified form. -/
theorem C11_spec_functional (l : List Str) : ∃ r, Simplified l r ∧ ∀ r', Simplified l r' → r' = r :=
  ⟨_, (simplified_iff l _).2 rfl, fun r' h => (simplified_iff l r').1 h⟩

/-- `derelativise_url` replaces the path by `/` and the simplified segments, and keeps scheme,
authority, parameters, query and fragment. -/
theorem C11_components {url : Str} (h : Plain url) :
    ∃ segs, Simplified (splitChar '/' ((urlparse url).path.drop 1)) segs ∧
      urlparse (derelativise_url url) =
        { urlparse url with path := '/' :: join ['/'] segs } :=
  ⟨_, (simplified_iff _ _).2 rfl,
    urlparse_urlunparse (canon_derel (canon_urlparse h.1) h.2.1 h.2.2)⟩

/-- The result is rooted and none of its segments is made of dots only. -/
theorem C11_no_dots {url : Str} (h : Plain url) :
    ∃ t, (urlparse (derelativise_url url)).path = '/' :: t ∧ ∀ s ∈ splitChar '/' t, ¬ IsDots s := by
  have hp : urlparse (derelativise_url url) = { urlparse url with path := derelPath (urlparse url).path } :=
    urlparse_urlunparse (canon_derel (canon_urlparse h.1) h.2.1 h.2.2)
  refine ⟨(derelPath (urlparse url).path).drop 1, by rw [hp]; rfl, ?_⟩
  rw [← derelPath_segments]
  exact foldl_derel_mem _ [] (by simp)

/-- A URL whose path is rooted and has no dot segments is left alone. -/
theorem C11_identity {p : Url} (hc : Canon p) {t : Str} (hp : p.path = '/' :: t)
    (hd : ∀ s ∈ splitChar '/' t, ¬ IsDots s) : derelativise_url (urlunparse p) = urlunparse p := by
  have h1 : derelPath p.path = p.path := by
    rw [hp]; simp only [derelPath, List.drop_succ_cons, List.drop_zero]
    rw [foldl_derel_id _ [] hd]; simp [join_splitChar]
  have h2 : derelativise_url (urlunparse p) = urlunparse { p with path := derelPath p.path } := by
    simp only [derelativise_url, urlparse_urlunparse hc, derelPath]
  rw [h2, h1]

/-- Derelativising is idempotent. -/
theorem C11_idempotent {url : Str} (h : Plain url) :
    derelativise_url (derelativise_url url) = derelativise_url url := by
  have hp : urlparse (derelativise_url url) = { urlparse url with path := derelPath (urlparse url).path } :=
    urlparse_urlunparse (canon_derel (canon_urlparse h.1) h.2.1 h.2.2)
  have h1 : derelativise_url (derelativise_url url) =
      urlunparse { urlparse (derelativise_url url) with
        path := derelPath (urlparse (derelativise_url url)).path } := rfl
  have h2 : derelativise_url url = urlunparse { urlparse url with path := derelPath (urlparse url).path } := rfl
  rw [h1, hp]
  simp only [derelPath_idem]
  exact h2.symm

/-- The text of the result: scheme, authority and parameters, query and fragment as they were. -/
theorem C11_text {url : Str} (h : Plain url) :
    ∃ segs, Simplified (splitChar '/' ((urlparse url).path.drop 1)) segs ∧
      derelativise_url url = (urlparse url).scheme ++ c!"://" ++ (urlparse url).netloc ++
        '/' :: join ['/'] segs ++
        (if (urlparse url).params ≠ [] then ';' :: (urlparse url).params else []) ++
        (if (urlparse url).query ≠ [] then '?' :: (urlparse url).query else []) ++
        (if (urlparse url).fragment ≠ [] then '#' :: (urlparse url).fragment else []) :=
  ⟨_, (simplified_iff _ _).2 rfl,
    urlunparse_canon (canon_derel (canon_urlparse h.1) h.2.1 h.2.2)⟩

/-- Without the hypothesis on `;` the property fails: the path parameters of an inner segment
become parameters of the URL when the segments after it are removed, and the result contains a
dot segment and is changed by a second application. -/
theorem C11_params_false :
    ¬ ∀ url, AbsUrl (urlparse url) → (urlparse url).netloc ≠ [] →
      derelativise_url (derelativise_url url) = derelativise_url url := by
  intro h
  have := h c!"http://h/..;x/c/.." ⟨by decide, Or.inl (by decide)⟩ (by decide)
  revert this; decide

/-- non-vacuity -/
example : Plain c!"http://h:80/a/./b/../../../c/.../d.json?q=1#/x" ∧
    derelativise_url c!"http://h:80/a/./b/../../../c/.../d.json?q=1#/x" = c!"http://h:80/d.json?q=1#/x" := by
  refine ⟨⟨⟨by decide, Or.inl (by decide)⟩, by decide, ?_⟩, by decide⟩
  intro h; revert h; decide
example : Plain c!"file:///a/b/../c.json" ∧
    derelativise_url c!"file:///a/b/../c.json" = c!"file:///a/c.json" := by
  refine ⟨⟨⟨by decide, Or.inr ⟨by decide, c!"a/b/../c.json", by decide, by decide⟩⟩, by decide, ?_⟩, by decide⟩
  intro _; rw [← afterLast?_none_iff (by decide)]; decide

end Props.C11
