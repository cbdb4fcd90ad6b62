import Verif.Props.C12
/-!
# C10: reference normalisation is absolute, base-correct and idempotent

Spec side: plain text. A reference is `path`, `path#fragment` or `#fragment`; dot segments are
simplified as in `Spec.Dots`.
-/

namespace Props.C10
open Py Utils Spec.Dots Props.C12

/-- a reference: a path part without `#` and a fragment (`none`: no `#`) -/
def ref (path : Str) (frag : Option Str) : Str := path ++ (match frag with | none => [] | some f => '#' :: f)

/-- the path part followed by the fragment, if it is not empty -/
def withFrag (path : Str) (frag : Option Str) : Str :=
  if frag.getD [] = [] then path else path ++ '#' :: frag.getD []

theorem normalize_jr_ref {path : Str} {frag url : Option Str} (h : '#' ∉ path) :
    normalize_jr (some (ref path frag)) url =
      (let path' : Option Str :=
        if path ≠ [] then
          if (urlparse path).scheme = [] ∧ url.getD [] ≠ [] then
            some (derelativise_url (urlunparse { urlparse (url.getD []) with
              path := join ['/'] [dirname (urlparse (url.getD [])).path, path] }))
          else some path
        else url
      if path'.getD [] ≠ [] then .ok (some (withFrag (path'.getD []) frag))
      else match frag with
        | some f => .ok (some ('#' :: f))
        | none => .error .TypeError) := by
  have hsplit : breakAt '#' (ref path frag) = frag.map (fun f => (path, f)) := by
    cases frag with
    | none => simp [ref, breakAt_none_iff.2 h]
    | some f => simpa [ref] using breakAt_some_iff.2 ⟨rfl, h⟩
  unfold normalize_jr
  simp only [hsplit]
  cases frag with
  | none => simp [ref, withFrag]
  | some f =>
    simp only [Option.map_some, withFrag, Option.getD_some]
    by_cases hf : f = [] <;> simp [hf]

/-- No reference stays no reference. -/
theorem C10_none (url : Option Str) : normalize_jr none url = .ok none := rfl

/-- A local reference becomes the URL of the document plus the fragment. -/
theorem C10_local {url : Str} (frag : Option Str) (hu : url ≠ []) :
    normalize_jr (some (ref [] frag)) (some url) = .ok (some (withFrag url frag)) := by
  rw [normalize_jr_ref (by simp)]; simp [hu]

/-- A reference with a scheme is kept (an empty fragment is dropped), whatever the document. -/
theorem C10_absolute {path : Str} (frag url : Option Str) (h : '#' ∉ path)
    (hs : (urlparse path).scheme ≠ []) :
    normalize_jr (some (ref path frag)) url = .ok (some (withFrag path frag)) := by
  have hp : path ≠ [] := by rintro rfl; exact hs (by decide)
  rw [normalize_jr_ref h]; simp [hp, hs]

/-- A relative reference is resolved in the folder of the document: dot segments are simplified
over the segments of the folder followed by those of the reference. The document is
`scheme://netloc/folder/file` with a non-empty `folder`. -/
theorem C10_relative {scheme netloc folder file path : Str} (frag : Option Str)
    (hc : Canon ⟨scheme, netloc, '/' :: (folder ++ '/' :: file), [], [], []⟩)
    (hfolder : ∃ t x, folder = t ++ [x] ∧ x ≠ '/') (hfs : ';' ∉ folder) (hfile : '/' ∉ file)
    (hp : path ≠ []) (hh : '#' ∉ path) (hq : '?' ∉ path) (hsemi : ';' ∉ path)
    (hs : (urlparse path).scheme = [])
    (ha : netloc = [] → ¬ c!"//" <:+: '/' :: (folder ++ '/' :: path)) :
    ∃ segs, Simplified (splitChar '/' folder ++ splitChar '/' path) segs ∧
      normalize_jr (some (ref path frag))
        (some (scheme ++ c!"://" ++ netloc ++ '/' :: (folder ++ '/' :: file))) =
      .ok (some (withFrag (scheme ++ c!"://" ++ netloc ++ '/' :: join ['/'] segs) frag)) := by
  have h1 := urlunparse_canon hc
  simp only [ne_eq, not_true_eq_false, if_false, List.append_nil] at h1
  have h2 := urlparse_urlunparse hc
  rw [h1] at h2
  -- the joined URL
  have hcj : Canon ⟨scheme, netloc, '/' :: (folder ++ '/' :: path), [], [], []⟩ := {
    scheme_ne := hc.scheme_ne
    scheme_chars := hc.scheme_chars
    scheme_lower := hc.scheme_lower
    netloc_ok := hc.netloc_ok
    auth := hc.auth
    path_abs := Or.inr ⟨_, rfl⟩
    path_query := by have := hc.path_query; simp at this; simp [this, hq]
    path_frag := by have := hc.path_frag; simp at this; simp [this, hh]
    path_auth := fun hn t he => by
      apply ha hn; simp only at he; rw [he]; exact ⟨[], t, by simp⟩
    path_rooted := by simp
    seg_params := fun _ hx => by
      have := lastSeg_subset _ _ hx; simp [hfs, hsemi] at this
    params_scheme := fun _ => rfl
    params_slash := by simp
    params_query := by simp
    params_frag := by simp
    query_frag := by simp }
  have hcd := canon_derel hcj (by simp [hfs, hsemi]) ha
  refine ⟨_, (simplified_iff _ _).2 rfl, ?_⟩
  rw [normalize_jr_ref hh]
  have hdir : dirname ('/' :: (folder ++ '/' :: file)) = '/' :: folder := by
    obtain ⟨t, x, rfl, hx⟩ := hfolder
    have := dirname_append (d := '/' :: (t ++ [x])) (b := file) ⟨'/' :: t, x, by simp, hx⟩ hfile
    simpa using this
  have hne : (scheme ++ c!"://" ++ netloc ++ '/' :: (folder ++ '/' :: file)) ≠ [] := by simp
  have hjoin : join ['/'] ['/' :: folder, path] = '/' :: (folder ++ '/' :: path) := by simp [join]
  simp only [Option.getD_some, ne_eq, hp, not_false_eq_true, if_true, hs, hne, and_self, h2, hdir,
    hjoin]
  have hder : derelativise_url (urlunparse ⟨scheme, netloc, '/' :: (folder ++ '/' :: path), [], [], []⟩) =
      scheme ++ c!"://" ++ netloc ++ '/' :: join ['/']
        ((splitChar '/' folder ++ splitChar '/' path).foldl derelStep []) := by
    have : derelativise_url (urlunparse ⟨scheme, netloc, '/' :: (folder ++ '/' :: path), [], [], []⟩) =
        urlunparse ⟨scheme, netloc, derelPath ('/' :: (folder ++ '/' :: path)), [], [], []⟩ := by
      simp only [derelativise_url, urlparse_urlunparse hcj, derelPath]
    rw [this, urlunparse_canon hcd]
    simp [derelPath, splitChar_append_sep]
  rw [hder]
  simp

/-- every character of the result of `urlunparse` comes from a component or is punctuation -/
theorem hash_urlunparse {p : Url} (h1 : '#' ∉ p.scheme) (h2 : '#' ∉ p.netloc) (h3 : '#' ∉ p.path)
    (h4 : '#' ∉ p.params) (h5 : '#' ∉ p.query) (h6 : p.fragment = []) : '#' ∉ urlunparse p := by
  obtain ⟨s, n, p, pa, q, f⟩ := p
  simp only at *
  subst h6
  have key : ∀ u : Str, '#' ∉ u → '#' ∉ unparseHead s n u := by
    intro u hu
    unfold unparseHead
    dsimp only
    split <;> split <;> (try split) <;> simp [h1, h2, hu]
  have hh : '#' ∉ unparseHead s n (if pa ≠ [] then p ++ ';' :: pa else p) := by
    apply key
    split <;> simp [h3, h4]
  simp only [urlunparse, ne_eq, not_true_eq_false, if_false]
  split
  · simp only [List.mem_append, List.mem_cons, not_or]
    exact ⟨hh, by decide, h5⟩
  · exact hh

theorem hash_urlparse {s : Str} (h : '#' ∉ s) :
    '#' ∉ (urlparse s).scheme ∧ '#' ∉ (urlparse s).netloc ∧ '#' ∉ (urlparse s).path ∧
    '#' ∉ (urlparse s).params ∧ '#' ∉ (urlparse s).query ∧ (urlparse s).fragment = [] := by
  have hs := splitScheme_props s
  have h0 : '#' ∉ (splitScheme s).2 := by
    unfold splitScheme
    split
    · rename_i pre rest hb
      obtain ⟨rfl, _⟩ := breakAt_some_iff.1 hb
      split
      · intro hx; simp only at hx; exact h (by simp [hx])
      · exact h
    · exact h
  generalize hss : splitScheme s = ss at hs h0
  obtain ⟨scheme, rest0⟩ := ss
  have hn := splitNetloc_props rest0
  have hn1 : '#' ∉ (splitNetloc rest0).2 := by
    unfold splitNetloc
    split
    · rename_i rest
      intro hx; apply h0; simp only at hx; simp [(List.dropWhile_suffix _).subset hx]
    · exact h0
  generalize hnn : splitNetloc rest0 = nn at hn hn1
  obtain ⟨netloc, rest1⟩ := nn
  simp only at hs hn h0 hn1
  have hff : cutAt '#' rest1 = (rest1, []) := cutAt_of_not_mem hn1
  have hq := cutAt_props '?' rest1
  generalize hqq : cutAt '?' rest1 = qq at hq
  obtain ⟨rest3, query⟩ := qq
  have h3 : '#' ∉ rest3 := fun hx => hn1 (hq.2.1.subset hx)
  have hsp := splitParams_props rest3
  have hp : urlparse s = ⟨scheme, netloc,
      (if scheme ∈ usesParams then splitParams rest3 else (rest3, [])).1,
      (if scheme ∈ usesParams then splitParams rest3 else (rest3, [])).2, query, []⟩ := by
    simp only [urlparse, hss, hnn, hff, hqq]
  rw [hp]
  have hnet : '#' ∉ netloc := fun hx => by have := hn.1 _ hx; revert this; decide
  have hsch : '#' ∉ scheme := fun hx => by
    have := List.all_eq_true.1 hs.1 _ hx; revert this; decide
  have hqy : '#' ∉ query := fun hx => hn1 (hq.2.2 _ hx)
  refine ⟨hsch, hnet, ?_, ?_, hqy, rfl⟩
  · simp only; split
    · exact fun hx => h3 (hsp.2.2.1.subset hx)
    · exact h3
  · simp only; split
    · exact fun hx => h3 (hsp.2.2.2.1 _ hx)
    · simp

theorem scheme_urlunparse {p : Url} (h0 : p.scheme ≠ []) (h1 : p.scheme.all isSchemeChar = true)
    (h2 : p.scheme.map Char.toLower = p.scheme) : (urlparse (urlunparse p)).scheme = p.scheme := by
  have hex : ∃ rest, urlunparse p = p.scheme ++ ':' :: rest := by
    simp only [urlunparse, unparseHead, ne_eq, h0, not_false_eq_true, if_true]
    split <;> split <;> exact ⟨_, by (try simp only [List.append_assoc, List.cons_append]); rfl⟩
  obtain ⟨rest, hr⟩ := hex
  simp only [urlparse, hr, splitScheme_of h0 h1 h2]

theorem urlparse_scheme_props (s : Str) : (urlparse s).scheme.all isSchemeChar = true ∧
    (urlparse s).scheme.map Char.toLower = (urlparse s).scheme := splitScheme_props s

theorem derel_scheme_hash {u : Str} (hu : (urlparse u).scheme ≠ []) (hh : '#' ∉ u) :
    (urlparse (derelativise_url u)).scheme ≠ [] ∧ '#' ∉ derelativise_url u := by
  obtain ⟨a1, a2, a3, a4, a5, a6⟩ := hash_urlparse hh
  constructor
  · have := scheme_urlunparse (p := { urlparse u with path := derelPath (urlparse u).path }) hu
      (urlparse_scheme_props u).1 (urlparse_scheme_props u).2
    intro h
    exact hu (this.symm.trans h)
  · refine hash_urlunparse a1 a2 ?_ a4 a5 a6
    intro hx
    rcases derelPath_mem _ _ hx with h | h
    · cases h
    · exact a3 h

theorem dirname_mem (s : Str) : ∀ x ∈ dirname s, x ∈ s := by
  unfold dirname
  split
  · simp
  · rename_i a b hb
    obtain ⟨d, rfl, rfl, _⟩ := breakAtLast_some_iff.1 hb
    intro x hx
    have hx' : x ∈ d ++ ['/'] := by
      split at hx
      · exact hx
      · simp only [rstripSlash, List.mem_reverse] at hx
        have := (List.dropWhile_suffix _).subset hx
        simpa [or_comm] using this
    simp at hx'
    rcases hx' with h | h <;> simp [h]

/-- the result is a path part with a scheme and without `#`, and a fragment -/
theorem normalize_shape {jr : Str} {url : Str} {r : Option Str} (hu : (urlparse url).scheme ≠ [])
    (hh : '#' ∉ url) (h : normalize_jr (some jr) (some url) = .ok r) :
    ∃ path frag, r = some (withFrag path frag) ∧ '#' ∉ path ∧ (urlparse path).scheme ≠ [] := by
  have hune : url ≠ [] := by rintro rfl; exact hu (by decide)
  have hjr : ∃ path frag, jr = ref path frag ∧ '#' ∉ path := by
    cases hb : breakAt '#' jr with
    | none => exact ⟨jr, none, by simp [ref], breakAt_none_iff.1 hb⟩
    | some q =>
      obtain ⟨a, b⟩ := q
      obtain ⟨rfl, h'⟩ := breakAt_some_iff.1 hb
      exact ⟨a, some b, rfl, h'⟩
  obtain ⟨path, frag, rfl, hpath⟩ := hjr
  rw [normalize_jr_ref hpath] at h
  by_cases hp : path = []
  · subst hp
    simp [hune] at h
    exact ⟨url, frag, h.symm, hh, hu⟩
  · by_cases hs : (urlparse path).scheme = []
    · obtain ⟨a1, a2, a3, a4, a5, a6⟩ := hash_urlparse hh
      generalize hJ : urlunparse { urlparse url with
          path := join ['/'] [dirname (urlparse url).path, path] } = J
      have hJh : '#' ∉ J := by
        rw [← hJ]
        refine hash_urlunparse a1 a2 ?_ a4 a5 a6
        simp only [join, List.mem_append, List.mem_singleton, not_or]
        exact ⟨⟨fun hx => a3 (dirname_mem _ _ hx), by decide⟩, hpath⟩
      have hJs : (urlparse J).scheme ≠ [] := by
        have := scheme_urlunparse (p := { urlparse url with
          path := join ['/'] [dirname (urlparse url).path, path] }) hu
          (urlparse_scheme_props url).1 (urlparse_scheme_props url).2
        rw [hJ] at this
        intro h'
        exact hu (this.symm.trans h')
      obtain ⟨d1, d2⟩ := derel_scheme_hash hJs hJh
      have hdne : derelativise_url J ≠ [] := by intro e; rw [e] at d1; exact d1 (by decide)
      simp only [ne_eq, hp, not_false_eq_true, if_true, hs, Option.getD_some, hune, and_self, hJ, hdne,
        Except.ok.injEq] at h
      exact ⟨_, frag, h.symm, d2, d1⟩
    · simp [hp, hs] at h
      exact ⟨path, frag, h.symm, hpath, hs⟩

theorem withFrag_eq_ref (path : Str) (frag : Option Str) : ∃ frag', withFrag path frag = ref path frag' ∧
    withFrag path frag' = withFrag path frag := by
  by_cases h : frag.getD [] = []
  · exact ⟨none, by simp [withFrag, ref, h], by simp [withFrag, h]⟩
  · exact ⟨some (frag.getD []), by simp [withFrag, ref, h], by simp [withFrag]⟩

/-- For every document URL with a scheme and without fragment, the result of normalisation
has a scheme, and normalising it again, against any document or none, changes nothing. -/
theorem C10_idempotent {jr url r : Str} (hu : (urlparse url).scheme ≠ []) (hh : '#' ∉ url)
    (h : normalize_jr (some jr) (some url) = .ok (some r)) :
    (urlparse r).scheme ≠ [] ∧ ∀ url', normalize_jr (some r) url' = .ok (some r) := by
  obtain ⟨path, frag, hr, h1, h2⟩ := normalize_shape hu hh h
  obtain ⟨frag', e1, e2⟩ := withFrag_eq_ref path frag
  have hr' : r = ref path frag' := by rw [← e1]; simpa using hr
  constructor
  · -- the scheme is cut before the fragment
    rw [hr']
    cases frag' with
    | none => simpa [ref] using h2
    | some f =>
      simp only [ref]
      have : ∀ t : Str, (splitScheme path).1 ≠ [] → (splitScheme (path ++ t)).1 ≠ [] := by
        intro t ht
        unfold splitScheme at ht ⊢
        cases hb : breakAt ':' path with
        | none => rw [hb] at ht; simp at ht
        | some q =>
          obtain ⟨a, b⟩ := q
          rw [hb] at ht
          obtain ⟨rfl, ha⟩ := breakAt_some_iff.1 hb
          have : breakAt ':' (a ++ ':' :: b ++ t) = some (a, b ++ t) :=
            breakAt_some_iff.2 ⟨by simp, ha⟩
          rw [this]
          simp only at ht ⊢
          split
          · rename_i hc; rw [if_pos hc] at ht; exact ht
          · rename_i hc; rw [if_neg hc] at ht; simp at ht
      exact this _ h2
  · intro url'
    rw [hr', C10_absolute frag' url' h1 h2, e2, ← e1]

/-- Normalisation against a document with a scheme never fails. -/
theorem C10_total (jr : Option Str) {url : Str} (hu : url ≠ []) :
    ∃ r, normalize_jr jr (some url) = .ok r ∧ (r = none ↔ jr = none) := by
  cases jr with
  | none => exact ⟨none, rfl, by simp⟩
  | some jr =>
    have hjr : ∃ path frag, jr = ref path frag ∧ '#' ∉ path := by
      cases hb : breakAt '#' jr with
      | none => exact ⟨jr, none, by simp [ref], breakAt_none_iff.1 hb⟩
      | some q =>
        obtain ⟨a, b⟩ := q
        obtain ⟨rfl, h⟩ := breakAt_some_iff.1 hb
        exact ⟨a, some b, rfl, h⟩
    obtain ⟨path, frag, rfl, hpath⟩ := hjr
    rw [normalize_jr_ref hpath]
    by_cases hp : path = []
    · simp [hp, hu]
    · by_cases hs : (urlparse path).scheme = []
      · have : ∀ u, derelativise_url u ≠ [] := by
          intro u
          simp only [derelativise_url, urlunparse, unparseHead]
          split <;> split <;> split <;> split <;> (try split) <;> simp
        simp [hp, hs, hu, this]
      · simp [hp, hs]

/-- Splitting a normalised reference to a document gives back the document's URL and the
JSON pointer. -/
theorem C10_split (path2url abspath : Str → Str) {p : Url} (hc : Canon p) (hf : p.fragment = [])
    (frag : Str) :
    jr_split path2url abspath (withFrag (urlunparse p) (some frag)) =
      .ok (urlunparse p, '#' :: frag) := by
  obtain ⟨s, n, pa, pm, q, f⟩ := p
  simp only at hf
  subst hf
  have hc' : Canon ⟨s, n, pa, pm, q, frag⟩ := {
    scheme_ne := hc.scheme_ne, scheme_chars := hc.scheme_chars, scheme_lower := hc.scheme_lower
    netloc_ok := hc.netloc_ok, auth := hc.auth, path_abs := hc.path_abs, path_query := hc.path_query
    path_frag := hc.path_frag, path_auth := hc.path_auth, path_rooted := hc.path_rooted
    seg_params := hc.seg_params, params_scheme := hc.params_scheme, params_slash := hc.params_slash
    params_query := hc.params_query, params_frag := hc.params_frag, query_frag := hc.query_frag }
  have ht : withFrag (urlunparse ⟨s, n, pa, pm, q, []⟩) (some frag) = urlunparse ⟨s, n, pa, pm, q, frag⟩ := by
    rw [urlunparse_canon hc, urlunparse_canon hc']
    by_cases hfr : frag = [] <;> simp [withFrag, hfr]
  have hwin : windowsPathPrefix (urlunparse ⟨s, n, pa, pm, q, []⟩) = false := by
    rw [urlunparse_canon hc]
    have h1 := hc.scheme_ne
    have h2 := hc.scheme_chars
    simp only at h1 h2
    have h3 := colon_not_mem h2
    simp only [List.append_assoc]
    match s, h1, h3 with
    | [a], _, _ => simp [windowsPathPrefix]
    | a :: b :: t, _, h3 =>
      have : b ≠ ':' := by rintro rfl; simp at h3
      simp only [List.cons_append]
      unfold windowsPathPrefix
      split
      · rename_i heq; simp at heq; exact absurd heq.2.1 this
      · rfl
  have hne : urlunparse ⟨s, n, pa, pm, q, []⟩ ≠ [] := by
    rw [urlunparse_canon hc]; simp
  rw [ht]
  have hns : (urlparse (urlunparse ⟨s, n, pa, pm, q, []⟩)).scheme ≠ [] := by
    rw [urlparse_urlunparse hc]; exact hc.scheme_ne
  have hnorm : normalize_url path2url abspath (urlunparse ⟨s, n, pa, pm, q, []⟩) =
      .ok (urlunparse ⟨s, n, pa, pm, q, []⟩) := by
    simp only [normalize_url, hne, if_false, hwin, hns, Bool.false_eq_true]
  simp only [jr_split, urlparse_urlunparse hc', hnorm]
  by_cases hfr : frag = [] <;> simp [hfr]

/-- What a URL given by the user is turned into: it is kept if it has a scheme, a file path
becomes a `file:` URL, and everything else (no scheme, but a host or no path) is rejected. -/
theorem C10_normalize_url (path2url abspath : Str → Str) {url : Str} (h0 : url ≠ [])
    (hw : windowsPathPrefix url = false) :
    ((urlparse url).scheme ≠ [] → normalize_url path2url abspath url = .ok url) ∧
    ((urlparse url).scheme = [] → (urlparse url).netloc = [] → (urlparse url).path ≠ [] →
      normalize_url path2url abspath url = .ok (path2url (abspath url))) ∧
    ((urlparse url).scheme = [] → (urlparse url).netloc ≠ [] ∨ (urlparse url).path = [] →
      normalize_url path2url abspath url = .error .ValueError) := by
  unfold normalize_url
  rw [if_neg h0, hw]
  refine ⟨fun h => by simp [h], fun h1 h2 h3 => by simp [h1, h2, h3], fun h1 h2 => ?_⟩
  rcases h2 with h2 | h2 <;> simp [h1, h2]

/-- A path with a drive letter is refused on POSIX. -/
theorem C10_drive (path2url abspath : Str → Str) (d : Char) (rest : Str) (h : ('A' ≤ d ∧ d ≤ 'Z') ∨ ('a' ≤ d ∧ d ≤ 'z')) :
    normalize_url path2url abspath (d :: ':' :: '\\' :: rest) = .error .ValueError := by
  have hd : d.isAlpha = true := by
    simp only [Char.isAlpha, Char.isUpper, Char.isLower, Bool.or_eq_true, Bool.and_eq_true, decide_eq_true_eq]
    exact h
  simp [normalize_url, windowsPathPrefix, hd]

/-- The folder hypothesis of `C10_relative` is needed: for a document at the root of its host
(`http://h/swagger.json`) a relative reference gets a doubled slash, so the documented
`http://h/some/User.json` is not what comes out. -/
theorem C10_root_document_false :
    ¬ ∀ scheme netloc file path : Str,
      Canon ⟨scheme, netloc, '/' :: file, [], [], []⟩ → netloc ≠ [] → '/' ∉ file →
      path ≠ [] → '#' ∉ path → '?' ∉ path → ';' ∉ path → (urlparse path).scheme = [] →
      ∃ segs, Simplified (splitChar '/' path) segs ∧
        normalize_jr (some path) (some (scheme ++ c!"://" ++ netloc ++ '/' :: file)) =
          .ok (some (scheme ++ c!"://" ++ netloc ++ '/' :: join ['/'] segs)) := by
  intro h
  have hp : urlparse c!"http://h/swagger.json" = ⟨c!"http", c!"h", c!"/swagger.json", [], [], []⟩ := by decide
  obtain ⟨segs, h1, h2⟩ := h c!"http" c!"h" c!"swagger.json" c!"some/User.json"
    (hp ▸ canon_urlparse (hp ▸ ⟨by decide, Or.inl (by decide)⟩))
    (by decide) (by decide) (by decide) (by decide) (by decide) (by decide) (by decide)
  rw [simplified_iff] at h1
  subst h1
  revert h2; decide

/-- non-vacuity -/
example : normalize_jr (some c!"#/definitions/User") (some c!"http://h/a/swagger.json") =
    .ok (some c!"http://h/a/swagger.json#/definitions/User") := by decide
example : normalize_jr (some c!"../m/User.json#/x") (some c!"http://h/a/b/swagger.json") =
    .ok (some c!"http://h/a/m/User.json#/x") := by decide
example : normalize_jr (some c!"some/User.json") (some c!"http://h/swagger.json") =
    .ok (some c!"http://h//some/User.json") := by decide
example : Canon ⟨c!"http", c!"h", c!"/a/b/swagger.json", [], [], []⟩ :=
  have : urlparse c!"http://h/a/b/swagger.json" = ⟨c!"http", c!"h", c!"/a/b/swagger.json", [], [], []⟩ := by decide
  this ▸ canon_urlparse (this ▸ ⟨by decide, Or.inl (by decide)⟩)

example : (urlparse c!"//h/x").netloc ≠ [] ∧ (urlparse c!"api/swagger.json").path ≠ [] ∧
    (urlparse c!"http://h").scheme ≠ [] ∧ windowsPathPrefix c!"c:\\x" = true := by decide

end Props.C10
