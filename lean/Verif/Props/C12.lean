import Verif.Proofs.Derel
/-!
# C12: URL joining inserts exactly one slash

Spec side: `seam a b`, the two texts with exactly one slash between them.
-/

namespace Props.C12
open Py Utils

/-- `a` without one trailing slash -/
def chopEnd (a : Str) : Str := if a.getLast? = some '/' then a.dropLast else a
/-- `b` without one leading slash -/
def chopStart (b : Str) : Str := if b.head? = some '/' then b.tail else b
/-- the texts joined with one slash -/
def seam (a b : Str) : Str := chopEnd a ++ '/' :: chopStart b

theorem join_path (a b : Str) :
    (if a.getLast? = some '/' then a ++ (if b.head? = some '/' then b.drop 1 else b)
      else join (if b.head? = some '/' then [] else ['/']) [a, b]) = seam a b := by
  unfold seam chopEnd chopStart
  by_cases ha : a.getLast? = some '/'
  · have hne : a ≠ [] := by rintro rfl; simp at ha
    have : a = a.dropLast ++ ['/'] := by
      conv => lhs; rw [← List.dropLast_concat_getLast hne]
      rw [List.getLast?_eq_some_getLast hne] at ha
      simp only [Option.some.injEq] at ha
      rw [ha]
    simp only [ha, if_true]
    conv => lhs; rw [this]
    by_cases hb : b.head? = some '/' <;> simp [hb]
  · by_cases hb : b.head? = some '/'
    · cases b with
      | nil => simp at hb
      | cons c b => simp at hb; subst hb; simp [ha, join]
    · simp [ha, hb, join]

/-- Only the path component changes, to the two paths with one slash at the seam. -/
theorem C12_join (url path : Str) :
    url_join url path = urlunparse { urlparse url with path := seam (urlparse url).path path } := by
  simp only [url_join, join_path]

/-- On the text of an absolute URL without parameters, query and fragment: the two texts with one
slash at the seam (`http://h` + `/x`, `http://h/` + `x`, … ↦ `http://h/x`). -/
theorem C12_join_text {scheme netloc upath path : Str}
    (hc : Canon ⟨scheme, netloc, upath, [], [], []⟩)
    (ha : netloc ≠ [] ∨ (chopEnd upath ≠ [] ∨ (chopStart path).head? ≠ some '/')) :
    url_join (scheme ++ c!"://" ++ netloc ++ upath) path =
      scheme ++ c!"://" ++ netloc ++ seam upath path := by
  have h1 := urlunparse_canon hc
  simp only [ne_eq, not_true_eq_false, if_false, List.append_nil] at h1
  have h2 := urlparse_urlunparse hc
  rw [h1] at h2
  rw [C12_join, h2]
  have hslash : (seam upath path).take 1 = ['/'] := by
    unfold seam
    rcases hc.path_abs with h | ⟨t, h⟩
    · simp only at h; subst h; simp [chopEnd]
    · simp only at h; subst h
      unfold chopEnd
      split
      · cases t <;> simp
      · simp
  have h3 : netloc ≠ [] ∨ (scheme ≠ [] ∧ scheme ∈ usesNetloc ∧ (seam upath path).take 2 ≠ ['/', '/']) := by
    by_cases hn : netloc = []
    · right
      refine ⟨hc.scheme_ne, (hc.auth.resolve_left (by simpa using hn)), ?_⟩
      have hpa := hc.path_auth hn
      simp only at hpa
      rcases ha with h | h
      · exact absurd hn h
      · unfold seam
        rcases hc.path_abs with he | ⟨t, he⟩
        · simp only at he; subst he
          rcases h with h | h
          · exact absurd (by simp [chopEnd]) h
          · simp only [chopEnd, List.getLast?_nil, reduceCtorEq, if_false, List.nil_append]
            cases hcs : chopStart path with
            | nil => simp
            | cons c r => rw [hcs] at h; simpa using h
        · simp only at he; subst he
          cases t with
          | nil =>
            rcases h with h | h
            · exact absurd (by simp [chopEnd]) h
            · simp only [chopEnd, List.getLast?_singleton, if_true, List.dropLast_singleton, List.nil_append]
              cases hcs : chopStart path with
              | nil => simp
              | cons c r => rw [hcs] at h; simpa using h
          | cons d t =>
            have hd : d ≠ '/' := by rintro rfl; exact hpa t rfl
            unfold chopEnd
            split
            · cases t with
              | nil => rename_i hl; simp at hl; exact absurd hl hd
              | cons e t => simp [hd]
            · simp [hd]
    · exact Or.inl hn
  have hne : seam upath path ≠ [] := by simp [seam]
  simp only [urlunparse, unparseHead, ne_eq, not_true_eq_false, if_false]
  rw [if_pos h3]
  simp [hslash, hc.scheme_ne]

/-- Reading the joined URL back: everything but the path is as it was. -/
theorem C12_join_components {url path : Str} (h : AbsUrl (urlparse url))
    (hn : (urlparse url).netloc ≠ [])
    (hq : '?' ∉ path) (hf : '#' ∉ path) (hs : ';' ∉ path) (hp : ';' ∉ (urlparse url).path) :
    urlparse (url_join url path) =
      { urlparse url with path := seam (urlparse url).path path } := by
  rw [C12_join]
  have hc := canon_urlparse h
  generalize urlparse url = p at *
  have hmem : ∀ x ∈ seam p.path path, x = '/' ∨ x ∈ p.path ∨ x ∈ path := by
    intro x hx
    simp only [seam, chopEnd, chopStart, List.mem_append, List.mem_cons] at hx
    rcases hx with hx | rfl | hx
    · right; left; split at hx
      · exact List.dropLast_subset _ hx
      · exact hx
    · exact Or.inl rfl
    · right; right; split at hx
      · exact List.mem_of_mem_tail hx
      · exact hx
  have hno : ∀ x : Char, x ≠ '/' → x ∉ p.path → x ∉ path → x ∉ seam p.path path := by
    intro x h1 h2 h3 h4
    rcases hmem x h4 with h | h | h
    · exact h1 h
    · exact h2 h
    · exact h3 h
  apply urlparse_urlunparse
  exact {
    scheme_ne := hc.scheme_ne
    scheme_chars := hc.scheme_chars
    scheme_lower := hc.scheme_lower
    netloc_ok := hc.netloc_ok
    auth := hc.auth
    path_abs := by
      right
      simp only [seam]
      rcases hc.path_abs with h | ⟨t, h⟩
      · rw [h]; exact ⟨chopStart path, by simp [chopEnd]⟩
      · rw [h]
        unfold chopEnd
        split
        · cases t with
          | nil => exact ⟨chopStart path, by simp⟩
          | cons d t => exact ⟨_, by simp only [List.dropLast_cons_cons, List.cons_append]; rfl⟩
        · exact ⟨_, by simp only [List.cons_append]; rfl⟩
    path_query := hno _ (by decide) hc.path_query hq
    path_frag := hno _ (by decide) hc.path_frag hf
    path_auth := fun h0 => absurd h0 hn
    path_rooted := by simp [seam]
    seg_params := fun _ hx => hno _ (by decide) hp hs (lastSeg_subset _ _ hx)
    params_scheme := hc.params_scheme
    params_slash := hc.params_slash
    params_query := hc.params_query
    params_frag := hc.params_frag
    query_frag := hc.query_frag }

/-- `url_dirname` leaves alone every URL whose path does not end in `json` or `yaml`. -/
theorem C12_dirname_other {url : Str} (h1 : ¬ c!"json" <:+ (urlparse url).path)
    (h2 : ¬ c!"yaml" <:+ (urlparse url).path) : url_dirname url = url := by
  have e1 : endsWith (urlparse url).path FILE_EXT_JSON = false := by
    rw [Bool.eq_false_iff, ne_eq, endsWith_iff]; exact h1
  have e2 : endsWith (urlparse url).path FILE_EXT_YAML = false := by
    rw [Bool.eq_false_iff, ne_eq, endsWith_iff]; exact h2
  simp [url_dirname, e1, e2]

theorem dirname_append {d b : Str} (hd : ∃ t x, d = t ++ [x] ∧ x ≠ '/') (hb : '/' ∉ b) :
    dirname (d ++ '/' :: b) = d := by
  obtain ⟨t, x, rfl, hx⟩ := hd
  have h1 : breakAtLast '/' (t ++ [x] ++ '/' :: b) = some (t ++ [x] ++ ['/'], b) :=
    breakAtLast_some_iff.2 ⟨_, rfl, rfl, hb⟩
  have h2 : (t ++ [x] ++ ['/']).all (fun c => c = '/') = false := by
    rw [Bool.eq_false_iff]; simp [hx]
  simp only [dirname, h1, h2]
  simp [rstripSlash, hx]

theorem dirname_root {b : Str} (hb : '/' ∉ b) : dirname ('/' :: b) = ['/'] := by
  have h1 : breakAtLast '/' ('/' :: b) = some (['/'], b) :=
    breakAtLast_some_iff.2 ⟨[], rfl, rfl, hb⟩
  simp [dirname, h1]

/-- For a file below a folder, `url_dirname` cuts the last component (and the slash before it);
`folder` does not end in a slash. -/
theorem C12_dirname_file {url folder file : Str}
    (hf : (urlparse url).path = folder ++ '/' :: file) (hfile : '/' ∉ file)
    (he : c!"json" <:+ file ∨ c!"yaml" <:+ file) (hd : ∃ t x, folder = t ++ [x] ∧ x ≠ '/') :
    url_dirname url = urlunparse { urlparse url with path := folder } := by
  have hsuf : ∀ e : Str, e <:+ file → endsWith (urlparse url).path e = true := by
    intro e h; rw [endsWith_iff, hf]
    exact h.trans ((List.suffix_cons _ _).trans (List.suffix_append _ _))
  have : [FILE_EXT_JSON, FILE_EXT_YAML].any (fun e => endsWith (urlparse url).path e) = true := by
    rcases he with h | h
    · simp [show endsWith (urlparse url).path FILE_EXT_JSON = true from hsuf _ h]
    · simp [show endsWith (urlparse url).path FILE_EXT_YAML = true from hsuf _ h]
  simp only [url_dirname, this, if_true]
  rw [hf, dirname_append hd hfile]

/-- For a file at the root, `url_dirname` gives the root. -/
theorem C12_dirname_root_file {url file : Str} (hf : (urlparse url).path = '/' :: file)
    (hfile : '/' ∉ file) (he : c!"json" <:+ file ∨ c!"yaml" <:+ file) :
    url_dirname url = urlunparse { urlparse url with path := ['/'] } := by
  have hsuf : ∀ e : Str, e <:+ file → endsWith (urlparse url).path e = true := by
    intro e h; rw [endsWith_iff, hf]
    exact h.trans (List.suffix_cons _ _)
  have : [FILE_EXT_JSON, FILE_EXT_YAML].any (fun e => endsWith (urlparse url).path e) = true := by
    rcases he with h | h
    · simp [show endsWith (urlparse url).path FILE_EXT_JSON = true from hsuf _ h]
    · simp [show endsWith (urlparse url).path FILE_EXT_YAML = true from hsuf _ h]
  simp only [url_dirname, this, if_true]
  rw [hf, dirname_root hfile]

/-- non-vacuity -/
example : url_join c!"http://h/v1/" c!"/pets" = c!"http://h/v1/pets" ∧
    url_join c!"http://h/v1" c!"pets" = c!"http://h/v1/pets" ∧
    url_join c!"http://h" c!"/pets" = c!"http://h/pets" ∧
    url_join c!"http://h/v1?a=b" c!"pets" = c!"http://h/v1/pets?a=b" := by decide
example : Canon ⟨c!"http", c!"h", c!"/v1/", [], [], []⟩ :=
  have : urlparse c!"http://h/v1/" = ⟨c!"http", c!"h", c!"/v1/", [], [], []⟩ := by decide
  this ▸ canon_urlparse (this ▸ ⟨by decide, Or.inl (by decide)⟩)
example : url_dirname c!"http://h/a/b/swagger.json?x#y" = c!"http://h/a/b?x#y" ∧
    url_dirname c!"http://h/swagger.yaml" = c!"http://h/" ∧
    url_dirname c!"http://h/a/api-docs" = c!"http://h/a/api-docs" := by decide

end Props.C12
