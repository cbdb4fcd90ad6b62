import Verif.Proofs.LocalFile
import Verif.Props.C10
/-!
# C100: which file is opened for a path

`path2url` writes the characters of a path that are not unreserved in hexadecimal, and `LocalGetter` does not read them back.
-/

namespace Props.C100
open Py Utils LocalFile Spec.File Proofs.LocalFile

variable {isfile : Str → Bool}

/-! ## from the URL on -/

theorem path_cons (r : List Str) : ∃ t, path r = '/' :: t := ⟨_, rfl⟩

theorem canon {r : List Str} (h : Segs r) (h1 : '?' ∉ path r) (h2 : '#' ∉ path r) : Canon ⟨c!"file", [], path r, [], [], []⟩ where
  scheme_ne := by simp
  scheme_chars := (by decide : (c!"file").all isSchemeChar = true)
  scheme_lower := (by decide : (c!"file").map Char.toLower = c!"file")
  netloc_ok := by simp
  auth := .inr (by decide : c!"file" ∈ usesNetloc)
  path_abs := .inr (path_cons r)
  path_query := h1
  path_frag := h2
  path_auth := by
    intro _ t e
    have := head_join (l := r) (fun s hs => (h s hs).2) (fun s hs => (h s (List.mem_of_mem_head? hs)).1)
    change '/' :: join ['/'] r = _ at e
    injection e with _ e
    rw [e] at this
    exact this rfl
  path_rooted := by simp
  seg_params := fun hh => absurd hh (by decide : c!"file" ∉ usesParams)
  params_scheme := fun _ => rfl
  params_slash := by simp
  params_query := by simp
  params_frag := by simp
  query_frag := by simp

theorem unparse {r : List Str} (h : Segs r) (h1 : '?' ∉ path r) (h2 : '#' ∉ path r) :
    urlunparse ⟨c!"file", [], path r, [], [], []⟩ = c!"file://" ++ path r := by
  rw [urlunparse_canon (canon h h1 h2)]
  simp

theorem local_path {cwd : Str} {r : List Str} (hc : ':' ∉ path r) : Getters.localPath (abspath cwd) (path r) = path r := by
  have h1 : startsWith (path r) c!"file://" = false := rfl
  have h2 : Getters.drivePath (path r) = false := by
    unfold Getters.drivePath
    obtain ⟨t, e⟩ := path_cons r
    rw [e] at hc ⊢
    change (decide ((t.dropWhile (fun c => 'A' ≤ c && c ≤ 'Z')).length < t.length) &&
      decide ((t.dropWhile (fun c => 'A' ≤ c && c ≤ 'Z')).head? = some ':')) = false
    cases hd : t.dropWhile (fun c => 'A' ≤ c && c ≤ 'Z') with
    | nil => simp
    | cons x l =>
      have : x ∈ t := (List.dropWhile_sublist _).subset (by rw [hd]; simp)
      have hx : x ≠ ':' := by rintro rfl; exact hc (by simp [this])
      simp [hx]
  unfold Getters.localPath
  rw [h1]
  simp [h2]

theorem getter {cwd : Str} (ht : Tidy isfile) {d : List Str} {n : Str} (h : Segs (d ++ [n])) (hn : Document n) (hc : ':' ∉ path (d ++ [n])) :
    Getters.localGetter (abspath cwd) isfile (path (d ++ [n])) = .ok ⟨path d, [path (d ++ [n])]⟩ := by
  have hw : ∀ l : List Str, (∀ m ∈ l, m ∈ Getters.SWAGGER_FILE_NAMES) →
      Getters.wellKnown isfile (path (d ++ [n])) (path (d ++ [n])) l = none ∨
      Getters.wellKnown isfile (path (d ++ [n])) (path (d ++ [n])) l = some ⟨path d, [path (d ++ [n])]⟩ := by
    intro l
    induction l with
    | nil => exact fun _ => .inl rfl
    | cons m l ih =>
      intro hm
      rw [Getters.wellKnown]
      split
      · right
        rw [dirname_path (fun s hs => h s (by simp [hs])) (h n (by simp)).2]
      · have : pathJoin (path (d ++ [n])) m = path (d ++ [n, m]) := by
          have h1 : m.head? ≠ some '/' := by
            have : ∀ m ∈ Getters.SWAGGER_FILE_NAMES, m.head? ≠ some '/' := by decide
            exact this m (hm m (by simp))
          unfold pathJoin
          rw [if_neg h1, if_neg (by rintro (e | e); exact absurd e (by simp [path]); exact last_path h (by simp) e)]
          rw [show d ++ [n, m] = (d ++ [n]) ++ [m] by simp, path_snoc (d ++ [n]) m, if_neg (by simp)]
        dsimp only
        rw [this, ht d n m hn]
        exact ih fun x hx => hm x (List.mem_cons_of_mem _ hx)
  unfold Getters.localGetter
  rw [local_path hc]
  dsimp only
  rcases hw _ (fun _ hm => hm) with e | e
  · rw [e]
    dsimp only
    obtain ⟨h1, -⟩ := ext_document (d := d) (h n (by simp)).2 hn
    have hb : ∀ x ∈ VALID_FILE_EXT, ∀ p, Getters.byExtension p x [FILE_EXT_JSON, FILE_EXT_YAML, FILE_EXT_YML] = some ⟨dirname p, [p]⟩ := by
      intro x hx p
      simp only [VALID_FILE_EXT, List.mem_cons, List.not_mem_nil, or_false] at hx
      rcases hx with rfl | rfl | rfl <;> rfl
    rw [hb _ h1, dirname_path (fun s hs => h s (by simp [hs])) (h n (by simp)).2]
  · rw [e]

/-- the getter made for a URL decides -/
theorem opened_by {cwd : Str} {r : List Str} (h : Segs r) (hc : ∀ c ∈ path r, c ∉ [':', '?', '#']) {u : Str}
    (hu : normalize_url path2url (abspath cwd) u = .ok (c!"file://" ++ path r)) {base file : Str}
    (hg : Getters.localGetter (abspath cwd) isfile (path r) = .ok ⟨base, [file]⟩) :
    opened cwd isfile u = .ok (some (patch_path base file)) := by
  have h1 : '?' ∉ path r := fun e => hc _ e (by simp)
  have h2 : '#' ∉ path r := fun e => hc _ e (by simp)
  have hk := canon h h1 h2
  have hj := C10.C10_split path2url (abspath cwd) hk rfl []
  unfold C10.withFrag at hj
  simp only [Option.getD_some, if_true] at hj
  rw [unparse h h1 h2] at hj
  have hs : Resolver.source ⟨none, none⟩ none (c!"file://" ++ path r) = .file (path r) := by
    unfold Resolver.source
    rw [← unparse h h1 h2, urlparse_urlunparse hk]
    dsimp only
    rw [if_pos ⟨rfl, by simp [path]⟩]
    rfl
  unfold opened
  rw [hu]
  dsimp only
  rw [hj]
  dsimp only
  rw [hs]
  dsimp only
  rw [hg]

/-- the file opened for a URL -/
theorem opened_url {cwd : Str} (ht : Tidy isfile) {d : List Str} {n : Str} (h : Segs (d ++ [n])) (hn : Document n)
    (hf : ∀ f, d.getLast? = some f → ¬ Document f) (hc : ∀ c ∈ path (d ++ [n]), c ∉ [':', '?', '#']) {u : Str}
    (hu : normalize_url path2url (abspath cwd) u = .ok (c!"file://" ++ path (d ++ [n]))) :
    opened cwd isfile u = .ok (some (path (d ++ [n]))) := by
  rw [opened_by h hc hu (getter ht h hn fun e => hc _ e (by simp)), patched h hf hn]

/-- no name of a document at the end of the path of a folder -/
theorem no_name {r : List Str} (h : Segs r) (hf : ∀ f, r.getLast? = some f → ¬ Document f) {m : Str}
    (hm : m ∈ [c!"resource_list.json", c!"swagger.json", c!"swagger.yaml", c!"swagger.yml"]) : ¬ m <:+ path r := by
  rintro ⟨t, ht⟩
  obtain ⟨stem, e, he, hx, hs⟩ : ∃ stem e, m = stem ++ '.' :: e ∧ e ∈ [c!"json", c!"yaml", c!"yml"] ∧ 'r' ∈ stem := by
    simp only [List.mem_cons, List.not_mem_nil, or_false] at hm
    rcases hm with rfl | rfl | rfl | rfl
    · exact ⟨c!"resource_list", _, rfl, by simp, by decide⟩
    · exact ⟨c!"swagger", _, rfl, by simp, by decide⟩
    · exact ⟨c!"swagger", _, rfl, by simp, by decide⟩
    · exact ⟨c!"swagger", _, rfl, by simp, by decide⟩
  have hsl : '/' ∉ m := by
    have : ∀ m ∈ [c!"resource_list.json", c!"swagger.json", c!"swagger.yaml", c!"swagger.yml"], '/' ∉ m := by decide
    exact this m hm
  by_cases hr : r = []
  · subst hr
    have := congrArg List.getLast? ht
    rw [he] at this
    have he' : e ≠ [] := by rintro rfl; revert hx; decide
    obtain ⟨y, z, rfl⟩ : ∃ y z, e = y ++ [z] := ⟨_, _, (List.dropLast_concat_getLast he').symm⟩
    have h2 : t ++ (stem ++ '.' :: (y ++ [z])) = (t ++ stem ++ '.' :: y) ++ [z] := by simp
    rw [h2, List.getLast?_concat] at this
    have hz : z = '/' := Option.some.inj this
    subst hz
    exact hsl (by rw [he]; simp)
  · obtain ⟨l, n, rfl⟩ : ∃ l x, r = l ++ [x] := ⟨_, _, (List.dropLast_concat_getLast hr).symm⟩
    refine hf n (by simp) ?_
    rw [path_snoc] at ht
    have : m <:+ '/' :: n := by
      have h1 : m <:+ (if l = [] then [] else path l) ++ '/' :: n := ⟨t, ht⟩
      have h2 : '/' :: n <:+ (if l = [] then [] else path l) ++ '/' :: n := ⟨_, rfl⟩
      rcases List.suffix_or_suffix_of_suffix h1 h2 with h | h
      · exact h
      · exact absurd (h.subset (by simp)) hsl
    rcases List.suffix_cons_iff.1 this with h | ⟨b, h⟩
    · exact absurd (by rw [h]; simp) hsl
    · exact ⟨b ++ stem, e, by rw [← h, he]; simp, hx, 'r', by simp [hs], by decide⟩

theorem getter_folder {cwd : Str} {r : List Str} (h : Segs r) (hf : ∀ f, r.getLast? = some f → ¬ Document f) (hc : ':' ∉ path r)
    {before after : List Str} {n : Str} (hn : [c!"resource_list.json", c!"swagger.json", c!"swagger.yaml", c!"swagger.yml"] = before ++ n :: after)
    (hb : ∀ m ∈ before, isfile (path (r ++ [m])) = false) (hi : isfile (path (r ++ [n])) = true) :
    Getters.localGetter (abspath cwd) isfile (path r) = .ok ⟨path r, [path (r ++ [n])]⟩ := by
  have hall : ∀ l : List Str, (∀ m ∈ l, m ∈ [c!"resource_list.json", c!"swagger.json", c!"swagger.yaml", c!"swagger.yml"]) →
      ∀ m ∈ l, pathJoin (path r) m = path (r ++ [m]) ∧ endsWith (path r) m = false := by
    intro l hl m hm
    have h1 : m.head? ≠ some '/' := by
      have : ∀ m ∈ [c!"resource_list.json", c!"swagger.json", c!"swagger.yaml", c!"swagger.yml"], m.head? ≠ some '/' := by decide
      exact this m (hl m hm)
    refine ⟨?_, ?_⟩
    · unfold pathJoin
      rw [if_neg h1, path_snoc]
      by_cases hr : r = []
      · subst hr; rfl
      · rw [if_neg (by rintro (e | e); exact absurd e (by simp [path]); exact last_path h hr e), if_neg hr]
    · rw [Bool.eq_false_iff]
      exact fun e => no_name h hf (hl m hm) ((endsWith_iff _ _).1 e)
  have hw : ∀ l : List Str, (∀ m ∈ l, m ∈ before) → Getters.wellKnown isfile (path r) (path r) (l ++ n :: after) =
      some ⟨path r, [path (r ++ [n])]⟩ := by
    intro l
    induction l with
    | nil =>
      intro _
      obtain ⟨h1, h2⟩ := hall [n] (fun m hm => by rw [List.mem_singleton] at hm; rw [hn, hm]; simp) n (by simp)
      rw [List.nil_append, Getters.wellKnown, h2, h1]
      dsimp only
      rw [hi]
      rfl
    | cons m l ih =>
      intro hm
      obtain ⟨h1, h2⟩ := hall [m] (fun x hx => by rw [List.mem_singleton] at hx; rw [hn, hx]; simp [hm m (by simp)]) m (by simp)
      rw [List.cons_append, Getters.wellKnown, h2, h1]
      dsimp only
      rw [hb m (hm m (by simp))]
      exact ih fun x hx => hm x (List.mem_cons_of_mem _ hx)
  have hs : Getters.SWAGGER_FILE_NAMES = before ++ n :: after := hn
  unfold Getters.localGetter
  rw [local_path hc, hs]
  dsimp only
  rw [hw before fun _ hm => hm]

/-- a name without extension -/
theorem getter_bare {cwd : Str} {d : List Str} {f : Str} (h : Segs (d ++ [f])) (hd : ∀ x ∈ [c!"json", c!"yaml", c!"yml"], ¬ x <:+ f) (hc : ':' ∉ path (d ++ [f]))
    (hw : ∀ m ∈ [c!"resource_list.json", c!"swagger.json", c!"swagger.yaml", c!"swagger.yml"], isfile (path (d ++ [f, m])) = false)
    {before after : List Str} {e : Str} (he : [c!"json", c!"yaml", c!"yml"] = before ++ e :: after)
    (hb : ∀ m ∈ before, isfile (path (d ++ [f ++ '.' :: m])) = false) (hi : isfile (path (d ++ [f ++ '.' :: e])) = true) :
    Getters.localGetter (abspath cwd) isfile (path (d ++ [f])) = .ok ⟨path (d ++ [f]), [path (d ++ [f ++ '.' :: e])]⟩ := by
  have hf : ∀ g, (d ++ [f]).getLast? = some g → ¬ Document g := by
    rintro g hg ⟨stem, x, rfl, hx, -⟩
    rw [List.getLast?_concat] at hg
    cases hg
    exact hd x hx ⟨stem ++ ['.'], by simp⟩
  have happ : ∀ x, path (d ++ [f]) ++ '.' :: x = path (d ++ [f ++ '.' :: x]) := by
    intro x
    rw [path_snoc, path_snoc]
    simp
  have hnone : ∀ l : List Str, (∀ m ∈ l, m ∈ Getters.SWAGGER_FILE_NAMES) →
      Getters.wellKnown isfile (path (d ++ [f])) (path (d ++ [f])) l = none := by
    intro l
    induction l with
    | nil => intro _; rfl
    | cons m l ih =>
      intro hm
      have h2 : endsWith (path (d ++ [f])) m = false := by
        rw [Bool.eq_false_iff]
        exact fun e => no_name h hf (hm m (by simp)) ((endsWith_iff _ _).1 e)
      have h3 : m.head? ≠ some '/' := by
        have : ∀ m ∈ Getters.SWAGGER_FILE_NAMES, m.head? ≠ some '/' := by decide
        exact this m (hm m (by simp))
      have h4 : pathJoin (path (d ++ [f])) m = path (d ++ [f, m]) := by
        unfold pathJoin
        rw [if_neg h3, if_neg (by rintro (e | e); exact absurd e (by simp [path]); exact last_path h (by simp) e)]
        rw [show d ++ [f, m] = (d ++ [f]) ++ [m] by simp, path_snoc (d ++ [f]) m, if_neg (by simp)]
      rw [Getters.wellKnown, h2, h4]
      dsimp only
      rw [hw m (hm m (by simp))]
      exact ih fun x hx => hm x (List.mem_cons_of_mem _ hx)
  have hext : splitextExt (path (d ++ [f])) <:+ f := by
    rw [ext_path (h f (by simp)).2]
    cases hb : breakAtLast '.' f with
    | none => exact List.nil_suffix
    | some v =>
      obtain ⟨pre, ext⟩ := v
      obtain ⟨stem, -, e, -⟩ := breakAtLast_some_iff.1 hb
      dsimp only
      split
      · exact List.nil_suffix
      · exact ⟨stem, e.symm⟩
  have hwe : ∀ l : List Str, (∀ m ∈ l, m ∈ before) → Getters.withExtension isfile (path (d ++ [f])) (path (d ++ [f])) (l ++ e :: after) =
      some ⟨path (d ++ [f]), [path (d ++ [f ++ '.' :: e])]⟩ := by
    intro l
    induction l with
    | nil =>
      intro _
      rw [List.nil_append, Getters.withExtension, happ, hi]
      rfl
    | cons m l ih =>
      intro hm
      rw [List.cons_append, Getters.withExtension, happ, hb m (hm m (by simp))]
      exact ih fun x hx => hm x (List.mem_cons_of_mem _ hx)
  have hx : [FILE_EXT_JSON, FILE_EXT_YAML, FILE_EXT_YML] = before ++ e :: after := he
  have hby : ∀ l : List Str, (∀ x ∈ l, x ∈ [c!"json", c!"yaml", c!"yml"]) →
      Getters.byExtension (path (d ++ [f])) (splitextExt (path (d ++ [f]))) l = none := by
    intro l
    induction l with
    | nil => intro _; rfl
    | cons x l ih =>
      intro hl
      have : endsWith (splitextExt (path (d ++ [f]))) x = false := by
        rw [Bool.eq_false_iff]
        exact fun e => hd x (hl x (by simp)) (((endsWith_iff _ _).1 e).trans hext)
      rw [Getters.byExtension, this]
      exact ih fun y hy => hl y (List.mem_cons_of_mem _ hy)
  unfold Getters.localGetter
  rw [local_path hc]
  dsimp only
  rw [hnone _ fun _ hm => hm]
  dsimp only
  rw [hby [FILE_EXT_JSON, FILE_EXT_YAML, FILE_EXT_YML] fun _ hm => hm]
  dsimp only
  rw [hx, hwe before fun _ hm => hm]

/-! ## from the path to the URL -/

theorem cutAt_head {c x : Char} {t : Str} (h : c ≠ x) : ∃ a, (cutAt x (c :: t)).1 = c :: a := by
  unfold cutAt
  rw [breakAt, if_neg h]
  cases breakAt x t with
  | none => exact ⟨t, rfl⟩
  | some v => exact ⟨v.1, rfl⟩

theorem typed_url {p : Str} (h : Typed p) (hp : p ≠ []) (path2url abspath : Str → Str) :
    normalize_url path2url abspath p = .ok (path2url (abspath p)) := by
  have hw : windowsPathPrefix p = false := by
    unfold windowsPathPrefix
    split
    · exact absurd (by simp) h.colon
    · rfl
  have h1 : splitScheme p = ([], p) := by
    unfold splitScheme
    rw [breakAt_none_iff.2 h.colon]
  have h2 : splitNetloc p = ([], p) := by
    unfold splitNetloc
    split
    · exact absurd ⟨_, rfl⟩ h.slashes
    · rfl
  obtain ⟨c, t, rfl⟩ := List.exists_cons_of_ne_nil hp
  have hc := h.head c rfl
  simp only [List.mem_cons, List.not_mem_nil, or_false, not_or] at hc
  obtain ⟨a, ha⟩ := cutAt_head (t := t) hc.2.1
  obtain ⟨b, hb⟩ := cutAt_head (t := a) hc.1
  have h3 : (splitParams (c :: b)).1 ≠ [] := by
    unfold splitParams
    split
    · next dir base hd =>
      obtain ⟨e, rfl, -⟩ := breakAtLast_some_iff.1 hd
      split <;> simp
    · obtain ⟨e, he⟩ := cutAt_head (t := b) hc.2.2
      rw [he]; simp
  have h4 : urlparse (c :: t) = ⟨[], [], (splitParams (c :: b)).1, (splitParams (c :: b)).2, (cutAt '?' (c :: a)).2, (cutAt '#' (c :: t)).2⟩ := by
    unfold urlparse
    rw [h1]
    dsimp only
    rw [h2]
    dsimp only
    rw [ha, hb, if_pos (by decide)]
  exact (C10.C10_normalize_url path2url abspath hp hw).2.1 (by rw [h4]) (by rw [h4]) (by rw [h4]; exact h3)

theorem encoded_ascii : ∀ n : Fin 128, Char.ofNat n.val ≠ '/' → quotedChar (Char.ofNat n.val) =
    (if Unreserved (Char.ofNat n.val) then [Char.ofNat n.val]
     else (String.utf8EncodeChar (Char.ofNat n.val)).flatMap fun b => ['%', hexUpper (b.toNat / 16), hexUpper (b.toNat % 16)]) := by
  decide +kernel

theorem high_byte (b : UInt8) : 128 ≤ b.toNat → quoteByte b = ['%', hexUpper (b.toNat / 16), hexUpper (b.toNat % 16)] := by
  refine byte_all (P := fun b => 128 ≤ b.toNat → quoteByte b = ['%', hexUpper (b.toNat / 16), hexUpper (b.toNat % 16)]) ?_ b
  decide +kernel

theorem quoted_encoded {s : Str} (h : '/' ∉ s) : quoted s = encoded s := by
  rw [quoted_flat]
  unfold encoded
  induction s with
  | nil => rfl
  | cons c s ih =>
    rw [List.flatMap_cons, List.flatMap_cons, ih fun e => h (List.mem_cons_of_mem _ e)]
    congr 1
    have hc : c ≠ '/' := fun e => h (by simp [e])
    by_cases ha : c.toNat < 128
    · have := encoded_ascii ⟨c.toNat, ha⟩
      simp only [Char.ofNat_toNat] at this
      exact this hc
    · rw [if_neg fun hu => ha (safe_ascii (.inl hu))]
      unfold quotedChar
      have := utf8EncodeChar_nonascii ha
      generalize String.utf8EncodeChar c = l at this ⊢
      induction l with
      | nil => rfl
      | cons b l ihl =>
        rw [List.flatMap_cons, List.flatMap_cons, high_byte b (this b (by simp)), ihl fun x hx => this x (List.mem_cons_of_mem _ hx)]

/-- **C100.** The file opened for a path: its names are those of the file that is meant, written as in a URL. -/
theorem C100_opened (ht : Tidy isfile) {cwd : List Str} (hc : Names cwd) {p : Str} (hp : Typed p) {d : List Str} {name : Str}
    (hm : Means cwd p (d ++ [name])) (hn : Document name) (hf : ∀ f, d.getLast? = some f → ¬ Document f) :
    opened (path cwd) isfile p = .ok (some (path ((d ++ [name]).map encoded))) := by
  obtain ⟨ha, hr⟩ := abspath_means hc hm hp.slashes
  have hs := segs_names hr
  have he : (d ++ [name]).map encoded = d.map quoted ++ [quoted name] := by
    rw [show d.map quoted ++ [quoted name] = (d ++ [name]).map quoted by simp]
    exact List.map_congr_left fun s hs' => (quoted_encoded (hs s hs').2).symm
  have hq : path (d.map quoted ++ [quoted name]) = quoted (path (d ++ [name])) := by rw [quoted_path]; simp
  have hp0 : p ≠ [] := by
    obtain ⟨steps, -, ⟨rfl, -⟩ | ⟨-, h, -⟩⟩ := hm
    · simp
    · exact h
  rw [he]
  refine opened_url ht ?_ (quoted_document.2 hn) ?_ ?_ ?_
  · have := segs_quoted hs
    rwa [List.map_append] at this
  · intro f hf' hd
    rw [List.getLast?_map] at hf'
    cases hg : d.getLast? with
    | none => rw [hg] at hf'; cases hf'
    | some g =>
      rw [hg] at hf'
      cases hf'
      exact hf g hg (quoted_document.1 hd)
  · intro c hc' hb
    rw [hq] at hc'
    rcases mem_quoted hc' with h | h
    · have : ∀ c ∈ [':', '?', '#'], ¬ Safe c := by decide
      exact this c hb h.2
    · have : ∀ c ∈ [':', '?', '#'], c ∉ escapes := by decide
      exact this c hb h
  · rw [typed_url hp hp0, ha, hq]
    rfl

/-- **C100.** The file opened for a path is the file that is meant if and only if all characters of the names on the way to it are
unreserved. -/
theorem C100_right (ht : Tidy isfile) {cwd : List Str} (hc : Names cwd) {p : Str} (hp : Typed p) {d : List Str} {name : Str}
    (hm : Means cwd p (d ++ [name])) (hn : Document name) (hf : ∀ f, d.getLast? = some f → ¬ Document f) :
    opened (path cwd) isfile p = .ok (some (path (d ++ [name]))) ↔ ∀ s ∈ d ++ [name], ∀ c ∈ s, Unreserved c := by
  obtain ⟨-, hr⟩ := abspath_means hc hm hp.slashes
  have hs := segs_names hr
  have he : (d ++ [name]).map encoded = (d ++ [name]).map quoted := List.map_congr_left fun s hs' => (quoted_encoded (hs s hs').2).symm
  rw [C100_opened ht hc hp hm hn hf, he, ← quoted_path]
  constructor
  · intro h s hs' c hc'
    have h := quoted_iff.1 (Option.some.inj (Except.ok.inj h)) c
    have hmem : c ∈ path (d ++ [name]) := by
      unfold path
      refine List.mem_cons_of_mem _ ?_
      clear * - hs' hc'
      generalize d ++ [name] = l at hs'
      induction l with
      | nil => cases hs'
      | cons x l ih =>
        by_cases hl : l = []
        · subst hl
          rw [List.mem_singleton] at hs'
          subst hs'
          exact hc'
        · rw [Proofs.LocalFile.joined_cons hl]
          rcases List.mem_cons.1 hs' with rfl | h
          · simp [hc']
          · simp [ih h]
    rcases h hmem with h | h
    · exact h
    · subst h
      exact absurd hc' (hs s hs').2
  · intro h
    have : quoted (path (d ++ [name])) = path (d ++ [name]) := by
      rw [quoted_path]
      congr 1
      refine (List.map_congr_left fun s hs' => ?_).trans (List.map_id _)
      exact quoted_safe fun c hc' => .inl (h s hs' c hc')
    rw [this]

/-- a fragment makes no difference to the file opened -/
theorem opened_frag {r : List Str} (h : Segs r) (hc : ∀ c ∈ path r, c ∉ [':', '?', '#']) (cwd : Str) (frag : Option Str) :
    opened cwd isfile (C10.withFrag (c!"file://" ++ path r) frag) = opened cwd isfile (c!"file://" ++ path r) := by
  have h1 : '?' ∉ path r := fun e => hc _ e (by simp)
  have h2 : '#' ∉ path r := fun e => hc _ e (by simp)
  have hk := canon h h1 h2
  have hj : ∀ f, jr_split path2url (abspath cwd) (C10.withFrag (c!"file://" ++ path r) (some f)) = .ok (c!"file://" ++ path r, '#' :: f) := by
    intro f
    have := C10.C10_split path2url (abspath cwd) hk rfl f
    rwa [unparse h h1 h2] at this
  have hn : ∀ f, normalize_url path2url (abspath cwd) (C10.withFrag (c!"file://" ++ path r) (some f)) =
      .ok (C10.withFrag (c!"file://" ++ path r) (some f)) := by
    intro f
    obtain ⟨t, e⟩ : ∃ t, C10.withFrag (c!"file://" ++ path r) (some f) = c!"file://" ++ t := by
      unfold C10.withFrag
      split
      · exact ⟨_, rfl⟩
      · exact ⟨_, List.append_assoc ..⟩
    rw [e]
    refine (C10.C10_normalize_url path2url (abspath cwd) (by simp) rfl).1 ?_
    have : splitScheme (c!"file://" ++ t) = (c!"file", c!"//" ++ t) := rfl
    unfold urlparse
    rw [this]
    simp
  have h0 : C10.withFrag (c!"file://" ++ path r) (some []) = c!"file://" ++ path r := by simp [C10.withFrag]
  cases frag with
  | none => rfl
  | some f =>
    have hj0 := hj []
    have hn0 := hn []
    rw [h0] at hj0 hn0
    unfold opened
    rw [hn f, hn0]
    dsimp only
    rw [hj f, hj0]

/-- **C100.** For a URL the file opened is the one whose path is written in it, character for character: nothing is decoded.
A fragment makes no difference. -/
theorem C100_url (ht : Tidy isfile) (cwd : Str) {d : List Str} {name : Str} (hr : Names (d ++ [name])) (hn : Document name)
    (hf : ∀ f, d.getLast? = some f → ¬ Document f) (hc : ∀ s ∈ d ++ [name], ∀ c ∈ s, c ∉ [':', '?', '#'])
    (frag : Option Str) : opened cwd isfile (C10.withFrag (c!"file://" ++ path (d ++ [name])) frag) = .ok (some (path (d ++ [name]))) := by
  have hs := segs_names hr
  have hc' : ∀ c ∈ path (d ++ [name]), c ∉ [':', '?', '#'] := by
    intro c h
    rcases List.mem_cons.1 h with rfl | h
    · decide
    · rcases Proofs.LocalFile.mem_joined h with ⟨s, h1, h2⟩ | rfl
      · exact hc s h1 c h2
      · decide
  rw [opened_frag hs hc']
  refine opened_url ht hs hn hf hc' ?_
  have h1 : '?' ∉ path (d ++ [name]) := fun e => hc' _ e (by simp)
  have h2 : '#' ∉ path (d ++ [name]) := fun e => hc' _ e (by simp)
  refine (C10.C10_normalize_url path2url (abspath cwd) (by simp) rfl).1 ?_
  rw [← unparse hs h1 h2, urlparse_urlunparse (canon hs h1 h2)]
  simp

/-- **C100.** Paths of different files never open the same file. -/
theorem C100_distinct (ht : Tidy isfile) {cwd : List Str} (hc : Names cwd) {p p' : Str} (hp : Typed p) (hp' : Typed p') {d d' : List Str}
    {name name' : Str} (hm : Means cwd p (d ++ [name])) (hm' : Means cwd p' (d' ++ [name'])) (hn : Document name) (hn' : Document name')
    (hf : ∀ f, d.getLast? = some f → ¬ Document f) (hf' : ∀ f, d'.getLast? = some f → ¬ Document f)
    (h : opened (path cwd) isfile p = opened (path cwd) isfile p') : d ++ [name] = d' ++ [name'] := by
  have hs := segs_names (abspath_means hc hm hp.slashes).2
  have hs' := segs_names (abspath_means hc hm' hp'.slashes).2
  rw [C100_opened ht hc hp hm hn hf, C100_opened ht hc hp' hm' hn' hf'] at h
  have he : ∀ {l : List Str}, Segs l → l.map encoded = l.map quoted :=
    fun hl => List.map_congr_left fun s hs' => (quoted_encoded (hl s hs').2).symm
  rw [he hs, he hs'] at h
  have := path_inj (segs_quoted hs) (segs_quoted hs') (Option.some.inj (Except.ok.inj h))
  exact (List.map_inj_right fun _ _ => quoted_inj).1 this

/-- the URL of a path of unreserved characters -/
theorem plain_url {cwd : List Str} (hc : Names cwd) {p : Str} (hp : Typed p) {r : List Str} (hm : Means cwd p r)
    (hr : ∀ s ∈ r, ∀ c ∈ s, Unreserved c) : Segs r ∧ (∀ c ∈ path r, c ∉ [':', '?', '#']) ∧
      normalize_url path2url (abspath (path cwd)) p = .ok (c!"file://" ++ path r) := by
  obtain ⟨ha, hnames⟩ := abspath_means hc hm hp.slashes
  have hp0 : p ≠ [] := by
    obtain ⟨steps, -, ⟨rfl, -⟩ | ⟨-, h, -⟩⟩ := hm
    · simp
    · exact h
  have hsafe : ∀ c ∈ path r, Safe c := by
    intro c h
    rcases List.mem_cons.1 h with rfl | h
    · exact .inr rfl
    · rcases mem_joined h with ⟨s, h1, h2⟩ | rfl
      · exact .inl (hr s h1 c h2)
      · exact .inr rfl
  refine ⟨segs_names hnames, ?_, ?_⟩
  · intro c h hb
    have : ∀ c ∈ [':', '?', '#'], ¬ Safe c := by decide
    exact this c hb (hsafe c h)
  · rw [typed_url hp hp0, ha]
    change Except.ok (c!"file://" ++ quoted (path r)) = Except.ok (c!"file://" ++ path r)
    rw [quoted_safe hsafe]

/-- **C100.** The path of a folder: the first of the four names under which there is a file is opened. -/
theorem C100_folder {cwd : List Str} (hc : Names cwd) {p : Str} (hp : Typed p) {r : List Str} (hm : Means cwd p r)
    (hf : ∀ f, r.getLast? = some f → ¬ Document f) (hr : ∀ s ∈ r, ∀ c ∈ s, Unreserved c) {before after : List Str} {n : Str}
    (hn : [c!"resource_list.json", c!"swagger.json", c!"swagger.yaml", c!"swagger.yml"] = before ++ n :: after)
    (hb : ∀ m ∈ before, isfile (path (r ++ [m])) = false) (hi : isfile (path (r ++ [n])) = true) :
    opened (path cwd) isfile p = .ok (some (path (r ++ [n]))) := by
  obtain ⟨hs, hchars, hurl⟩ := plain_url hc hp hm hr
  have hdoc : Document n ∧ '/' ∉ n := by
    have hmem : n ∈ [c!"resource_list.json", c!"swagger.json", c!"swagger.yaml", c!"swagger.yml"] := by rw [hn]; simp
    simp only [List.mem_cons, List.not_mem_nil, or_false] at hmem
    rcases hmem with rfl | rfl | rfl | rfl
    · exact ⟨⟨c!"resource_list", c!"json", rfl, by decide, 'r', by decide, by decide⟩, by decide⟩
    · exact ⟨⟨c!"swagger", c!"json", rfl, by decide, 's', by decide, by decide⟩, by decide⟩
    · exact ⟨⟨c!"swagger", c!"yaml", rfl, by decide, 's', by decide, by decide⟩, by decide⟩
    · exact ⟨⟨c!"swagger", c!"yml", rfl, by decide, 's', by decide, by decide⟩, by decide⟩
  rw [opened_by hs hchars hurl (getter_folder hs hf (fun e => hchars _ e (by simp)) hn hb hi), patched_base hs hdoc.2 hf hdoc.1]

/-- a folder, given with a slash at the end, holding a YAML document -/
example : opened c!"/home" (fun f => f ∈ [c!"/home/api/swagger.yaml", c!"/home/api/swagger.yml"]) c!"api/" = .ok (some c!"/home/api/swagger.yaml") := by
  refine C100_folder (cwd := [c!"home"]) (by unfold Names; decide) ⟨by decide, by decide, by decide⟩ (r := [c!"home", c!"api"])
    ⟨[c!"api", []], by decide, .inr ⟨rfl, by decide, by decide, ?_⟩⟩ ?_ (by decide)
    (before := [c!"resource_list.json", c!"swagger.json"]) (n := c!"swagger.yaml") (after := [c!"swagger.yml"]) rfl (by decide) (by decide)
  · exact .down (by decide) (by decide) (by decide) (.stay (.inl rfl) (.done _))
  · rintro f hf ⟨stem, e, h, he, -⟩
    cases hf
    have : '.' ∈ c!"api" := by rw [show c!"api" = stem ++ '.' :: e from h]; simp
    revert this; decide

/-- **C100.** The path of a document without its extension: the first of the three extensions under which there is a file is opened,
unless the name is that of a folder with a document. -/
theorem C100_bare {cwd : List Str} (hc : Names cwd) {p : Str} (hp : Typed p) {d : List Str} {f : Str} (hm : Means cwd p (d ++ [f]))
    (hd : ∀ x ∈ [c!"json", c!"yaml", c!"yml"], ¬ x <:+ f) (hdot : ∃ c ∈ f, c ≠ '.') (hr : ∀ s ∈ d ++ [f], ∀ c ∈ s, Unreserved c)
    (hw : ∀ m ∈ [c!"resource_list.json", c!"swagger.json", c!"swagger.yaml", c!"swagger.yml"], isfile (path (d ++ [f, m])) = false)
    {before after : List Str} {e : Str} (he : [c!"json", c!"yaml", c!"yml"] = before ++ e :: after)
    (hb : ∀ m ∈ before, isfile (path (d ++ [f ++ '.' :: m])) = false) (hi : isfile (path (d ++ [f ++ '.' :: e])) = true) :
    opened (path cwd) isfile p = .ok (some (path (d ++ [f ++ '.' :: e]))) := by
  obtain ⟨hs, hchars, hurl⟩ := plain_url hc hp hm hr
  obtain ⟨-, hf1⟩ := hs f (by simp)
  have hmem : e ∈ [c!"json", c!"yaml", c!"yml"] := by rw [he]; simp
  have hf : ∀ g, (d ++ [f]).getLast? = some g → ¬ Document g := by
    rintro g hg ⟨stem, x, rfl, hx, -⟩
    rw [List.getLast?_concat] at hg
    cases hg
    exact hd x hx ⟨stem ++ ['.'], by simp⟩
  have hdoc : Document (f ++ '.' :: e) := ⟨f, e, rfl, hmem, hdot⟩
  have hsl : '/' ∉ f ++ '.' :: e := by
    have : ∀ e ∈ [c!"json", c!"yaml", c!"yml"], '/' ∉ e := by decide
    simp [hf1, this e hmem]
  rw [opened_by hs hchars hurl (getter_bare hs hd (fun e => hchars _ e (by simp)) hw he hb hi), patched_base hs hsl hf hdoc]

/-- a name with a dot, without extension, for which there are two documents -/
example : opened c!"/home" (fun f => f ∈ [c!"/home/api/my.v1.yml", c!"/home/api/my.v1.yaml"]) c!"api/my.v1" = .ok (some c!"/home/api/my.v1.yaml") := by
  refine C100_bare (cwd := [c!"home"]) (by unfold Names; decide) ⟨by decide, by decide, by decide⟩ (d := [c!"home", c!"api"]) (f := c!"my.v1")
    ⟨[c!"api", c!"my.v1"], by decide, .inr ⟨rfl, by decide, by decide, ?_⟩⟩ (by decide) ⟨'m', by decide, by decide⟩ (by decide) (by decide)
    (before := [c!"json"]) (e := c!"yaml") (after := [c!"yml"]) rfl (by decide) (by decide)
  exact .down (by decide) (by decide) (by decide) (.down (by decide) (by decide) (by decide) (.done _))

/-! ## where it goes wrong -/

/-- **C100.** A blank is enough: for `/my api.json` the file `/my%20api.json` is opened, which may well be there, too. -/
theorem C100_blank_false : Typed c!"/my api.json" ∧ Means [] c!"/my api.json" [c!"my api.json"] ∧
    opened c!"/" (fun f => f ∈ [c!"/my api.json", c!"/my%20api.json"]) c!"/my api.json" = .ok (some c!"/my%20api.json") := by
  refine ⟨⟨by decide, by decide, by decide⟩, ⟨[c!"my api.json"], by decide, .inl ⟨rfl, by simp, ?_⟩⟩, by decide +kernel⟩
  exact .down (by decide) (by decide) (by decide) (.done _)

/-- **C100.** The URL of the same file does not help: the escape is not read, and the other file is opened again. -/
theorem C100_escape_false : c!"file://" ++ path ([c!"my api.json"].map encoded) = c!"file:///my%20api.json" ∧
    opened c!"/" (fun f => f ∈ [c!"/my api.json", c!"/my%20api.json"]) c!"file:///my%20api.json" = .ok (some c!"/my%20api.json") := by
  decide +kernel

/-- **C100.** Folders named like documents have to be excluded: an extension is added to the names of the files in them. -/
theorem C100_folder_false : Means [] c!"/v1.json/api.yaml" [c!"v1.json", c!"api.yaml"] ∧
    opened c!"/" (fun f => f = c!"/v1.json/api.yaml") c!"/v1.json/api.yaml" = .ok (some c!"/v1.json/api.yaml.json") := by
  refine ⟨⟨[c!"v1.json", c!"api.yaml"], by decide, .inl ⟨rfl, by simp, ?_⟩⟩, by decide +kernel⟩
  exact .down (by decide) (by decide) (by decide) (.down (by decide) (by decide) (by decide) (.done _))

/-- **C100.** A colon makes a scheme of what is before it: the file is not opened, the name is taken for a URL. -/
theorem C100_colon_false : Means [] c!"v1:api.json" [c!"v1:api.json"] ∧
    opened c!"/" (fun f => f = c!"/v1:api.json") c!"v1:api.json" = .ok none := by
  refine ⟨⟨[c!"v1:api.json"], by decide, .inr ⟨rfl, by decide, by decide, ?_⟩⟩, by decide +kernel⟩
  exact .down (by decide) (by decide) (by decide) (.done _)

/-- a relative path, with steps up and dots -/
example (ht : Tidy isfile) : opened c!"/home/me" isfile c!"../specs/./v1/swagger.json" = .ok (some c!"/home/specs/v1/swagger.json") := by
  have hm : Means [c!"home", c!"me"] c!"../specs/./v1/swagger.json" ([c!"home", c!"specs", c!"v1"] ++ [c!"swagger.json"]) := by
    refine ⟨[c!"..", c!"specs", c!".", c!"v1", c!"swagger.json"], by decide, .inr ⟨rfl, by decide, by decide, ?_⟩⟩
    exact .up (.down (by decide) (by decide) (by decide) (.stay (.inr rfl) (.down (by decide) (by decide) (by decide)
      (.down (by decide) (by decide) (by decide) (.done _)))))
  refine (C100_right ht (cwd := [c!"home", c!"me"]) (by unfold Names; decide) ⟨by decide, by decide, by decide⟩ hm
    ⟨c!"swagger", c!"json", rfl, by decide, 's', by decide, by decide⟩ ?_).2 (by decide)
  rintro f hf ⟨stem, e, h, he, -⟩
  cases hf
  have : '.' ∈ c!"v1" := by rw [show c!"v1" = stem ++ '.' :: e from h]; simp
  revert this; decide

/-- a URL with a blank -/
example (ht : Tidy isfile) (cwd : Str) : opened cwd isfile c!"file:///my api.json" = .ok (some c!"/my api.json") :=
  C100_url ht cwd (d := []) (name := c!"my api.json") (by unfold Names; decide)
    ⟨c!"my api", c!"json", rfl, by decide, 'm', by decide, by decide⟩ (by simp) (by decide) none

/-- there are tidy file systems -/
example : Tidy (fun f => f = c!"/my api.json") := by
  intro d name n hn
  simp only [decide_eq_false_iff_not]
  intro e
  have h := congrArg (List.count '/') e
  have hp : ∀ l : List Str, l.length ≤ (path l).count '/' ∨ l = [] := by
    intro l
    induction l with
    | nil => exact .inr rfl
    | cons x l ih =>
      left
      unfold path at ih ⊢
      by_cases hl : l = []
      · subst hl; simp [join]
      · rw [Proofs.LocalFile.joined_cons hl]
        rcases ih with ih | ih
        · simp only [List.count_cons_self, List.count_append, List.length_cons] at ih ⊢
          omega
        · exact absurd ih hl
  rcases hp (d ++ [name, n]) with h' | h'
  · rw [h] at h'
    have : (c!"/my api.json").count '/' = 1 := by decide
    rw [this] at h'
    simp at h'
  · simp at h'

/-! ## references between files -/

/-- steps of a path, as the segments of a URL are read -/
theorem leads_derel {d steps r : List Str} (h : Leads d steps r) (hs : ∀ s ∈ steps, s = c!"." ∨ s = c!".." ∨ ∃ c ∈ s, c ≠ '.') :
    steps.foldl derelStep d = r := by
  induction h with
  | done => rfl
  | @stay d s ss r h _ ih =>
    have : s = c!"." := by
      rcases h with rfl | h
      · rcases hs [] (by simp) with h | h | ⟨c, h, -⟩
        · exact absurd h (by decide)
        · exact absurd h (by decide)
        · cases h
      · exact h
    subst this
    exact ih fun s hs' => hs s (List.mem_cons_of_mem _ hs')
  | up _ ih => exact ih fun s hs' => hs s (List.mem_cons_of_mem _ hs')
  | @down d s ss r _ h1 h2 _ ih =>
    rw [List.foldl_cons]
    have : derelStep d s = d ++ [s] := by
      have h3 : fullmatchDots s = false := by
        rcases hs s (by simp) with h | h | ⟨c, h, h'⟩
        · exact absurd h h1
        · exact absurd h h2
        · unfold fullmatchDots
          rw [Bool.and_eq_false_iff]
          right
          rw [List.all_eq_false]
          exact ⟨c, h, by simpa using h'⟩
      unfold derelStep
      rw [if_neg h1, if_neg h2, h3]
      rfl
    rw [this]
    exact ih fun s hs' => hs s (List.mem_cons_of_mem _ hs')

theorem names_leads : ∀ {d : List Str}, Names d → Leads [] d d := by
  have : ∀ {d e : List Str}, Names d → Leads e d (e ++ d) := by
    intro d
    induction d with
    | nil => intro e _; simpa using Leads.done e
    | cons s d ih =>
      intro e h
      obtain ⟨h1, h2, h3, -⟩ := h s (by simp)
      have := ih (e := e ++ [s]) fun x hx => h x (List.mem_cons_of_mem _ hx)
      exact .down h1 h2 h3 (by simpa using this)
  intro d h
  simpa using this (e := []) h

theorem no_slashes {r : List Str} (h : Segs r) : ¬ c!"//" <:+: path r := by
  rintro ⟨a, b, e⟩
  have hs : splitChar '/' (path r) = [] :: splitChar '/' (join ['/'] r) := splitChar_cons_self '/' _
  have e' : a ++ '/' :: ([] ++ '/' :: b) = path r := by rw [← e]; simp
  rw [← e', splitChar_append_sep, splitChar_append_sep, splitChar_of_not_mem (s := []) (by simp)] at hs
  obtain ⟨x, l, hx⟩ : ∃ x l, splitChar '/' a = x :: l := by
    cases h' : splitChar '/' a with
    | nil => exact absurd h' (splitChar_ne_nil _ _)
    | cons x l => exact ⟨x, l, rfl⟩
  rw [hx] at hs
  injection hs with _ hs
  have hm : [] ∈ splitChar '/' (join ['/'] r) := by rw [← hs]; simp
  by_cases hr : r = []
  · subst hr
    have : a ++ '/' :: ([] ++ '/' :: b) = ['/'] := e'
    have := congrArg List.length this
    simp at this
    omega
  · rw [splitChar_join hr fun s hs => (h s hs).2] at hm
    exact (h _ hm).1 rfl

theorem no_scheme {p : Str} (h : ':' ∉ p) : (urlparse p).scheme = [] := by
  have h1 : splitScheme p = ([], p) := by
    unfold splitScheme
    rw [breakAt_none_iff.2 h]
  unfold urlparse
  rw [h1]

theorem join_append {l m : List Str} (hl : l ≠ []) (hm : m ≠ []) : join ['/'] (l ++ m) = join ['/'] l ++ '/' :: join ['/'] m := by
  induction l with
  | nil => exact absurd rfl hl
  | cons x l ih =>
    by_cases h : l = []
    · subst h
      rw [List.singleton_append, joined_cons hm]
      simp [join]
    · rw [List.cons_append, joined_cons (by simp [h]), joined_cons h, ih h]
      simp

/-- **C100.** References between files: a relative reference in a document of the folder `d` stands for the file its steps lead to, and
that file is opened, whatever the folder the program runs in. -/
theorem C100_reference (ht : Tidy isfile) (cwd : Str) {d : List Str} {name : Str} (hd : d ≠ []) (hr : Names (d ++ [name]))
    {steps d' : List Str} {name' : Str} (hs : steps ≠ []) (hslash : ∀ s ∈ steps, '/' ∉ s) (hl : Leads d steps (d' ++ [name']))
    (hdots : ∀ s ∈ d ++ steps, s = c!"." ∨ s = c!".." ∨ ∃ c ∈ s, c ≠ '.')
    (hc : ∀ s ∈ d ++ name :: steps, ∀ c ∈ s, c ∉ [':', '?', '#', ';']) (hn : Document name')
    (hf : ∀ f, d'.getLast? = some f → ¬ Document f) (frag : Option Str) :
    normalize_jr (some (C10.ref (join ['/'] steps) frag)) (some (c!"file://" ++ path (d ++ [name]))) =
      .ok (some (C10.withFrag (c!"file://" ++ path (d' ++ [name'])) frag)) ∧
    opened cwd isfile (C10.withFrag (c!"file://" ++ path (d' ++ [name'])) frag) = .ok (some (path (d' ++ [name']))) := by
  have hsegs := segs_names hr
  have hds : Segs (d ++ steps) := by
    intro s h
    refine ⟨?_, ?_⟩
    · rintro rfl
      rcases hdots [] h with h | h | ⟨c, h, -⟩
      · exact absurd h (by decide)
      · exact absurd h (by decide)
      · cases h
    · rcases List.mem_append.1 h with h | h
      · exact (hsegs s (by simp [h])).2
      · exact hslash s h
  have hpd : path (d ++ [name]) = '/' :: (join ['/'] d ++ '/' :: name) := by
    rw [path_snoc, if_neg hd]; rfl
  have hps : path (d ++ steps) = '/' :: (join ['/'] d ++ '/' :: join ['/'] steps) := by
    unfold path
    rw [join_append hd hs]
  have hchar : ∀ c ∈ [':', '?', '#', ';'], c ∉ join ['/'] d ∧ c ∉ name ∧ c ∉ join ['/'] steps := by
    intro c h
    have hne : c ≠ '/' := by rintro rfl; exact absurd h (by decide)
    refine ⟨fun e => ?_, fun e => hc name (by simp) c e h, fun e => ?_⟩
    · rcases Proofs.LocalFile.mem_joined e with ⟨s, h1, h2⟩ | e
      · exact hc s (by simp [h1]) c h2 h
      · exact hne e
    · rcases Proofs.LocalFile.mem_joined e with ⟨s, h1, h2⟩ | e
      · exact hc s (by simp [h1]) c h2 h
      · exact hne e
  have hq := hchar '?' (by simp)
  have hh := hchar '#' (by simp)
  have hcol := hchar ':' (by simp)
  have hsemi := hchar ';' (by simp)
  have hcanon : Canon ⟨c!"file", [], path (d ++ [name]), [], [], []⟩ := by
    refine canon hsegs ?_ ?_ <;> rw [hpd] <;> simp [hq, hh]
  rw [hpd] at hcanon
  have hfolder : ∃ t x, join ['/'] d = t ++ [x] ∧ x ≠ '/' := by
    have h0 : join ['/'] d ≠ [] := by
      intro e
      have := hsegs
      have hx := splitChar_join (c := '/') hd fun s h => (hds s (by simp [h])).2
      rw [e, splitChar_of_not_mem (by simp)] at hx
      exact (hds [] (by simp [← hx])).1 rfl
    refine ⟨_, _, (List.dropLast_concat_getLast h0).symm, fun e => ?_⟩
    refine last_path (d := d) (fun s h => hds s (by simp [h])) hd ?_
    unfold path
    rw [List.getLast?_cons, List.getLast?_eq_some_getLast h0, e]
    rfl
  have hp : join ['/'] steps ≠ [] := by
    intro e
    have hx := splitChar_join (c := '/') hs hslash
    rw [e, splitChar_of_not_mem (by simp)] at hx
    exact (hds [] (by simp [← hx])).1 rfl
  obtain ⟨segs, h1, h2⟩ := C10.C10_relative (path := join ['/'] steps) frag hcanon hfolder hsemi.1 (hsegs name (by simp)).2 hp hh.2.2 hq.2.2
    hsemi.2.2 (no_scheme hcol.2.2) (fun _ => by rw [← hps]; exact no_slashes hds)
  have hnames : Names d := fun s h => hr s (by simp [h])
  rw [simplified_iff, splitChar_join hd fun s h => (hds s (by simp [h])).2, splitChar_join hs hslash, List.foldl_append,
    leads_derel (names_leads hnames) fun s h => hdots s (by simp [h]), leads_derel hl fun s h => hdots s (by simp [h])] at h1
  subst h1
  refine ⟨?_, ?_⟩
  · rw [hpd]
    simpa [path] using h2
  · have hsub : ∀ {a b c : List Str}, Leads a b c → ∀ s ∈ c, s ∈ a ∨ s ∈ b ∧ s ≠ [] ∧ s ≠ c!"." ∧ s ≠ c!".." := by
      intro a b c h
      induction h with
      | done => exact fun s h => .inl h
      | stay _ _ ih => exact fun s h => (ih s h).imp id fun h => ⟨List.mem_cons_of_mem _ h.1, h.2⟩
      | up _ ih => exact fun s h => (ih s h).imp (fun h => (List.dropLast_sublist _).subset h) fun h => ⟨List.mem_cons_of_mem _ h.1, h.2⟩
      | down h1 h2 h3 _ ih =>
        intro s h
        rcases ih s h with h | h
        · rcases List.mem_append.1 h with h | h
          · exact .inl h
          · rw [List.mem_singleton] at h
            subst h
            exact .inr ⟨by simp, h1, h2, h3⟩
        · exact .inr ⟨List.mem_cons_of_mem _ h.1, h.2⟩
    refine C100_url ht cwd ?_ hn hf ?_ frag
    · intro s h
      rcases hsub hl s h with h | ⟨h, h1, h2, h3⟩
      · exact hnames s h
      · exact ⟨h1, h2, h3, hslash s h⟩
    · intro s h c hcs hm
      have hm' : c ∈ [':', '?', '#', ';'] := by simp at hm ⊢; tauto
      rcases hsub hl s h with h | ⟨h, -⟩
      · exact hc s (by simp [h]) c hcs hm'
      · exact hc s (by simp [h]) c hcs hm'

/-- **C100.** A name of three dots or more is read as a step up, in references only: the file of the folder `...` is not the one opened. -/
theorem C100_dots_false : Leads [c!"specs"] [c!"...", c!"pet.json"] [c!"specs", c!"...", c!"pet.json"] ∧
    normalize_jr (some c!".../pet.json") (some c!"file:///specs/swagger.json") = .ok (some c!"file:///pet.json") ∧
    opened c!"/" (fun f => f = c!"/specs/.../pet.json") c!"file:///pet.json" = .ok (some c!"/pet.json") := by
  refine ⟨.down (by decide) (by decide) (by decide) (.down (by decide) (by decide) (by decide) (.done _)), by decide +kernel, by decide +kernel⟩

/-- a reference to a file of another folder, with a fragment -/
example (ht : Tidy isfile) (cwd : Str) :
    normalize_jr (some c!"../common/models.yaml#/definitions/Pet") (some c!"file:///specs/v1/swagger.json") =
      .ok (some c!"file:///specs/common/models.yaml#/definitions/Pet") ∧
    opened cwd isfile c!"file:///specs/common/models.yaml#/definitions/Pet" = .ok (some c!"/specs/common/models.yaml") :=
  C100_reference ht cwd (d := [c!"specs", c!"v1"]) (name := c!"swagger.json") (steps := [c!"..", c!"common", c!"models.yaml"])
    (d' := [c!"specs", c!"common"]) (name' := c!"models.yaml") (by simp) (by unfold Names; decide) (by simp) (by decide)
    (.up (.down (by decide) (by decide) (by decide) (.down (by decide) (by decide) (by decide) (.done _)))) (by decide) (by decide)
    ⟨c!"models", c!"yaml", rfl, by decide, 'm', by decide, by decide⟩ (by
      rintro f hf ⟨stem, e, rfl, he, -⟩
      have : c!"common" = stem ++ '.' :: e := Option.some.inj hf
      have : '.' ∈ c!"common" := by rw [this]; simp
      exact absurd this (by decide)) (some c!"/definitions/Pet")

/-- **C100.** The documents at the root have to be excluded: the name of the file becomes the one of a host. -/
theorem C100_root_false : Leads [] [c!"pet.json"] [c!"pet.json"] ∧
    normalize_jr (some c!"pet.json") (some c!"file:///swagger.json") = .ok (some c!"file://pet.json/") ∧
    opened c!"/" (fun f => f = c!"/pet.json") c!"file://pet.json/" ≠ .ok (some c!"/pet.json") := by
  refine ⟨.down (by decide) (by decide) (by decide) (.done _), by decide +kernel, by decide +kernel⟩

/-- no characters with a meaning in URLs, no names of three or more dots -/
def Plain (l : List Str) : Prop := ∀ s ∈ l, (s = c!"." ∨ s = c!".." ∨ ∃ c ∈ s, c ≠ '.') ∧ ∀ c ∈ s, c ∉ [':', '?', '#', ';', '/']

/-- From a document in the folder `d`, the reference `steps :: …` leads to a document, from which the next one is followed, … -/
inductive Follows : (d : List Str) → (refs : List (List Str)) → (d' : List Str) → (name : Str) → Prop
  | one {d steps d' name} : steps ≠ [] → Plain steps → Leads d steps (d' ++ [name]) → Follows d [steps] d' name
  | more {d steps d₁ name₁ refs d' name} : steps ≠ [] → Plain steps → Leads d steps (d₁ ++ [name₁]) → Document name₁ →
      (∀ f, d₁.getLast? = some f → ¬ Document f) → d₁ ≠ [] → Follows d₁ refs d' name → Follows d (steps :: refs) d' name

/-- the URL of what a list of references leads to, each read in the document the one before it leads to -/
def follow : Str → List (List Str) → Except Exc Str
  | url, [] => .ok url
  | url, steps :: refs =>
    match normalize_jr (some (join ['/'] steps)) (some url) with
    | .ok (some u) => follow u refs
    | .ok none => .ok url
    | .error e => .error e

theorem leads_plain {d steps r : List Str} (h : Leads d steps r) (hd : Names d ∧ Plain d) (hs : Plain steps) : Names r ∧ Plain r := by
  induction h with
  | done => exact hd
  | stay _ _ ih => exact ih hd fun s h => hs s (List.mem_cons_of_mem _ h)
  | up _ ih =>
    exact ih ⟨fun s h => hd.1 s ((List.dropLast_sublist _).subset h), fun s h => hd.2 s ((List.dropLast_sublist _).subset h)⟩
      fun s h => hs s (List.mem_cons_of_mem _ h)
  | @down d s ss r h1 h2 h3 _ ih =>
    have hp := hs s (by simp)
    refine ih ⟨?_, ?_⟩ fun s h => hs s (List.mem_cons_of_mem _ h)
    · intro x hx
      rcases List.mem_append.1 hx with hx | hx
      · exact hd.1 x hx
      · rw [List.mem_singleton] at hx
        subst hx
        exact ⟨h1, h2, h3, fun e => hp.2 _ e (by simp)⟩
    · intro x hx
      rcases List.mem_append.1 hx with hx | hx
      · exact hd.2 x hx
      · rw [List.mem_singleton] at hx
        subst hx
        exact hp

/-- **C100.** Documents that refer to documents: however many relative references are followed, the file opened in the end is the one
they lead to. -/
theorem C100_references (ht : Tidy isfile) (cwd : Str) {d : List Str} {name : Str} (hd : d ≠ []) (hr : Names (d ++ [name]))
    (hp : Plain (d ++ [name])) {refs : List (List Str)} {d' : List Str} {name' : Str} (h : Follows d refs d' name')
    (hn : Document name') (hf : ∀ f, d'.getLast? = some f → ¬ Document f) :
    ∃ url, follow (c!"file://" ++ path (d ++ [name])) refs = .ok url ∧ opened cwd isfile url = .ok (some (path (d' ++ [name']))) := by
  have key : ∀ {d : List Str} {name : Str}, d ≠ [] → Names (d ++ [name]) → Plain (d ++ [name]) → ∀ {steps d' : List Str} {name' : Str},
      steps ≠ [] → Plain steps → Leads d steps (d' ++ [name']) → Document name' → (∀ f, d'.getLast? = some f → ¬ Document f) →
      normalize_jr (some (join ['/'] steps)) (some (c!"file://" ++ path (d ++ [name]))) = .ok (some (c!"file://" ++ path (d' ++ [name']))) ∧
      opened cwd isfile (c!"file://" ++ path (d' ++ [name'])) = .ok (some (path (d' ++ [name']))) := by
    intro d name hd hr hp steps d' name' hs hps hl hn hf
    have e1 : ∀ p, C10.ref p none = p := fun p => by simp [C10.ref]
    have e2 : ∀ u, C10.withFrag u none = u := fun u => by simp [C10.withFrag]
    have h0 := fun h1 h2 => C100_reference ht cwd hd hr hs (fun s h e => (hps s h).2 _ e (by simp)) hl h1 h2 hn hf none
    rw [e1, e2] at h0
    refine h0 ?_ ?_
    · intro s h
      rcases List.mem_append.1 h with h | h
      · exact (hp s (by simp [h])).1
      · exact (hps s h).1
    · intro s h c hc e
      have e' : c ∈ [':', '?', '#', ';', '/'] := by simp at e ⊢; tauto
      rcases List.mem_append.1 h with h | h
      · exact (hp s (by simp [h])).2 c hc e'
      · rcases List.mem_cons.1 h with h | h
        · exact (hp s (by simp [h])).2 c hc e'
        · exact (hps s h).2 c hc e'
  induction h generalizing name with
  | one hs hps hl =>
    obtain ⟨h1, h2⟩ := key hd hr hp hs hps hl hn hf
    refine ⟨_, ?_, h2⟩
    rw [follow, h1]
    rfl
  | more hs hps hl hn₁ hf₁ hd₁ _ ih =>
    obtain ⟨h1, -⟩ := key hd hr hp hs hps hl hn₁ hf₁
    obtain ⟨h3, h4⟩ := leads_plain hl ⟨fun s h => hr s (by simp [h]), fun s h => hp s (by simp [h])⟩ hps
    obtain ⟨url, h5, h6⟩ := ih hd₁ h3 h4 hn hf
    refine ⟨url, ?_, h6⟩
    rw [follow, h1]
    exact h5

/-- two references, one after another -/
example (ht : Tidy isfile) (cwd : Str) : ∃ url,
    follow c!"file:///specs/v1/swagger.json" [[c!"..", c!"common", c!"models.yaml"], [c!"types", c!"date.yml"]] = .ok url ∧
      opened cwd isfile url = .ok (some c!"/specs/common/types/date.yml") := by
  have hdoc : ∀ l : List Str, (∀ s ∈ l, '.' ∉ s) → ∀ f, l.getLast? = some f → ¬ Document f := by
    rintro l hl f hf ⟨stem, e, rfl, -⟩
    exact hl _ (List.mem_of_getLast? hf) (by simp)
  refine C100_references ht cwd (d := [c!"specs", c!"v1"]) (name := c!"swagger.json") (d' := [c!"specs", c!"common", c!"types"])
    (name' := c!"date.yml") (by simp) (by unfold Names; decide) (by unfold Plain; decide) ?_
    ⟨c!"date", c!"yml", rfl, by decide, 'd', by decide, by decide⟩ (hdoc _ (by decide))
  refine .more (d₁ := [c!"specs", c!"common"]) (name₁ := c!"models.yaml") (by simp) (by unfold Plain; decide) ?_
    ⟨c!"models", c!"yaml", rfl, by decide, 'm', by decide, by decide⟩ (hdoc _ (by decide)) (by simp) (.one (by simp) (by unfold Plain; decide) ?_)
  · exact .up (.down (by decide) (by decide) (by decide) (.down (by decide) (by decide) (by decide) (.done _)))
  · exact .down (by decide) (by decide) (by decide) (.down (by decide) (by decide) (by decide) (.done _))
end Props.C100
