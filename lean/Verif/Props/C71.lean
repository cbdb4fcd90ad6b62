import Verif.Model.Load12
import Verif.Model.Getter
import Verif.Proofs.Resolver
import Verif.Props.C12
/-!
# C71: every resource of a 1.2 resource list is loaded, from beside the list, in order

`Home` says which folder the resources are in. `outcome` is what one resource comes to, `collect` what
all of them do: the resources by name, or the first failure; `tried` are the ones asked for.
-/

namespace Props.C71
open Py Utils Resolver Load12 Spec.Resolver Props.C12

/-- The folder of a URL path: a file named `…json` or `…yaml` lies in it; any other path is the folder. -/
inductive Home : Str → Str → Prop
  | file (folder file : Str) : '/' ∉ file → c!"json" <:+ file ∨ c!"yaml" <:+ file →
      folder.getLast? ≠ some '/' → Home (folder ++ '/' :: file) folder
  | folder (p : Str) : ¬ c!"json" <:+ p → ¬ c!"yaml" <:+ p → p.getLast? ≠ some '/' → Home p p
  | slash (p : Str) : Home (p ++ ['/']) p

/-- a name that is a relative path of a URL and nothing else -/
structure Name (n : Str) : Prop where
  query : '?' ∉ n
  fragment : '#' ∉ n
  params : ';' ∉ n
  relative : n.head? ≠ some '/'

variable {ρ : Type} {path2url abspath : Str → Str} {world : Nat → Source → Except Exc Val} {c : Conf}
  {readRes : Val → Except Exc ρ}

theorem canon_path {scheme netloc upath p : Str} (hc : Canon ⟨scheme, netloc, upath, [], [], []⟩)
    (h1 : p = [] ∨ ∃ t, p = '/' :: t) (h2 : '?' ∉ p) (h3 : '#' ∉ p) (h4 : netloc = [] → ∀ t, p ≠ '/' :: '/' :: t)
    (h5 : ';' ∉ p) : Canon ⟨scheme, netloc, p, [], [], []⟩ where
  scheme_ne := hc.scheme_ne
  scheme_chars := hc.scheme_chars
  scheme_lower := hc.scheme_lower
  netloc_ok := hc.netloc_ok
  auth := hc.auth
  path_abs := h1
  path_query := h2
  path_frag := h3
  path_auth := h4
  path_rooted := fun h => absurd rfl h
  seg_params := fun _ hx => h5 (lastSeg_subset _ _ hx)
  params_scheme := fun _ => rfl
  params_slash := by simp
  params_query := by simp
  params_frag := by simp
  query_frag := by simp

theorem text_of {scheme netloc upath : Str} (hc : Canon ⟨scheme, netloc, upath, [], [], []⟩) :
    urlunparse ⟨scheme, netloc, upath, [], [], []⟩ = scheme ++ c!"://" ++ netloc ++ upath := by
  have h1 := urlunparse_canon hc
  simpa only [ne_eq, not_true_eq_false, if_false, List.append_nil] using h1

theorem parse_text {scheme netloc upath : Str} (hc : Canon ⟨scheme, netloc, upath, [], [], []⟩) :
    urlparse (scheme ++ c!"://" ++ netloc ++ upath) = ⟨scheme, netloc, upath, [], [], []⟩ := by
  rw [← text_of hc]; exact urlparse_urlunparse hc

/-- **C71, the URL.** A resource listed as `/name` is looked for in the folder of the list. -/
theorem C71_url {scheme netloc upath folder n : Str} (hc : Canon ⟨scheme, netloc, upath, [], [], []⟩)
    (hs : ';' ∉ upath) (hh : Home upath folder) (hn : Name n) :
    url_join (url_dirname (scheme ++ c!"://" ++ netloc ++ upath)) n = scheme ++ c!"://" ++ netloc ++ folder ++ '/' :: n := by
  have hstart : chopStart n = n := by simp [chopStart, hn.relative]
  have hj : ∀ {p : Str}, Canon ⟨scheme, netloc, p, [], [], []⟩ → url_join (scheme ++ c!"://" ++ netloc ++ p) n =
      scheme ++ c!"://" ++ netloc ++ seam p n := fun hp =>
    C12_join_text hp (.inr (.inr (by rw [hstart]; exact hn.relative)))
  have hp := parse_text hc
  cases hh with
  | slash =>
    have hne : ∀ e : Str, e.getLast? ≠ some '/' → e ≠ [] → ¬ e <:+ folder ++ ['/'] := by
      rintro e h1 h2 ⟨t, h3⟩
      apply h1
      have := congrArg List.getLast? h3
      obtain ⟨y, t', rfl⟩ : ∃ y t', e = t' ++ [y] := ⟨e.getLast h2, e.dropLast, (List.dropLast_concat_getLast h2).symm⟩
      rw [← List.append_assoc] at this
      simpa using this
    rw [C12_dirname_other (by rw [hp]; exact hne c!"json" (by decide) (by simp)) (by rw [hp]; exact hne c!"yaml" (by decide) (by simp)), hj hc]
    simp [seam, chopEnd, hstart]
  | folder p h1 h2 h3 =>
    rw [C12_dirname_other (by rw [hp]; exact h1) (by rw [hp]; exact h2), hj hc]
    simp [seam, chopEnd, hstart, h3]
  | file folder file h1 h2 h3 =>
    have hsub : ∀ x, x ∈ folder → x ∈ folder ++ '/' :: file := fun x hx => List.mem_append_left _ hx
    by_cases he : folder = []
    · subst he
      rw [C12_dirname_root_file (by rw [hp]; rfl) h1 h2, hp]
      have hc' : Canon ⟨scheme, netloc, ['/'], [], [], []⟩ :=
        canon_path hc (.inr ⟨[], rfl⟩) (by decide) (by decide) (by simp) (by decide)
      simp only [text_of hc']
      rw [hj hc']
      simp [seam, chopEnd, hstart]
    · obtain ⟨t, x, hx⟩ : ∃ t x, folder = t ++ [x] := ⟨folder.dropLast, folder.getLast he, (List.dropLast_concat_getLast he).symm⟩
      have hx' : x ≠ '/' := by rintro rfl; apply h3; rw [hx]; simp
      rw [C12_dirname_file (folder := folder) (file := file) (by rw [hp]) h1 h2 ⟨t, x, hx, hx'⟩, hp]
      have habs : ∃ t, folder = '/' :: t := by
        rcases hc.path_abs with h | ⟨t, h⟩
        · simp at h
        · simp only at h
          obtain ⟨y, f', rfl⟩ := List.exists_cons_of_ne_nil he
          simp only [List.cons_append, List.cons.injEq] at h
          exact ⟨f', by rw [h.1]⟩
      have hc' : Canon ⟨scheme, netloc, folder, [], [], []⟩ := by
        refine canon_path hc (.inr habs) (fun h => hc.path_query (hsub _ h)) (fun h => hc.path_frag (hsub _ h)) ?_ (fun h => hs (hsub _ h))
        rintro hn0 t ht
        exact hc.path_auth hn0 (t ++ '/' :: file) (by simp [ht])
      simp only [text_of hc']
      rw [hj hc']
      simp [seam, chopEnd, hstart, h3]

/-- the URL of a resource -/
def urlOf (site folder n : Str) : Str := site ++ folder ++ '/' :: n

theorem jr_split_text {scheme netloc p : Str} (hc : Canon ⟨scheme, netloc, p, [], [], []⟩) :
    jr_split path2url abspath (scheme ++ c!"://" ++ netloc ++ p) = .ok (scheme ++ c!"://" ++ netloc ++ p, c!"#") := by
  unfold jr_split
  have h1 := parse_text hc
  rw [h1]
  simp only [text_of hc]
  have hn : normalize_url path2url abspath (scheme ++ c!"://" ++ netloc ++ p) = .ok (scheme ++ c!"://" ++ netloc ++ p) := by
    unfold normalize_url
    have h2 : ¬ (scheme ++ c!"://" ++ netloc ++ p = []) := by simp
    have h3 : windowsPathPrefix (scheme ++ c!"://" ++ netloc ++ p) = false := by
      obtain ⟨x, t, rfl⟩ := List.exists_cons_of_ne_nil (show scheme ≠ [] from hc.scheme_ne)
      have hcol := colon_not_mem (show (x :: t).all isSchemeChar = true from hc.scheme_chars)
      cases t with
      | nil => simp [windowsPathPrefix]
      | cons y t =>
        have : y ≠ ':' := by rintro rfl; exact hcol (by simp)
        simp only [List.cons_append, windowsPathPrefix]
        split
        · next heq => simp only [List.cons.injEq] at heq; exact absurd heq.2.1 this
        · rfl
    rw [if_neg h2, h3, h1]
    simp only [Bool.false_eq_true, if_false]
    rw [if_neg hc.scheme_ne]
  rw [hn]
  simp

/-- a document that is there, read as a resource -/
def readDoc (readRes : Val → Except Exc ρ) (found : Except Exc Val) : Except Exc ρ :=
  match found with
  | .error e => .error e
  | .ok d => if truthy d then readRes d else .error .Exception

/-- The resources by name, or the first failure; `out i n` is what the `i`-th one comes to. -/
def collect (out : Nat → Str → Except Exc ρ) : Nat → List Str → Except Exc (List (Str × ρ))
  | _, [] => .ok []
  | i, n :: ns =>
    match out i n with
    | .error e => .error e
    | .ok r => (collect out (i + 1) ns).map ((n, r) :: ·)

/-- the resources up to the first failure -/
def tried (out : Nat → Str → Except Exc ρ) : Nat → List Str → List (Nat × Str)
  | _, [] => []
  | i, n :: ns =>
    match out i n with
    | .error _ => [(i, n)]
    | .ok _ => (i, n) :: tried out (i + 1) ns

/-- where the document of a URL is asked for -/
def sourceOf (c : Conf) (g : Option Getter) (url : Str) : Source :=
  source c g (match c.hook with
    | some f => f url
    | none => url)

theorem resolve_fresh {s : State} {url : Str} (hj : jr_split path2url abspath url = .ok (url, c!"#"))
    (hf : Dict.get? s.cache url = none) (g : Option Getter) :
    ∃ s', resolve path2url abspath world c s url g =
        ((match world s.log.length (sourceOf c g url) with
          | .error e => .error e
          | .ok d => if truthy d then .ok d else .error .Exception), s') ∧
      s'.log = s.log ++ [(url, sourceOf c g url, world s.log.length (sourceOf c g url))] ∧
      ∀ u, u ≠ url → Dict.get? s'.cache u = Dict.get? s.cache u := by
  have hj' : (jp_split (some c!"#")).tail = [] := by decide
  have ht : ¬ truthy ((Dict.get? s.cache url).getD .none) = true := by rw [hf]; simp [truthy]
  have hr : resolve path2url abspath world c s url g =
      match world s.log.length (sourceOf c g url) with
      | .error e => (.error e, { s with log := s.log ++ [(url, sourceOf c g url, world s.log.length (sourceOf c g url))] })
      | .ok obj => (finish obj c!"#", ⟨Dict.set s.cache url (if truthy obj then obj else .none),
          s.log ++ [(url, sourceOf c g url, world s.log.length (sourceOf c g url))]⟩) := by
    unfold resolve
    rw [hj]
    dsimp only
    rw [if_neg ht]
    rfl
  rw [hr]
  cases hw : world s.log.length (sourceOf c g url) with
  | error e => exact ⟨_, rfl, rfl, fun _ _ => rfl⟩
  | ok d =>
    refine ⟨⟨Dict.set s.cache url (if truthy d then d else .none), s.log ++ [(url, sourceOf c g url, .ok d)]⟩, ?_, rfl, fun u hu => ?_⟩
    · simp only [finish, hj', follow]
    · exact Dict.get?_set_ne _ _ hu

/-- what a resource comes to if it is the `i`-th document asked for -/
def outcome (world : Nat → Source → Except Exc Val) (c : Conf) (g : Option Getter) (readRes : Val → Except Exc ρ)
    (site folder : Str) (i : Nat) (n : Str) : Except Exc ρ :=
  readDoc readRes (world i (sourceOf c g (urlOf site folder n)))

theorem home_split {upath folder : Str} (h : Home upath folder) :
    (upath = folder ∧ folder.getLast? ≠ some '/') ∨ ∃ r, upath = folder ++ '/' :: r := by
  cases h with
  | file => exact .inr ⟨_, rfl⟩
  | folder _ _ _ h3 => exact .inl ⟨rfl, h3⟩
  | slash => exact .inr ⟨[], rfl⟩

theorem loadAll_eq {scheme netloc upath folder : Str} (hc : Canon ⟨scheme, netloc, upath, [], [], []⟩)
    (hs : ';' ∉ upath) (hh : Home upath folder) (g : Option Getter) : ∀ (ns : List Str) (_ : ∀ n ∈ ns, Name n)
    (_ : ns.Nodup) (s : State)
    (_ : ∀ n ∈ ns, Dict.get? s.cache (urlOf (scheme ++ c!"://" ++ netloc) folder n) = none) (d : Dict Str ρ)
    (_ : ∀ n ∈ ns, n ∉ Dict.keys d),
    ∃ s', loadAll path2url abspath world c readRes (url_dirname (scheme ++ c!"://" ++ netloc ++ upath)) g
        (ns.map fun n => .str ('/' :: n)) d s =
          ((collect (outcome world c g readRes (scheme ++ c!"://" ++ netloc) folder) s.log.length ns).map (d ++ ·), s') ∧
      s'.log = s.log ++ (tried (outcome world c g readRes (scheme ++ c!"://" ++ netloc) folder) s.log.length ns).map
        fun x => (urlOf (scheme ++ c!"://" ++ netloc) folder x.2,
          sourceOf c g (urlOf (scheme ++ c!"://" ++ netloc) folder x.2),
          world x.1 (sourceOf c g (urlOf (scheme ++ c!"://" ++ netloc) folder x.2)))
  | [], _, _, s, _, d, _ => ⟨s, by simp [loadAll, collect, Except.map], by simp [tried]⟩
  | n :: ns, hn, hd, s, hf, d, hk => by
    have hurl := C71_url hc hs hh (hn n (by simp))
    have hcn : Canon ⟨scheme, netloc, folder ++ '/' :: n, [], [], []⟩ := by
      have hsplit := home_split hh
      have hsub : ∀ x, x ∈ folder → x ∈ upath := by
        intro x hx
        rcases hsplit with ⟨h, -⟩ | ⟨r, h⟩
        · rw [h]; exact hx
        · rw [h]; exact List.mem_append_left _ hx
      have hno : ∀ x : Char, x ≠ '/' → x ∉ upath → x ∉ n → x ∉ folder ++ '/' :: n := by
        intro x h1 h2 h3 h4
        simp only [List.mem_append, List.mem_cons] at h4
        rcases h4 with h | h | h
        · exact h2 (hsub x h)
        · exact h1 h
        · exact h3 h
      have hname := hn n (by simp)
      refine canon_path hc ?_ (hno _ (by decide) hc.path_query hname.query)
        (hno _ (by decide) hc.path_frag hname.fragment) ?_ (hno _ (by decide) hs hname.params)
      · cases folder with
        | nil => exact .inr ⟨n, rfl⟩
        | cons x f =>
          refine .inr ⟨f ++ '/' :: n, ?_⟩
          have : x = '/' := by
            rcases hc.path_abs with h | ⟨t, h⟩ <;> simp only at h
            · rcases hsplit with ⟨h', -⟩ | ⟨r, h'⟩ <;> rw [h] at h' <;> cases h'
            · rcases hsplit with ⟨h', -⟩ | ⟨r, h'⟩ <;> rw [h] at h'
              · cases h'; rfl
              · simp only [List.cons_append, List.cons.injEq] at h'; exact h'.1.symm
          rw [this]; rfl
      · intro h0 t ht
        have := hc.path_auth h0
        cases folder with
        | nil =>
          simp only [List.nil_append, List.cons.injEq, true_and] at ht
          exact hname.relative (by rw [ht]; rfl)
        | cons x f =>
          cases f with
          | nil =>
            simp only [List.cons_append, List.nil_append, List.cons.injEq] at ht
            obtain ⟨rfl, -⟩ := ht
            rcases hsplit with ⟨-, h⟩ | ⟨r, h⟩
            · simp at h
            · exact this r h
          | cons y f =>
            simp only [List.cons_append, List.cons.injEq] at ht
            obtain ⟨rfl, rfl, -⟩ := ht
            rcases hsplit with ⟨h, -⟩ | ⟨r, h⟩
            · exact this f h
            · exact this _ h
    obtain ⟨s1, h1, h2, h3⟩ := resolve_fresh (path2url := path2url) (abspath := abspath) (world := world) (c := c)
      (s := s) (url := urlOf (scheme ++ c!"://" ++ netloc) folder n)
      (by have := jr_split_text (path2url := path2url) (abspath := abspath) hcn
          simpa [urlOf] using this) (hf n (by simp)) g
    have hd' := List.nodup_cons.1 hd
    rw [List.map_cons, loadAll]
    simp only [List.drop_succ_cons, List.drop_zero]
    rw [hurl]
    simp only [show scheme ++ c!"://" ++ netloc ++ folder ++ '/' :: n = urlOf (scheme ++ c!"://" ++ netloc) folder n from rfl]
    rw [h1]
    have hlen : s1.log.length = s.log.length + 1 := by rw [h2]; simp
    rw [collect, tried]
    generalize hsite : scheme ++ c!"://" ++ netloc = site at *
    have hout : outcome world c g readRes site folder s.log.length n =
        readDoc readRes (world s.log.length (sourceOf c g (urlOf site folder n))) := rfl
    cases hw : world s.log.length (sourceOf c g (urlOf site folder n)) with
    | error e =>
      rw [hw] at hout h2
      simp only [hout, readDoc]
      exact ⟨s1, rfl, by simp [h2, hw]⟩
    | ok doc =>
      rw [hw] at hout h2
      cases ht : truthy doc with
      | false =>
        simp only [hout, readDoc, ht, Bool.false_eq_true, if_false]
        exact ⟨s1, rfl, by simp [h2, hw]⟩
      | true =>
        simp only [readDoc, ht, if_true] at hout ⊢
        cases hr : readRes doc with
        | error e =>
          rw [hr] at hout
          simp only [hout]
          exact ⟨s1, rfl, by simp [h2, hw]⟩
        | ok r =>
          rw [hr] at hout
          simp only [hout]
          have hset : Dict.set d n r = d ++ [(n, r)] := Dict.set_of_not_mem r (hk n (by simp))
          obtain ⟨s2, i1, i2⟩ := loadAll_eq hc hs hh g ns (fun m hm => hn m (by simp [hm])) hd'.2 s1
            (fun m hm => by
              rw [hsite, h3 _ ?_]
              · exact hf m (by simp [hm])
              · intro e
                simp only [urlOf] at e
                have := List.append_cancel_left e
                simp only [List.cons.injEq, true_and] at this
                subst this; exact hd'.1 hm)
            (Dict.set d n r) (fun m hm => by
              rw [hset]
              simp only [Dict.keys, List.map_append, List.map_cons, List.map_nil, List.mem_append, List.mem_singleton]
              rintro (h | h)
              · exact hk m (by simp [hm]) h
              · subst h; exact hd'.1 hm)
          rw [hsite, hlen] at i1 i2
          refine ⟨s2, ?_, ?_⟩
          · rw [i1, hset]
            cases collect (outcome world c g readRes site folder) (s.log.length + 1) ns <;> simp [Except.map]
          · rw [i2, h2]; simp [hw]

theorem pathsOf_dicts (ps : List (Dict Str Val × Val)) (h : ∀ x ∈ ps, Dict.get? x.1 c!"path" = some x.2) :
    pathsOf (ps.map fun x => .dict x.1) = .ok (ps.map Prod.snd) := by
  induction ps with
  | nil => rfl
  | cons x ps ih => simp [pathsOf, pathOf, h x (by simp), ih fun y hy => h y (by simp [hy])]

/-- the resource list names these resources, each by its path `/name` -/
def Lists (obj : Dict Str Val) (ns : List Str) : Prop :=
  ∃ es : List (Dict Str Val), Dict.get? obj c!"apis" = some (.list (es.map .dict)) ∧
    es.map (fun e => Dict.get? e c!"path") = ns.map fun n => some (.str ('/' :: n))

theorem listed_of {obj : Dict Str Val} {ns : List Str} (h : Lists obj ns) :
    listed obj = .ok (ns.map fun n => .str ('/' :: n)) := by
  obtain ⟨es, h1, h2⟩ := h
  rw [listed, h1]
  simp only
  clear h1
  induction es generalizing ns with
  | nil => cases ns <;> simp_all [pathsOf]
  | cons e es ih =>
    cases ns with
    | nil => simp at h2
    | cons n ns =>
      simp only [List.map_cons, List.cons.injEq] at h2
      simp [pathsOf, pathOf, h2.1, ih h2.2]

/-- **C71.** The resources named by a list are asked for one after the other, each in the folder of the
list, and each comes under its name; the first one that is missing, empty or unreadable ends it with its
failure, and no further one is asked for. -/
theorem C71_load {scheme netloc upath folder : Str} (hc : Canon ⟨scheme, netloc, upath, [], [], []⟩)
    (hs : ';' ∉ upath) (hh : Home upath folder) {obj : Dict Str Val} {ns : List Str} (hl : Lists obj ns)
    (hn : ∀ n ∈ ns, Name n) (hd : ns.Nodup) (g : Option Getter) (s : State)
    (hf : ∀ n ∈ ns, Dict.get? s.cache (scheme ++ c!"://" ++ netloc ++ folder ++ '/' :: n) = none) :
    ∃ s', parse path2url abspath world c readRes (.ok ()) obj (scheme ++ c!"://" ++ netloc ++ upath) g s =
        (collect (outcome world c g readRes (scheme ++ c!"://" ++ netloc) folder) s.log.length ns, s') ∧
      s'.log = s.log ++ (tried (outcome world c g readRes (scheme ++ c!"://" ++ netloc) folder) s.log.length ns).map
        fun x => (urlOf (scheme ++ c!"://" ++ netloc) folder x.2,
          sourceOf c g (urlOf (scheme ++ c!"://" ++ netloc) folder x.2),
          world x.1 (sourceOf c g (urlOf (scheme ++ c!"://" ++ netloc) folder x.2))) := by
  obtain ⟨s', h1, h2⟩ := loadAll_eq (path2url := path2url) (abspath := abspath) (world := world) (c := c)
    (readRes := readRes) hc hs hh g ns hn hd s hf [] (by simp [Dict.keys])
  refine ⟨s', ?_, h2⟩
  rw [parse]
  simp only [listed_of hl, h1]
  cases collect (outcome world c g readRes (scheme ++ c!"://" ++ netloc) folder) s.log.length ns <;> simp [Except.map]

theorem collect_ok {out : Nat → Str → Except Exc ρ} {res : Str → ρ} (ns : List Str) (i : Nat)
    (h : ∀ i, ∀ n ∈ ns, out i n = .ok (res n)) : collect out i ns = .ok (ns.map fun n => (n, res n)) ∧
      (tried out i ns).map Prod.snd = ns := by
  induction ns generalizing i with
  | nil => exact ⟨rfl, rfl⟩
  | cons n ns ih =>
    obtain ⟨h1, h2⟩ := ih (i + 1) fun i m hm => h i m (by simp [hm])
    simp [collect, tried, h i n (by simp), h1, h2, Except.map]

/-- **C71, a complete site.** If every resource is there and readable, exactly the listed ones are loaded,
by name and in order, and each URL is asked for once. -/
theorem C71_complete {scheme netloc upath folder : Str} (hc : Canon ⟨scheme, netloc, upath, [], [], []⟩)
    (hs : ';' ∉ upath) (hh : Home upath folder) {obj : Dict Str Val} {ns : List Str} (hl : Lists obj ns)
    (hn : ∀ n ∈ ns, Name n) (hd : ns.Nodup) (g : Option Getter) (s : State)
    (hf : ∀ n ∈ ns, Dict.get? s.cache (scheme ++ c!"://" ++ netloc ++ folder ++ '/' :: n) = none)
    {doc : Str → Val} {res : Str → ρ}
    (hw : ∀ i, ∀ n ∈ ns, world i (sourceOf c g (scheme ++ c!"://" ++ netloc ++ folder ++ '/' :: n)) = .ok (doc n))
    (hne : ∀ n ∈ ns, Loaded (doc n)) (hr : ∀ n ∈ ns, readRes (doc n) = .ok (res n)) :
    ∃ s', parse path2url abspath world c readRes (.ok ()) obj (scheme ++ c!"://" ++ netloc ++ upath) g s =
        (.ok (ns.map fun n => (n, res n)), s') ∧
      s'.log.map Prod.fst = s.log.map Prod.fst ++ ns.map fun n => scheme ++ c!"://" ++ netloc ++ folder ++ '/' :: n := by
  obtain ⟨s', h1, h2⟩ := C71_load (path2url := path2url) (abspath := abspath) (world := world) (c := c)
    (readRes := readRes) hc hs hh hl hn hd g s hf
  obtain ⟨k1, k2⟩ := collect_ok (out := outcome world c g readRes (scheme ++ c!"://" ++ netloc) folder) (res := res) ns
    s.log.length (fun i n hm => by
      have ht := (Proofs.Resolver.truthy_iff (doc n)).2 (hne n hm)
      simp only [outcome, urlOf, hw i n hm, readDoc, ht, if_true, hr n hm])
  refine ⟨s', by rw [h1, k1], ?_⟩
  rw [h2]
  simp only [List.map_append, List.map_map]
  congr 1
  conv => rhs; rw [← k2]
  simp [urlOf, Function.comp_def]

/-- **C71, lists that are not well-formed.** Without `apis` nothing is loaded; if `apis` is no list, or an
entry is no object or has no path, nothing is asked for at all. -/
theorem C71_malformed (obj : Dict Str Val) (root : Str) (g : Option Getter) (s : State) :
    (Dict.get? obj c!"apis" = none → parse path2url abspath world c readRes (.ok ()) obj root g s = (.ok [], s)) ∧
    (∀ v, Dict.get? obj c!"apis" = some v → (∀ l, v ≠ .list l) →
      parse path2url abspath world c readRes (.ok ()) obj root g s = (.error .TypeError, s)) ∧
    (∀ es e l, Dict.get? obj c!"apis" = some (.list (es ++ e :: l)) →
      (∀ x ∈ es, ∃ d p, x = .dict d ∧ Dict.get? d c!"path" = some p) →
      ((∀ d, e ≠ .dict d) → parse path2url abspath world c readRes (.ok ()) obj root g s = (.error .TypeError, s)) ∧
      (∀ d, e = .dict d → Dict.get? d c!"path" = none →
        parse path2url abspath world c readRes (.ok ()) obj root g s = (.error .KeyError, s))) ∧
    ∀ err, parse path2url abspath world c readRes (.error err) obj root g s = (.error err, s) := by
  refine ⟨fun h => by simp [parse, listed, h, loadAll], fun v h hv => ?_, fun es e l h hes => ?_, fun _ => rfl⟩
  · have : listed obj = .error .TypeError := by
      rw [listed, h]
      cases v with
      | list l => exact absurd rfl (hv l)
      | _ => rfl
    simp only [parse, this]
  · have key : ∀ err, pathOf e = .error err → parse path2url abspath world c readRes (.ok ()) obj root g s = (.error err, s) := by
      intro err he
      have : listed obj = .error err := by
        rw [listed, h]
        simp only
        clear h
        induction es with
        | nil => simp [pathsOf, he]
        | cons x es ih =>
          obtain ⟨d, p, rfl, hp⟩ := hes x (by simp)
          simp [pathsOf, pathOf, hp, ih fun y hy => hes y (by simp [hy])]
      simp only [parse, this]
    refine ⟨fun hd => key _ ?_, fun d hd hp => key _ (by subst hd; simp [pathOf, hp])⟩
    cases e with
    | dict d => exact absurd rfl (hd d)
    | _ => rfl

/-! ## A concrete case -/

/-- a site with a list and two resources -/
def site0 : Source → Except Exc Val
  | .url u =>
    if u = c!"http://h/docs/pet" then .ok (.dict [(c!"name", .str c!"pets")])
    else if u = c!"http://h/docs/a/user" then .ok (.dict [(c!"name", .str c!"users")])
    else if u = c!"http://h/docs/et" then .ok (.dict [(c!"name", .str c!"extraterrestrials")])
    else .error .OSError
  | _ => .error .StopIteration

def site (_ : Nat) : Source → Except Exc Val := site0

def theConf : Conf := ⟨none, none⟩

def aList (paths : List Str) : Dict Str Val :=
  [(c!"swaggerVersion", .str c!"1.2"), (c!"apis", .list (paths.map fun p => .dict [(c!"path", .str p)]))]

def loaded (root : Str) (paths : List Str) (g : Option Getter) : Except Exc (Dict Str Val) × List Str :=
  let r := parse id id site theConf (fun v => .ok v) (.ok ()) (aList paths) root g new
  (r.1, r.2.log.map Prod.fst)

theorem rootCanon : Canon ⟨c!"http", c!"h", c!"/docs/list.json", [], [], []⟩ where
  scheme_ne := by decide
  scheme_chars := by decide
  scheme_lower := by decide
  netloc_ok := by decide
  auth := by decide
  path_abs := .inr ⟨_, rfl⟩
  path_query := by decide
  path_frag := by decide
  path_auth := by rintro ⟨⟩
  path_rooted := by simp
  seg_params := by decide
  params_scheme := by decide
  params_slash := by decide
  params_query := by decide
  params_frag := by decide
  query_frag := by decide

example : ∃ s', parse id id site theConf (fun v => .ok v) (.ok ()) (aList [c!"/pet", c!"/a/user"])
      (c!"http" ++ c!"://" ++ c!"h" ++ c!"/docs/list.json") none new =
      (.ok [(c!"pet", .dict [(c!"name", .str c!"pets")]), (c!"a/user", .dict [(c!"name", .str c!"users")])], s') ∧
    s'.log.map Prod.fst = [] ++ [c!"http://h/docs/pet", c!"http://h/docs/a/user"] :=
  C71_complete (world := site) (c := theConf) (readRes := fun v => .ok v) (ns := [c!"pet", c!"a/user"])
    (folder := c!"/docs") rootCanon (by decide)
    (.file c!"/docs" c!"list.json" (by decide) (by decide) (by decide))
    ⟨[[(c!"path", .str c!"/pet")], [(c!"path", .str c!"/a/user")]], rfl, rfl⟩
    (by intro n hn; simp only [List.mem_cons, List.not_mem_nil, or_false] at hn
        rcases hn with rfl | rfl <;> exact ⟨by decide, by decide, by decide, by decide⟩)
    (by decide) none new (by intro n _; rfl)
    (doc := fun n => Val.dict [(c!"name", .str (if n = c!"pet" then c!"pets" else c!"users"))])
    (res := fun n => Val.dict [(c!"name", .str (if n = c!"pet" then c!"pets" else c!"users"))])
    (by intro i n hn; simp only [List.mem_cons, List.not_mem_nil, or_false] at hn
        rcases hn with rfl | rfl
        · show site0 _ = _; decide +kernel
        · show site0 _ = _; decide +kernel)
    (by intro n hn; refine ⟨by simp, by simp, by simp, by simp, by simp, by simp, by simp⟩) (by intro n _; rfl)

/-- **C71, refuted for a path without leading slash.** Its first character is dropped: the resource `pet` is
looked for at `et`, and listed under that name; `/pet` and `xpet` are taken for the same resource. -/
theorem C71_relative_false :
    loaded c!"http://h/docs/list.json" [c!"pet"] none =
      (.ok [(c!"et", .dict [(c!"name", .str c!"extraterrestrials")])], [c!"http://h/docs/et"]) ∧
    (loaded c!"http://h/docs/list.json" [c!"/pet", c!"xpet"] none).1 =
      .ok [(c!"pet", .dict [(c!"name", .str c!"pets")])] := by decide +kernel

/-- **C71, refuted for a getter object.** A `UrlGetter`, `SimpleGetter` or `LocalGetter` object has one URL:
after the list has been fetched with it, any further `next` raises `StopIteration`. So a list with resources
cannot be loaded with such an object. -/
theorem C71_getter_object_false {json yaml : Str → Except Exc Val} {load : Str → Str → Except Exc Getters.Loaded}
    {base u : Str} {scheme netloc upath folder : Str} (hc : Canon ⟨scheme, netloc, upath, [], [], []⟩)
    (hs : ';' ∉ upath) (hh : Home upath folder) {obj : Dict Str Val} {n : Str} {ns : List Str} (hl : Lists obj (n :: ns))
    (hn : ∀ m ∈ n :: ns, Name m) (hd : (n :: ns).Nodup) (k : Nat) (s : State)
    (hf : ∀ m ∈ n :: ns, Dict.get? s.cache (scheme ++ c!"://" ++ netloc ++ folder ++ '/' :: m) = none)
    (hw : ∀ i, world i (.inst k) = (Getters.next json yaml load (Getters.next json yaml load ⟨base, [u]⟩).2).1) :
    (parse path2url abspath world c readRes (.ok ()) obj (scheme ++ c!"://" ++ netloc ++ upath) (some (.inst k)) s).1 =
      .error .StopIteration := by
  obtain ⟨s', h1, -⟩ := C71_load (path2url := path2url) (abspath := abspath) (world := world) (c := c)
    (readRes := readRes) hc hs hh hl hn hd (some (.inst k)) s hf
  have hstop : ∀ i, world i (.inst k) = .error .StopIteration := by
    intro i
    rw [hw i]
    simp only [Getters.next]
    cases load base u <;> rfl
  rw [h1, collect]
  have : outcome world c (some (.inst k)) readRes (scheme ++ c!"://" ++ netloc) folder s.log.length n =
      .error .StopIteration := by
    simp only [outcome, sourceOf, source, asked, hstop, readDoc]
  rw [this]

end Props.C71
