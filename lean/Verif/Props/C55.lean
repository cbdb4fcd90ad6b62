import Verif.Proofs.Upgrade
import Verif.Props.C51
import Verif.Model.Clients
/-!
# C55: upgrading a 1.2 document preserves every operation's URL
-/

namespace Props.C55
open Py Utils Upgrade Spec.Places

variable {env : Env} {str : Nat → Str}

/-- operation `op` is declared below path `p` in the resource `r` named `n` -/
def Declares (l : ResourceList) (n : Str) (r : Resource) (p : Option Str) (op : Operation) : Prop :=
  (n, r) ∈ l.apis ∧ ∃ nick, (nick, p, op) ∈ r.apis

/-- the operation is at this URL and method: `basePath` followed by the path, and the method in small
letters -/
def At (lower : Str → Str) (r : Resource) (p : Option Str) (op : Operation) (url m : Str) : Prop :=
  ∃ b q x, r.basePath = some b ∧ p = some q ∧ url = b ++ q ∧ op.method = some x ∧ m = lower x

/-- the operation found below a path and a method of the new document -/
def Found (s : Swagger) (path m : Str) (o : Op20) : Prop :=
  ∃ item, Dict.get? s.paths path = some item ∧ Dict.get? item m = some o

theorem found_iff (s : Swagger) (path m : Str) (o : Op20) : Found s path m o ↔ lookup s.paths path m = some o := by
  simp [Found, lookup, Option.bind_eq_some_iff]

theorem mem_opsOf (l : ResourceList) (n : Str) (r : Resource) (p : Option Str) (op : Operation) :
    (n, r, p, op) ∈ opsOf l.apis.reverse ↔ Declares l n r p op := by
  simp only [opsOf, List.mem_flatMap, List.mem_reverse, List.mem_map, Declares]
  constructor
  · rintro ⟨⟨n', r'⟩, hm, ⟨nick, p', op'⟩, hx, e⟩
    cases e
    exact ⟨hm, nick, hx⟩
  · rintro ⟨hm, nick, hx⟩
    exact ⟨(n, r), hm, (nick, p, op), hx, rfl⟩

theorem forall₂_left {α β : Type} {R : α → β → Prop} {a : List α} {b : List β} (h : List.Forall₂ R a b) :
    ∀ x ∈ a, ∃ y ∈ b, R x y := by
  induction h with
  | nil => simp
  | cons hr _ ih =>
    intro x hx
    rcases List.mem_cons.1 hx with rfl | hx
    · exact ⟨_, by simp, hr⟩
    · obtain ⟨y, hy, hxy⟩ := ih x hx
      exact ⟨y, by simp [hy], hxy⟩

theorem forall₂_right {α β : Type} {R : α → β → Prop} {a : List α} {b : List β} (h : List.Forall₂ R a b) :
    ∀ y ∈ b, ∃ x ∈ a, R x y := by
  induction h with
  | nil => simp
  | cons hr _ ih =>
    intro x hx
    rcases List.mem_cons.1 hx with rfl | hx
    · exact ⟨_, by simp, hr⟩
    · obtain ⟨y, hy, hxy⟩ := ih x hx
      exact ⟨y, by simp [hy], hxy⟩

theorem made_id {n : Str} {r : Resource} {p : Option Str} {op : Operation} {key m : Str} {o : Op20}
    (h : Made env n r p op key m o) : o.operationId = op.nickname := by
  obtain ⟨o0, ps, ho, -, rfl⟩ := h.op_eq
  simp only [op20] at ho
  obtain ⟨sec, -, ho⟩ := bind_ok ho
  obtain ⟨resp, -, ho⟩ := bind_ok ho
  simp only [Except.ok.injEq] at ho
  rw [← ho]

theorem made_at {n : Str} {r : Resource} {p : Option Str} {op : Operation} {key m : Str} {o : Op20}
    (h : Made env n r p op key m o) : At env.lower r p op key m := by
  obtain ⟨b, q, hb, hq, e⟩ := h.key_eq
  obtain ⟨x, hx, e2⟩ := h.method_eq
  exact ⟨b, q, x, hb, hq, e, hx, e2⟩

theorem at_inj {lower : Str → Str} {r : Resource} {p : Option Str} {op : Operation} {u1 u2 m1 m2 : Str}
    (h1 : At lower r p op u1 m1) (h2 : At lower r p op u2 m2) : u1 = u2 ∧ m1 = m2 := by
  obtain ⟨b, q, x, hb, hq, rfl, hx, rfl⟩ := h1
  obtain ⟨b', q', x', hb', hq', rfl, hx', rfl⟩ := h2
  rw [hb] at hb'; rw [hq] at hq'; rw [hx] at hx'
  cases hb'; cases hq'; cases hx'
  exact ⟨rfl, rfl⟩

/-- the state before the paths are cut -/
theorem scanned {l : ResourceList} {s : Swagger} (h : upgrade env str l = .ok s) :
    ∃ s1 made, finish s1 = .ok s ∧ s1.host = [] ∧ s1.schemes = [c!"http", c!"https"] ∧
      s1.paths = List.foldl put [] made ∧
      List.Forall₂ (fun x y => Made env (jp_escape x.1) x.2.1 x.2.2.1 x.2.2.2 y.1 y.2.1 y.2.2)
        (opsOf l.apis.reverse) made := by
  simp only [upgrade] at h
  obtain ⟨s0, h0, h⟩ := bind_ok h
  obtain ⟨s1, h1, h⟩ := bind_ok h
  obtain ⟨made, defs, hm, -, hs1, -⟩ := visit_document h1
  cases hi : l.info with
  | none => simp [resourceList, hi] at h0
  | some i =>
    simp only [resourceList, hi, Except.ok.injEq] at h0
    refine ⟨s1, made, h, ?_, ?_, ?_, hm⟩
    · rw [hs1, ← h0]
    · rw [hs1, ← h0]
    · rw [hs1, ← h0]

/-- **C55** (places). An upgraded document declares a place for every operation. -/
theorem C55_places {l : ResourceList} {s : Swagger} (h : upgrade env str l = .ok s) {n : Str} {r : Resource}
    {p : Option Str} {op : Operation} (hd : Declares l n r p op) : ∃ url m, At env.lower r p op url m := by
  obtain ⟨s1, made, -, -, -, -, hm⟩ := scanned h
  obtain ⟨y, -, hy⟩ := forall₂_left hm _ ((mem_opsOf l n r p op).2 hd)
  exact ⟨_, _, made_at hy⟩

/-- what the scan has filed -/
theorem filed {l : ResourceList} {made : List (Str × Str × Op20)}
    (hm : List.Forall₂ (fun x y => Made env (jp_escape x.1) x.2.1 x.2.2.1 x.2.2.2 y.1 y.2.1 y.2.2)
        (opsOf l.apis.reverse) made) :
    (∀ n r p op url m, Declares l n r p op → At env.lower r p op url m →
      ∃ o, lookup (List.foldl put [] made) url m = some o) ∧
    (∀ url m o, lookup (List.foldl put [] made) url m = some o →
      ∃ n r p op, Declares l n r p op ∧ At env.lower r p op url m ∧ o.operationId = op.nickname) := by
  constructor
  · intro n r p op url m hd ha
    obtain ⟨⟨k, m', o⟩, hy, hmade⟩ := forall₂_left hm _ ((mem_opsOf l n r p op).2 hd)
    obtain ⟨e1, e2⟩ := at_inj ha (made_at hmade)
    subst e1; subst e2
    exact Option.isSome_iff_exists.1 (lookup_isSome made [] _ _ (Or.inl ⟨o, hy⟩))
  · intro url m o ho
    rcases lookup_foldl made [] url m o ho with hmem | hnil
    · obtain ⟨⟨n, r, p, op⟩, hx, hmade⟩ := forall₂_right hm _ hmem
      exact ⟨n, r, p, op, (mem_opsOf l n r p op).1 hx, made_at hmade, made_id hmade⟩
    · simp [lookup, Dict.get?] at hnil

theorem keys_at {l : ResourceList} {made : List (Str × Str × Op20)}
    (hm : List.Forall₂ (fun x y => Made env (jp_escape x.1) x.2.1 x.2.2.1 x.2.2.2 y.1 y.2.1 y.2.2)
        (opsOf l.apis.reverse) made) {k : Str} (hk : k ∈ Dict.keys (List.foldl put [] made)) :
    ∃ n r p op m, Declares l n r p op ∧ At env.lower r p op k m := by
  rw [keys_foldl_put] at hk
  rcases hk with hk | ⟨⟨k', m', o⟩, he, rfl⟩
  · simp [Dict.keys] at hk
  · obtain ⟨⟨n, r, p, op⟩, hx, hmade⟩ := forall₂_right hm _ he
    exact ⟨n, r, p, op, m', (mem_opsOf l n r p op).1 hx, made_at hmade⟩

theorem paths_ne {l : ResourceList} {made : List (Str × Str × Op20)}
    (hm : List.Forall₂ (fun x y => Made env (jp_escape x.1) x.2.1 x.2.2.1 x.2.2.2 y.1 y.2.1 y.2.2)
        (opsOf l.apis.reverse) made) (hsome : ∃ n r p op, Declares l n r p op) :
    List.foldl put [] made ≠ [] := by
  obtain ⟨n, r, p, op, hd⟩ := hsome
  obtain ⟨y, hy, hmade⟩ := forall₂_left hm _ ((mem_opsOf l n r p op).2 hd)
  intro e
  have : y.1 ∈ Dict.keys (List.foldl put [] made) := (keys_foldl_put made [] y.1).2 (Or.inr ⟨y, hy, rfl⟩)
  rw [e] at this
  simp [Dict.keys] at this

/-- **C55** (one site). If all operations are on one site, the new document names its host, and its
paths are exactly the rests of the URLs: every operation is found below its rest and method, and
everything found there is an operation of that URL and method. -/
theorem C55_site {l : ResourceList} {s : Swagger} (h : upgrade env str l = .ok s) {sch host : Str}
    (hsite : Site sch host) (hsome : ∃ n r p op, Declares l n r p op)
    (hall : ∀ n r p op url m, Declares l n r p op → At env.lower r p op url m →
      ∃ q, url = sch ++ c!"://" ++ host ++ q ∧ Rooted q) :
    s.host = host ∧
    (∀ n r p op q m, Declares l n r p op → At env.lower r p op (sch ++ c!"://" ++ host ++ q) m → ∃ o, Found s q m o) ∧
    (∀ q m o, Found s q m o → ∃ n r p op, Declares l n r p op ∧
      At env.lower r p op (sch ++ c!"://" ++ host ++ q) m ∧ o.operationId = op.nickname) := by
  obtain ⟨s1, made, hf, -, -, hp, hm⟩ := scanned h
  have hkeys : ∀ k ∈ Dict.keys s1.paths, ∃ q, k = sch ++ c!"://" ++ host ++ q ∧ Rooted q := by
    intro k hk
    rw [hp] at hk
    obtain ⟨n, r, p, op, m, hd, ha⟩ := keys_at hm hk
    exact hall n r p op k m hd ha
  have hne : s1.paths ≠ [] := by rw [hp]; exact paths_ne hm hsome
  have hwf : Dict.WF s1.paths := by rw [hp]; exact wf_foldl_put made Dict.WF_nil
  rw [finish_site hsite s1 hne hkeys] at hf
  simp only [Except.ok.injEq] at hf
  have hl : ∀ q m, lookup s.paths q m = lookup s1.paths (sch ++ c!"://" ++ host ++ q) m := by
    intro q m
    unfold lookup
    rw [← hf]
    simp only
    rw [get?_cutPaths hwf (fun k hk => by
      obtain ⟨q, rfl, -⟩ := hkeys k hk
      exact List.prefix_append _ _)]
  refine ⟨by rw [← hf], ?_, ?_⟩
  · intro n r p op q m hd ha
    obtain ⟨o, ho⟩ := (filed hm).1 n r p op _ m hd ha
    refine ⟨o, (found_iff s q m o).2 ?_⟩
    rw [hl, hp]; exact ho
  · intro q m o ho
    have := (found_iff s q m o).1 ho
    rw [hl, hp] at this
    exact (filed hm).2 _ m o this

/-- **C55** (no site). If all URLs are paths, the new document names no host and has the same paths. -/
theorem C55_relative {l : ResourceList} {s : Swagger} (h : upgrade env str l = .ok s)
    (hsome : ∃ n r p op, Declares l n r p op)
    (hall : ∀ n r p op url m, Declares l n r p op → At env.lower r p op url m → Relative url) :
    s.host = [] ∧
    (∀ n r p op url m, Declares l n r p op → At env.lower r p op url m → ∃ o, Found s url m o) ∧
    (∀ url m o, Found s url m o → ∃ n r p op, Declares l n r p op ∧
      At env.lower r p op url m ∧ o.operationId = op.nickname) := by
  obtain ⟨s1, made, hf, hh, -, hp, hm⟩ := scanned h
  have hkeys : ∀ k ∈ Dict.keys s1.paths, Relative k := by
    intro k hk
    rw [hp] at hk
    obtain ⟨n, r, p, op, m, hd, ha⟩ := keys_at hm hk
    exact hall n r p op k m hd ha
  have hne : s1.paths ≠ [] := by rw [hp]; exact paths_ne hm hsome
  have hwf : Dict.WF s1.paths := by rw [hp]; exact wf_foldl_put made Dict.WF_nil
  obtain ⟨s', hs', hhost, hget, -⟩ := finish_relative s1 hne hwf hh hkeys
  rw [hf] at hs'
  cases hs'
  have hl : ∀ q m, lookup s.paths q m = lookup s1.paths q m := by
    intro q m; unfold lookup; rw [hget]
  refine ⟨hhost, ?_, ?_⟩
  · intro n r p op q m hd ha
    obtain ⟨o, ho⟩ := (filed hm).1 n r p op _ m hd ha
    refine ⟨o, (found_iff s q m o).2 ?_⟩
    rw [hl, hp]; exact ho
  · intro q m o ho
    have := (found_iff s q m o).1 ho
    rw [hl, hp] at this
    exact (filed hm).2 _ m o this

/-- no two operations at one URL and method -/
def Unambiguous (lower : Str → Str) (l : ResourceList) : Prop :=
  ∀ n r p op n' r' p' op' url m, Declares l n r p op → Declares l n' r' p' op' →
    At lower r p op url m → At lower r' p' op' url m → op.nickname = op'.nickname

/-- **C55** (the operation itself). On one site and with one operation per URL and method, an
operation is found under its own nickname. -/
theorem C55_operation {l : ResourceList} {s : Swagger} (h : upgrade env str l = .ok s) {sch host : Str}
    (hsite : Site sch host)
    (hall : ∀ n r p op url m, Declares l n r p op → At env.lower r p op url m →
      ∃ q, url = sch ++ c!"://" ++ host ++ q ∧ Rooted q)
    (hu : Unambiguous env.lower l) {n : Str} {r : Resource} {p : Option Str} {op : Operation} (hd : Declares l n r p op) :
    ∃ q m o, At env.lower r p op (sch ++ c!"://" ++ host ++ q) m ∧ Found s q m o ∧ o.operationId = op.nickname := by
  obtain ⟨url, m, ha⟩ := C55_places h hd
  obtain ⟨q, rfl, -⟩ := hall n r p op url m hd ha
  obtain ⟨-, h1, h2⟩ := C55_site h hsite ⟨n, r, p, op, hd⟩ hall
  obtain ⟨o, ho⟩ := h1 n r p op q m hd ha
  obtain ⟨n', r', p', op', hd', ha', hid⟩ := h2 q m o ho
  exact ⟨q, m, o, ha, ho, by rw [hid, hu n' r' p' op' n r p op _ m hd' hd ha' ha]⟩

/-! ## loading a resource -/

/-- the operations of a resource as declared -/
def declared (apis : List Api) : List (Str × (Option Str × Operation)) :=
  apis.flatMap fun a => a.operations.map fun op => (op.nickname, a.path, op)

theorem addOps_eq (path : Option Str) (ops : List Operation) (d : Dict Str (Option Str × Operation)) (hd : Dict.WF d) :
    addOps path ops d =
      if (Dict.keys d ++ ops.map Operation.nickname).Nodup then .ok (d ++ ops.map fun op => (op.nickname, path, op))
      else .error .ValueError := by
  induction ops generalizing d with
  | nil => simp [addOps]; exact hd
  | cons op ops ih =>
    unfold addOps
    by_cases hm : op.nickname ∈ Dict.keys d
    · rw [if_pos ((Dict.has_iff _ _).2 hm), if_neg]
      intro hn
      rw [List.nodup_append] at hn
      exact hn.2.2 _ hm _ (by simp) rfl
    · have hh : ¬ Dict.has d op.nickname = true := fun h => hm ((Dict.has_iff _ _).1 h)
      rw [if_neg hh, ih _ (Dict.WF_set hd _ _), Dict.keys_set_of_not_mem _ hm, Dict.set_of_not_mem _ hm]
      simp [List.append_assoc]

theorem addApis_eq (apis : List Api) (d : Dict Str (Option Str × Operation)) (hd : Dict.WF d) :
    addApis apis d =
      if (Dict.keys d ++ (declared apis).map Prod.fst).Nodup then .ok (d ++ declared apis) else .error .ValueError := by
  induction apis generalizing d with
  | nil => simp [addApis, declared]; exact hd
  | cons a as ih =>
    have e : (declared (a :: as)) = (a.operations.map fun op => (op.nickname, a.path, op)) ++ declared as := rfl
    have e2 : (declared (a :: as)).map Prod.fst = a.operations.map Operation.nickname ++ (declared as).map Prod.fst := by
      rw [e, List.map_append, List.map_map]; rfl
    unfold addApis
    rw [addOps_eq _ _ _ hd, e2]
    by_cases h1 : (Dict.keys d ++ a.operations.map Operation.nickname).Nodup
    · rw [if_pos h1]
      have hk : Dict.keys (d ++ a.operations.map fun op => (op.nickname, a.path, op)) =
          Dict.keys d ++ a.operations.map Operation.nickname := by
        simp [Dict.keys, Function.comp_def]
      simp only
      rw [ih _ (by unfold Dict.WF; rw [hk]; exact h1), hk, List.append_assoc, List.append_assoc, ← e]
    · rw [if_neg h1, if_neg]
      intro hn
      rw [← List.append_assoc, List.nodup_append] at hn
      exact h1 hn.1

/-- **C55** (loading). A resource whose operations have distinct nicknames is loaded with all of them,
below the paths they are declared at; otherwise it is refused. -/
theorem C55_load (d : Declared) :
    load d = if ((declared d.apis).map Prod.fst).Nodup then
        .ok ⟨declared d.apis, d.basePath, d.models, d.produces, d.consumes, d.authorizations⟩
      else .error .ValueError := by
  unfold load
  rw [addApis_eq _ _ Dict.WF_nil]
  simp only [Dict.keys, List.map_nil, List.nil_append]
  by_cases h : ((declared d.apis).map Prod.fst).Nodup
  · rw [if_pos h, if_pos h]
  · rw [if_neg h, if_neg h]

/-! ## the URL requests are sent to -/

/-- the new document as `PatchObject` sees it -/
def rootOf {σ : Type} (s : Swagger) : Patch.Root σ := { host := some s.host, basePath := some [], schemes := s.schemes }

theorem host_loaded {netloc h : Str} (hn : netloc ≠ []) (hh : C51.Host (some []) netloc h) : h = netloc := by
  cases hh with
  | own _ _ hne => exact absurd rfl hne
  | loaded _ _ _ _ => rfl
  | local_ _ _ => exact absurd rfl hn

theorem host_own {host netloc h : Str} (hn : host ≠ []) (hh : C51.Host (some host) netloc h) : h = host := by
  cases hh with
  | own _ _ _ => rfl
  | loaded _ _ hc _ => rcases hc with hc | hc <;> cases hc; exact absurd rfl hn
  | local_ _ hc => rcases hc with hc | hc <;> cases hc; exact absurd rfl hn

theorem rooted_eq {q : Str} (h : Rooted q) : C51.rooted q = q := by
  rcases h with rfl | ⟨t, rfl⟩ <;> rfl

/-- **C55** (URL, one site). After the document is prepared, the operation found below `q` has the
URL `//host` followed by `q`: what it had in 1.2 without the scheme. -/
theorem C55_url {ρ σ : Type} {l : ResourceList} {s : Swagger} (h : upgrade env str l = .ok s) {sch host : Str}
    (hsite : Site sch host) (hsome : ∃ n r p op, Declares l n r p op)
    (hall : ∀ n r p op url m, Declares l n r p op → At env.lower r p op url m →
      ∃ q, url = sch ++ c!"://" ++ host ++ q ∧ Rooted q)
    (name : ρ → Option Str) (u : Url) (hu : Canon u) (schemes : List Str) (q m : Str) (hq : Rooted q)
    (o : Patch.Op ρ σ) :
    (C51.prepared name ⟨some (rootOf s), urlunparse u, schemes⟩ (pointer ([c!"paths"] ++ [q])) m o).url =
      some (c!"//" ++ host ++ q) := by
  obtain ⟨hh, -, -⟩ := C55_site h hsite hsome hall
  obtain ⟨-, -, -, h', hhost, he⟩ := C51.C51_place name (rootOf s) u hu schemes [c!"paths"] q m o
  rw [he]
  have : h' = host := by
    have e : (rootOf s : Patch.Root σ).host = some host := by rw [← hh]; rfl
    rw [e] at hhost
    exact host_own hsite.host_ne hhost
  rw [this]
  have e2 : (rootOf s : Patch.Root σ).basePath.getD [] ++ q = q := rfl
  rw [e2, rooted_eq hq]

/-- **C55** (URL, no site). The operation found below `q` has the host the document was loaded from. -/
theorem C55_url_relative {ρ σ : Type} {l : ResourceList} {s : Swagger} (h : upgrade env str l = .ok s)
    (hsome : ∃ n r p op, Declares l n r p op)
    (hall : ∀ n r p op url m, Declares l n r p op → At env.lower r p op url m → Relative url)
    (name : ρ → Option Str) (u : Url) (hu : Canon u) (hnet : u.netloc ≠ []) (schemes : List Str) (q m : Str)
    (hq : Rooted q) (o : Patch.Op ρ σ) :
    (C51.prepared name ⟨some (rootOf s), urlunparse u, schemes⟩ (pointer ([c!"paths"] ++ [q])) m o).url =
      some (c!"//" ++ u.netloc ++ q) := by
  obtain ⟨hh, -, -⟩ := C55_relative h hsome hall
  obtain ⟨-, -, -, h', hhost, he⟩ := C51.C51_place name (rootOf s) u hu schemes [c!"paths"] q m o
  rw [he]
  have : h' = u.netloc := by
    have e : (rootOf s : Patch.Root σ).host = some [] := by rw [← hh]; rfl
    rw [e] at hhost
    exact host_loaded hnet hhost
  rw [this]
  have e2 : (rootOf s : Patch.Root σ).basePath.getD [] ++ q = q := rfl
  rw [e2, rooted_eq hq]

/-! ## refusals -/

/-- the URLs begin with one character -/
def CommonFirst (lower : Str → Str) (l : ResourceList) (c : Char) : Prop :=
  ∀ n r p op url m, Declares l n r p op → At lower r p op url m → ∃ t, url = c :: t

/-- **C55** (refusal). A document whose objects can all be converted is refused, with an
`IndexError`, exactly when it has no operations or their URLs do not begin with one character. -/
theorem C55_refused {l : ResourceList} {s0 s1 : Swagger} (h0 : resourceList l = .ok s0)
    (h1 : visitAll env s0 (visits l str) = .ok s1) (e : Exc) :
    upgrade env str l = .error e ↔
      e = .IndexError ∧ ((¬ ∃ n r p op, Declares l n r p op) ∨ ∀ c, ¬ CommonFirst env.lower l c) := by
  have hup : upgrade env str l = finish s1 := by
    simp only [upgrade, h0, h1, bind, Except.bind]
  obtain ⟨made, defs, hm, -, hs1, -⟩ := visit_document h1
  have hp : s1.paths = List.foldl put [] made := by
    rw [hs1]
    cases hi : l.info with
    | none => simp [resourceList, hi] at h0
    | some i => simp only [resourceList, hi, Except.ok.injEq] at h0; rw [← h0]
  rw [hup, finish_error]
  refine and_congr_right fun _ => ?_
  rw [hp]
  constructor
  · intro hc
    by_cases hsome : ∃ n r p op, Declares l n r p op
    · refine Or.inr fun c hcf => ?_
      have hne := paths_ne hm hsome
      have : [c] <+: commonprefix (Dict.keys (List.foldl put [] made)) := by
        refine prefix_commonprefix (by simpa [Dict.keys] using hne) ?_
        intro k hk
        obtain ⟨n, r, p, op, m, hd, ha⟩ := keys_at hm hk
        obtain ⟨t, rfl⟩ := hcf n r p op k m hd ha
        exact ⟨t, rfl⟩
      rw [hc] at this
      simp at this
    · exact Or.inl hsome
  · rintro (hno | hno)
    · cases hmade : made with
      | nil => rfl
      | cons y ys =>
        obtain ⟨⟨n, r, p, op⟩, hx, -⟩ := forall₂_right hm y (by rw [hmade]; simp)
        exact absurd ⟨n, r, p, op, (mem_opsOf l n r p op).1 hx⟩ hno
    · cases hc : commonprefix (Dict.keys (List.foldl put [] made)) with
      | nil => rfl
      | cons c t =>
        refine absurd ?_ (hno c)
        intro n r p op url m hd ha
        obtain ⟨⟨k, m', o⟩, hy, hmade⟩ := forall₂_left hm _ ((mem_opsOf l n r p op).2 hd)
        obtain ⟨e1, e2⟩ := at_inj ha (made_at hmade)
        have hk : url ∈ Dict.keys (List.foldl put [] made) :=
          (keys_foldl_put made [] url).2 (Or.inr ⟨_, hy, e1.symm⟩)
        have := commonprefix_prefix hk
        rw [hc] at this
        obtain ⟨u, hu⟩ := this
        exact ⟨t ++ u, by rw [← hu]; rfl⟩

/-! ## examples -/

def env0 : Env :=
  { lower := fun s => s.map Char.toLower, float := fun _ => .error .ValueError, int := fun _ => .error .ValueError,
    prim := fun s => s ∈ [c!"string", c!"integer", c!"number", c!"boolean", c!"array", c!"file", c!"object"] }

set_option synthInstance.maxSize 1000

def str0 (n : Nat) : Str := List.replicate n 'I'

def opA : Operation := { nickname := c!"getPet", method := some c!"GET", type := some c!"string" }
def opB : Operation := { nickname := c!"addPet", method := some c!"POST", type := some c!"void" }

example : (load { apis := [{ path := some c!"/pet", operations := [opA, opB] }] }).map (fun r => r.apis.map Prod.fst) =
    .ok [c!"getPet", c!"addPet"] := by decide +kernel
example : (load { apis := [{ path := some c!"/pet", operations := [opA, opA] }] }).map (fun r => r.apis.map Prod.fst) =
    .error .ValueError := by decide +kernel

/-- two resources, one operation each -/
def doc (base1 base2 : Str) : ResourceList :=
  { info := some {},
    apis := [(c!"pet", { basePath := some base1, apis := [(c!"getPet", some c!"/pet/{id}", opA)] }),
      (c!"user", { basePath := some base2, apis := [(c!"addPet", some c!"/user", opB)] })] }

/-- the host, and the operation identifiers below paths and methods -/
def summary (s : Swagger) : Str × List (Str × List (Str × Str)) :=
  (s.host, s.paths.map fun ki => (ki.1, ki.2.map fun mo => (mo.1, mo.2.operationId)))

example : (upgrade env0 str0 (doc c!"http://h.com/api" c!"http://h.com/api")).map summary =
    .ok (c!"h.com", [(c!"/api/user", [(c!"post", c!"addPet")]), (c!"/api/pet/{id}", [(c!"get", c!"getPet")])]) := by
  decide +kernel

example : Site c!"http" c!"h.com" := ⟨by decide, by decide, by decide, by decide, by decide⟩

example : (upgrade env0 str0 (doc c!"/v1" c!"/v2")).map summary =
    .ok ([], [(c!"/v2/user", [(c!"post", c!"addPet")]), (c!"/v1/pet/{id}", [(c!"get", c!"getPet")])]) := by
  decide +kernel

/-- **C55** refuted: two hosts are not refused. Here the part of the names they share becomes the
host, and requests go to a host nobody declared. -/
theorem C55_hosts_false :
    ∃ s, upgrade env0 str0 (doc c!"http://api1.x" c!"http://api2.x") = .ok s ∧ s.host = c!"api" ∧
      (∃ o, Found s c!"1.x/pet/{id}" c!"get" o) ∧
      Patch.urlOf (rootOf s : Patch.Root Unit) c!"http://d.com/doc.json" c!"1.x/pet/{id}" = c!"//api/1.x/pet/{id}" := by
  refine ⟨_, rfl, by decide +kernel, ⟨_, _, rfl, rfl⟩, by decide +kernel⟩

/-- **C55** refuted: hosts with nothing in common become the first part of the paths on the host the
document was loaded from. -/
theorem C55_disjoint_false :
    ∃ s, upgrade env0 str0 (doc c!"http://a.com" c!"http://b.com") = .ok s ∧ s.host = [] ∧
      (∃ o, Found s c!"a.com/pet/{id}" c!"get" o) ∧
      Patch.urlOf (rootOf s : Patch.Root Unit) c!"http://d.com/doc.json" c!"a.com/pet/{id}" =
        c!"//d.com/a.com/pet/{id}" := by
  refine ⟨_, rfl, by decide +kernel, ⟨_, _, rfl, rfl⟩, by decide +kernel⟩

/-- **C55** refuted: a document without operations cannot be upgraded. -/
theorem C55_empty_false : upgrade env0 str0 { info := some {}, apis := [(c!"pet", { basePath := some c!"http://h.com" })] } =
    .error .IndexError := by decide +kernel

/-- **C55** refuted: the scheme is lost. An operation declared with `https` is requested with `http` by
every bundled client (the last scheme is taken, `pyswagger/io.py`:183-185). -/
theorem C55_scheme_false :
    ∃ s, upgrade env0 str0 (doc c!"https://h.com" c!"https://h.com") = .ok s ∧
      Core.prepareSchemes Clients.httpSchemes s.schemes = .ok [c!"https", c!"http"] := by
  refine ⟨_, rfl, by decide +kernel⟩

/-- **C55** refuted: of two operations at one URL and method only one is kept. -/
theorem C55_twice_false :
    (upgrade env0 str0 { info := some {}, apis := [(c!"pet", { basePath := some c!"http://h.com", apis :=
      [(c!"getPet", some c!"/pet", opA), (c!"getAll", some c!"/pet", { opA with nickname := c!"getAll" })] })] }).map summary =
    .ok (c!"h.com", [(c!"/pet", [(c!"get", c!"getPet")])]) := by decide +kernel

end Props.C55
