import Verif.Proofs.Parts12
import Verif.Props.C60Read
import Verif.Props.C89
import Verif.Props.C92
/-!
# C93: which documents of Swagger 1.2 become applications

`App.create(url, strict)` for a resource listing and its API declarations. `C93_create`: first the rules for 1.2 documents are checked,
on the objects that were read (C60). If an operation asks for an authorisation the listing does not have, or takes a file without saying
what it consumes, the check itself raises `KeyError` or `TypeError`, strict or not; else a strict application raises `ValidationError` if
some rule is broken. `SchemaError` is raised if two operations have the same resource and nickname; a strict application raises
`CycleDetectionError` if a model leads back to itself, through its properties or as a sub type. Nothing else is raised, and
`app.op[resource, nickname]` and `app.m[resource, id]` are there. `C93_upgrade`: a document that has no counterpart in 2.0 is refused
with the exception of the converter.

Conditions are said about the listing and the declarations: the document refers to its own models only (`Upgrades`), it is on one
site (`OnSite`), things have names of their own (`Distinct`), and models have values of the kinds the standard asks for (`Kinds`).
-/

namespace Props.C93
open Py Utils Tree _root_.Doc Upgrade Spec.Upgrade12 Spec.Pointed Spec.Model12 Props.C55 Props.C56 Props.C87 Props.C89 _root_.Create
open Spec.Rules12 (UnknownAuth FileUnconsumed Breaks Owner)
open Spec.Refused12 (Circular Kinds)
open Spec (rfcEscape)
open Props.C60 (ReadFrom ConsumesOk)
open Validate12 (className)
open Proofs.Origin (Loads)

variable {env : Env} {str : Nat → Str} {listing : Dict Str Tree} {declarations : List (Str × Tree)} {l : ResourceList} {T R : Tree}
  {s : Swagger} {sq : Dict Str Tree} {u : Py.Url} {sch host : Str} {o : Objects.Outside}

/-- Resources and operations have names, no two operations have the same URL and method, and no two models the same resource and id. -/
structure Distinct (env : Env) (l : ResourceList) : Prop where
  resources : ∀ n r, (n, r) ∈ l.apis → n ≠ []
  nicknames : ∀ n r p op, Declares l n r p op → op.nickname ≠ []
  alone : ∀ n r p op url m, Declares l n r p op → At env.lower r p op url m → Alone env l n r op url m
  models : ∀ n m n' m', Has l n m → Has l n' m' → keyOf env (rfcEscape n') m' = keyOf env (rfcEscape n) m → n' = n ∧ m' = m

/-- two operations at different places have the same resource and nickname, as they are written with the separator -/
def Clash (env : Env) (l : ResourceList) (sch host : Str) : Prop := ∃ n op q m n' op' q' m', Declared12 env l sch host n op q m ∧
  Declared12 env l sch host n' op' q' m' ∧ (q, m) ≠ (q', m') ∧ n ++ env.sep ++ op.nickname = n' ++ env.sep ++ op'.nickname

/-- some object breaks a rule for 1.2 documents -/
def Invalid (texts : Tree → Str) (raw : Tree) : Prop := ∃ ts c fs m, Spec.Places.At [] raw ts (.obj c fs) ∧
  Breaks texts raw (Owner raw ts) (className c) (.obj c fs) m

/-! ## the document that is prepared -/

theorem list_at {q : Dict Str Tree} {n : Str} {ss : List Str} (h : Spec.Service.Texts q n ss) : Spec.Refused.ListAt q n := by
  rcases h with h | ⟨h, -⟩
  · exact .inr ⟨_, h⟩
  · exact .inl h

/-- the document made of it holds what the scanners need -/
theorem sound {url : Str} (hset : Proofs.Uses12.Setting env str l s sq url) (hst : Styled (.dict sq)) (hpl : Spec.Pointed.Plain (.dict sq)) (ht : Kinds l) :
    Spec.Refused.Sound (.dict sq) url sq where
  labels k m q h := labelled hset.written k m q (C92.at_iff.2 h)
  lists k m q h := by
    obtain ⟨op, -, hop⟩ := written_found hset.written (C92.at_iff.2 h)
    exact ⟨list_at hop.produces, list_at hop.consumes, .inl (Proofs.Data12.missing hop.only (by decide))⟩
  schemes := list_at hset.written.schemes
  host := ⟨_, hset.written.host⟩
  basePath := ⟨_, hset.written.basePath⟩
  items ts q h := by
    cases hv : Dict.get? q c!"$ref" with
    | none => rfl
    | some v => exact absurd (hset.refs ts _ q v h (by decide) hv).1 (by decide)
  inPlace ts c q h hc := by
    refine .inl ?_
    cases hv : Dict.get? q c!"$ref" with
    | none => rfl
    | some v =>
      refine absurd (hset.refs ts _ q v h ?_ hv).1 ?_ <;> rcases hc with rfl | rfl <;> decide
  styled := hst
  parts := Proofs.Parts12.matching hset hpl ht

/-- the operations written are those declared -/
theorem operation_iff (h : Service12 env str l T s sq u R sch host) (hd : Distinct env l) {k m x : Str} :
    (∃ q, Spec.Refused.Operation sq k m q ∧ Spec.Index.Calls env.sep q x) ↔
      ∃ n op, Declared12 env l sch host n op k m ∧ x = n ++ env.sep ++ op.nickname := by
  constructor
  · rintro ⟨q, hq, hc⟩
    obtain ⟨n, op, hdec, hb⟩ := label_of h (C92.at_iff.2 hq)
    refine ⟨n, op, hdec, ?_⟩
    obtain ⟨r, p, hde, -⟩ := hdec
    cases hc with
    | alone lb i hl hi _ ht =>
      obtain ⟨e, -⟩ := C88.label_unique hl hb
      exact absurd (ht n (by rw [e]; rfl)) (hd.resources n r hde.1)
    | tagged lb t i hl hi _ ht _ =>
      obtain ⟨e1, e2⟩ := C88.label_unique hl hb
      rw [e1] at ht
      rw [e2] at hi
      cases ht
      cases hi
      rfl
  · rintro ⟨n, op, ⟨r, p, hde, ha⟩, rfl⟩
    obtain ⟨oq, -, a1, -, -, b1⟩ := op_at h ⟨⟨p, hde, ha⟩, hd.alone _ _ _ _ _ _ hde ha⟩
    exact ⟨oq, C92.at_iff.1 a1, .tagged _ n op.nickname b1 rfl (hd.nicknames _ _ _ _ hde) rfl (hd.resources n r hde.1)⟩

theorem clash_iff (h : Service12 env str l T s sq u R sch host) (hd : Distinct env l) :
    Spec.Refused.Clash env.sep sq ↔ Clash env l sch host := by
  constructor
  · rintro ⟨k, m, q, k', m', q', x, hne, h1, h2, c1, c2⟩
    obtain ⟨n, op, d1, e1⟩ := (operation_iff h hd).1 ⟨q, h1, c1⟩
    obtain ⟨n', op', d2, e2⟩ := (operation_iff h hd).1 ⟨q', h2, c2⟩
    exact ⟨n, op, k, m, n', op', k', m', d1, d2, hne, e1.symm.trans e2⟩
  · rintro ⟨n, op, k, m, n', op', k', m', d1, d2, hne, e⟩
    obtain ⟨q, h1, c1⟩ := (operation_iff h hd).2 ⟨n, op, d1, rfl⟩
    obtain ⟨q', h2, c2⟩ := (operation_iff h hd).2 ⟨n', op', d2, rfl⟩
    exact ⟨k, m, q, k', m', q', _, hne, h1, h2, c1, e ▸ c2⟩

/-! ## what is known of a document that was read -/

/-- where operations stand in an API declaration -/
theorem operations_in {o o' : Spec.Swagger12.Ob} {j t : Tree} (h : Spec.Swagger12.Within o j o' t) (ho : o' = .operation) :
    (o = .operation ∧ t = j) ∨ (o = .api ∧ ∃ d ops, j = .dict d ∧ Dict.get? d c!"operations" = some (.list ops) ∧ t ∈ ops) ∨
    o = .declaration ∧ ∃ d apis a ops, j = .dict d ∧ Dict.get? d c!"apis" = some (.list apis) ∧ .dict a ∈ apis ∧
      Dict.get? a c!"operations" = some (.list ops) ∧ t ∈ ops := by
  induction h with
  | here => exact .inl ⟨ho, rfl⟩
  | @one o d n o1 v o2 t hm _ _ ih =>
    exfalso
    rcases ih ho with ⟨rfl, -⟩ | ⟨rfl, -⟩ | ⟨rfl, -⟩ <;> cases o <;> simp [Spec.Swagger12.fields, Spec.Swagger12.plain, Spec.Swagger12.dataType] at hm
  | @byName o d n o1 e k v o2 t hm _ _ _ ih =>
    exfalso
    rcases ih ho with ⟨rfl, -⟩ | ⟨rfl, -⟩ | ⟨rfl, -⟩ <;> cases o <;> simp [Spec.Swagger12.fields, Spec.Swagger12.plain, Spec.Swagger12.dataType] at hm
  | @many o d n o1 l v o2 t hm hg hv hw ih =>
    right
    rcases ih ho with ⟨rfl, rfl⟩ | ⟨rfl, a, ops, rfl, h1, h2⟩ | ⟨rfl, -⟩ <;> cases o <;>
      simp [Spec.Swagger12.fields, Spec.Swagger12.plain, Spec.Swagger12.dataType] at hm
    · subst hm
      exact .inl ⟨rfl, d, l, rfl, hg, hv⟩
    · subst hm
      exact .inr ⟨rfl, d, l, a, ops, rfl, hg, hv, h1, h2⟩

/-- `consumes` is a list in all documents that are read -/
theorem consumes_ok (h : Spec.Listing12.ListingIn listing declarations l) {k : Str} {j : Tree} (hj : (k, j) ∈ declarations) : ConsumesOk j := by
  intro q v hw hv
  obtain ⟨e, -, -, d, rfl, hd⟩ := forall₂_left h.apis _ hj
  rcases operations_in hw rfl with ⟨h1, -⟩ | ⟨h1, -⟩ | ⟨-, d', apis, a, ops, h1, h2, h3, h4, h5⟩
  · cases h1
  · cases h1
  · cases h1
    obtain ⟨es, hes, -⟩ := hd.apis
    rcases hes with ⟨ts, e1, e2⟩ | ⟨e1, -⟩
    · rw [h2] at e1
      cases e1
      obtain ⟨x, -, qa, hst, os, hos, -⟩ := forall₂_left e2 _ h3
      rcases hst with hst | ⟨hst, -⟩
      · cases hst
        rcases hos with ⟨ts, e1, e2⟩ | ⟨e1, -⟩
        · rw [h4] at e1
          cases e1
          obtain ⟨y, -, qo, hst, ho⟩ := forall₂_left e2 _ h5
          rcases hst with hst | ⟨hst, -⟩
          · cases hst
            rcases ho.consumes with h | ⟨h | h, -⟩
            · rw [hv] at h
              exact .inr ⟨_, Option.some.inj h⟩
            · rw [hv] at h; cases h
            · rw [hv] at h
              exact .inl (Option.some.inj h)
          · cases hst
        · rw [h4] at e1
          rcases e1 with e | e | e | e <;> cases e
      · cases hst
    · rw [h2] at e1
      rcases e1 with e | e | e | e <;> cases e

/-- **C93, names that do not clash.** If the first character of the separator is in no name of a resource, then no two operations have
the same name. -/
theorem C93_apart (h : Upgrades env str listing declarations l T) {c : Char} {rest : Str} (hsep : env.sep = c :: rest)
    (hn : ∀ n r, (n, r) ∈ l.apis → c ∉ n) : ¬ Clash env l sch host := by
  rintro ⟨n, op, q, m, n', op', q', m', ⟨r, p, ⟨hr, k, hk⟩, ha⟩, ⟨r', p', ⟨hr', k', hk'⟩, ha'⟩, hne, he⟩
  have cut : ∀ (a b x y : Str), c ∉ a → c ∉ b → a ++ (c :: rest) ++ x = b ++ (c :: rest) ++ y → a = b ∧ x = y := by
    intro a
    induction a with
    | nil =>
      intro b x y _ hb e
      cases b with
      | nil => simpa using e
      | cons d b =>
        simp only [List.nil_append, List.cons_append, List.cons.injEq] at e
        exact absurd (by rw [e.1]; simp) hb
    | cons d a ih =>
      intro b x y ha hb e
      cases b with
      | nil =>
        simp only [List.nil_append, List.cons_append, List.cons.injEq] at e
        exact absurd (by rw [e.1]; simp) ha
      | cons d' b =>
        simp only [List.cons_append, List.cons.injEq] at e
        obtain ⟨e1, e2⟩ := ih b x y (fun h => ha (by simp [h])) (fun h => hb (by simp [h])) e.2
        exact ⟨by rw [e.1, e1], e2⟩
  rw [hsep] at he
  obtain ⟨rfl, e⟩ := cut _ _ _ _ (hn _ _ hr) (hn _ _ hr') he
  have hin := Proofs.Listing12.read_in h.read
  have hnod : (declarations.map Prod.fst).Nodup := by
    have := h.plains
    rw [Spec.Pointed.Plain] at this
    exact this.1
  have hkeys : l.apis.map Prod.fst = declarations.map Prod.fst := Proofs.Listing12.forall₂_keys hin.apis
  rw [← hkeys] at hnod
  have hrr : r = r' := by
    have h1 := Dict.get?_of_mem (d := l.apis) hnod hr
    rw [Dict.get?_of_mem (d := l.apis) hnod hr'] at h1
    exact (Option.some.inj h1).symm
  subst hrr
  obtain ⟨x, -, -, d, -, hd⟩ := forall₂_right hin.apis _ hr
  have nick : ∀ k p op, (k, p, op) ∈ r.apis → k = op.nickname := by
    intro k p op hm
    obtain ⟨es, hes, e⟩ := hd.apis
    rw [e] at hm
    obtain ⟨y, hy, hm⟩ := List.mem_flatten.1 hm
    rcases hes with ⟨ts, -, e2⟩ | ⟨-, rfl⟩
    · obtain ⟨t, -, qa, -, os, -, hos⟩ := forall₂_right e2 _ hy
      obtain ⟨z, -, e1, -, e3⟩ := forall₂_right hos _ hm
      dsimp only at e1 e3
      rw [e1, e3]
    · cases hy
  have h1 := Dict.get?_of_mem hd.nicknames hk
  have h2 := Dict.get?_of_mem hd.nicknames hk'
  rw [nick _ _ _ hk] at h1
  rw [nick _ _ _ hk', ← e, h1] at h2
  cases h2
  obtain ⟨b, x, y, hb, hx, e1, hy, e2⟩ := ha
  obtain ⟨b', x', y', hb', hx', e1', hy', e2'⟩ := ha'
  rw [hb] at hb'
  rw [hx] at hx'
  rw [hy] at hy'
  cases hb'
  cases hx'
  cases hy'
  exact hne (by rw [Prod.mk.injEq]; exact ⟨List.append_cancel_left (e1.trans e1'.symm), e2.trans e2'.symm⟩)

/-! ## making an application -/

/-- **C93, documents that cannot be converted.** What the converter raises is what `App.create` raises. -/
theorem C93_upgrade [LinearOrder Str] (hr : _root_.Upgraded.read listing declarations = some l) {e : Exc} (hu : upgrade env str l = .error e)
    (texts : Tree → Str) (url : Str) (order : List Atom → List Atom) (fuel : Nat) (strict : Bool) :
    create12 env str texts o url listing declarations order fuel strict = some (.error e) := by
  simp only [_root_.Upgraded.read, Option.bind_eq_bind, Option.bind_eq_some_iff] at hr
  obtain ⟨rs, h1, raw, h2, h3⟩ := hr
  simp only [create12, Option.bind_eq_bind, h1, h2, h3, Option.bind_some, hu]

/-- **C93.** What becomes of a document of Swagger 1.2: which exception, or which tables of operations and of models. -/
theorem C93_create [LinearOrder Str] (h : Upgrades env str listing declarations l T) (hs : OnSite env l sch host) (hd : Distinct env l)
    (ht : Kinds l) (hu : Canon u) (hf : u.fragment = []) (texts : Tree → Str)
    (order : List Atom → List Atom) :
    ∃ raw f0, ReadFrom listing declarations raw ∧ ∀ fuel ≥ f0, ∀ strict : Bool, ∀ r,
      r = create12 env str texts o (urlunparse u) listing declarations order fuel strict →
      (UnknownAuth className raw ∨ FileUnconsumed className raw →
        r = some (.error .KeyError) ∧ UnknownAuth className raw ∨ r = some (.error .TypeError) ∧ FileUnconsumed className raw) ∧
      (¬ UnknownAuth className raw → ¬ FileUnconsumed className raw →
        (strict = true → Invalid texts raw → r = some (.error .ValidationError)) ∧
        (¬ (strict = true ∧ Invalid texts raw) → Clash env l sch host → r = some (.error .SchemaError)) ∧
        (¬ Invalid texts raw → ¬ Clash env l sch host → strict = true → Circular env l → r = some (.error .CycleDetectionError)) ∧
        (¬ (strict = true ∧ (Invalid texts raw ∨ Circular env l)) → ¬ Clash env l sch host → ∃ op m, r = some (.ok (op, m)) ∧
          Dict.WF op ∧
          (∀ x i, Dict.get? op x = some i ↔ ∃ n a k v, Declared12 env l sch host n a k v ∧ x = n ++ env.sep ++ a.nickname ∧
            i = o.num [c!"paths", k, v]) ∧
          (∀ n md i, Has l n md → md.id = some i → i ≠ [] →
            ScopeDict.getitem env.sep m (.tuple [some n, some i]) = .ok (o.num [c!"definitions", n ++ env.sep ++ i])) ∧
          ∀ key j, ScopeDict.getitem env.sep m key = .ok j → ∃ n md x, Has l n md ∧
            (x = keyOf env n md ∨ ∃ t ∈ md.subTypes, x = qualified env.sep n t) ∧ j = o.num [c!"definitions", x])) := by
  have hread := h.read
  simp only [_root_.Upgraded.read, Option.bind_eq_bind, Option.bind_eq_some_iff] at hread
  obtain ⟨rs, h1, raw, h2, h3⟩ := hread
  obtain ⟨s, sq, g1, g2, g3, g4, g5, g6⟩ := document h
  obtain ⟨R, hl⟩ := g6 u hu hf
  have hsv : Service12 env str l T s sq u R sch host := ⟨hl, g4, h.closed, g1, g3, hs⟩
  have hset : Proofs.Uses12.Setting env str l s sq (urlunparse u) :=
    ⟨(Proofs.Placed.url_facts hu hf).2, h.closed, g1, g3, hd.models, g5⟩
  obtain ⟨f0, hp⟩ := C92.prepared (o := o) hl rfl (sound hset g4 hl.self.plain ht) order env.sep
  have hraw : ReadFrom listing declarations raw := ⟨rs, Proofs.Listing12.eachOf_iff h1, h2⟩
  have hplains : ∀ k j, (k, j) ∈ declarations → Spec.Pointed.Plain j ∧ ConsumesOk j := fun k j hm => by
    have := h.plains
    rw [Spec.Pointed.Plain] at this
    exact ⟨Proofs.Placed.plainDict_iff.1 this.2 _ hm, consumes_ok (Proofs.Listing12.read_in h.read) hm⟩
  have hnod : (declarations.map Prod.fst).Nodup := by
    have := h.plains
    rw [Spec.Pointed.Plain] at this
    exact this.1
  have S := C60.C60_shaped h.plain hplains hnod hraw
  refine ⟨raw, f0, hraw, fun fuel hfuel strict r hr => ?_⟩
  have hc : r = prepare o (urlunparse u) R ((Validate12.validate texts raw strict).map fun _ => ()) order fuel env.sep strict := by
    rw [hr]
    simp only [create12, Option.bind_eq_bind, h1, h2, h3, Option.bind_some, g1]
    rw [← g2, hl.normalized]
    rfl
  obtain ⟨p1, p2, p3, p4⟩ := hp fuel hfuel strict ((Validate12.validate texts raw strict).map fun _ => ())
  rw [← hc] at p1 p2 p3 p4
  constructor
  · intro hbad
    obtain ⟨e, he⟩ := (C60.C60_raises (str := texts) S).2 hbad
    have hv : Validate12.validate texts raw strict = .error e := by unfold Validate12.validate; rw [he]
    have := p1 e (by rw [hv]; rfl)
    rcases C60.C60_exception S he with ⟨rfl, h⟩ | ⟨rfl, h⟩
    · exact .inl ⟨this, h⟩
    · exact .inr ⟨this, h⟩
  · intro hn1 hn2
    obtain ⟨errs, he, -, hmem⟩ := C60.C60_errors (str := texts) S hn1 hn2
    have hv := C60.C60_strict strict errs he
    have hinv : errs ≠ [] ↔ Invalid texts raw := by
      constructor
      · intro hne
        obtain ⟨x, hx⟩ := List.exists_mem_of_ne_nil _ hne
        obtain ⟨ts, c, fs, m, a, b, -⟩ := (hmem x).1 hx
        exact ⟨ts, c, fs, m, a, b⟩
      · rintro ⟨ts, c, fs, m, a, b⟩ e
        have := (hmem _).2 ⟨ts, c, fs, m, a, b, rfl⟩
        rw [e] at this
        cases this
    have hok : ¬ (strict = true ∧ Invalid texts raw) → (Validate12.validate texts raw strict).map (fun _ => ()) = .ok () := by
      intro hno
      rw [hv, if_neg fun hh => hno ⟨hh.1, hinv.1 hh.2⟩]
      rfl
    refine ⟨fun q1 q2 => p1 _ (by rw [hv, if_pos ⟨q1, hinv.2 q2⟩]; rfl), fun q1 q2 => p2 (hok q1) ((clash_iff hsv hd).2 q2),
      fun q1 q2 q3 q4 => ?_, fun q1 q2 => ?_⟩
    · exact p3 (hok fun hh => q1 hh.2) (fun hh => q2 ((clash_iff hsv hd).1 hh)) q3 ((Proofs.Uses12.circular_iff hset).2 q4)
    · obtain ⟨op, m, e, hwf, hop, hm1, hm2⟩ := p4 (hok fun hh => q1 ⟨hh.1, .inl hh.2⟩) (fun hh => q2 ((clash_iff hsv hd).1 hh))
        fun hh => q1 ⟨hh.1, .inr ((Proofs.Uses12.circular_iff hset).1 hh.2)⟩
      refine ⟨op, m, e, hwf, fun x i => ?_, fun n md i hmd hid hi => ?_, fun key j hj => ?_⟩
      · rw [hop]
        constructor
        · rintro ⟨k, v, q, a, b, rfl⟩
          obtain ⟨n, op', d, e⟩ := (operation_iff hsv hd).1 ⟨q, a, b⟩
          exact ⟨n, op', k, v, d, e, rfl⟩
        · rintro ⟨n, op', k, v, d, e, rfl⟩
          obtain ⟨q, a, b⟩ := (operation_iff hsv hd).2 ⟨n, op', d, e⟩
          exact ⟨k, v, q, a, b, rfl⟩
      · obtain ⟨ds, q, d, a, b, -⟩ := C87_models g1 g3 hmd fun n' m' => hd.models n md n' m' hmd
        have hn : n ≠ [] := by obtain ⟨r, k, hn, -⟩ := hmd; exact hd.resources n r hn
        have hpl : rfcEscape n = n := by obtain ⟨r, k, hn, -⟩ := hmd; exact escape_plain (h.closed.resources n r hn)
        have hname : name env n md = n ++ env.sep ++ i := by
          unfold name keyOf qualified
          rw [hid, hpl]
          simp only [hn, hi, if_false]
        have := hm1 _ q (Proofs.Uses12.definition_written a b)
        have ht := C05.C05_tuple env.sep m n [i] hn (by simpa using hi)
        simp only [List.map_cons, List.map_nil, join] at ht
        rw [ht, ← hname]
        exact this
      · obtain ⟨n, q, ⟨k', hk', hpl⟩, e⟩ := hm2 key j hj
        obtain ⟨ds, v, a, b, -⟩ := Proofs.Uses12.place_definition hpl
        obtain ⟨_, d, -, hd', -⟩ := under_back g3.definitions a b
        obtain ⟨n', md, hmd, hx⟩ := (C56_definitions g1 n).1 ⟨d, hd'⟩
        have hesc : rfcEscape n' = n' := by obtain ⟨r, k, hn, -⟩ := hmd; exact escape_plain (h.closed.resources n' r hn)
        unfold name at hx
        rw [hesc] at hx
        exact ⟨n', md, n, hmd, hx, e⟩

end Props.C93
