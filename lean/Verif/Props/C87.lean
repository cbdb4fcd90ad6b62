import Verif.Proofs.Closed12
import Verif.Proofs.Document20
import Verif.Props.C86
/-!
# C87: a 1.2 document is served as the 2.0 document that says the same
-/

namespace Props.C87
open Py Utils Tree _root_.Doc Upgrade Spec.Upgrade12 Spec.Listing12 Spec.Document20 Spec.Pointed Props.C55 Props.C56
open Proofs.Closed12 (Closed Refers Resolves Named Points)
open Proofs.Origin (Loads)
open Spec.Service (text Common Own)
open Spec (rfcEscape)

/-- the resource listing and the API declarations, JSON, are read as `l` and become the Swagger object `T`; they refer to
their own models only -/
structure Upgrades (env : Env) (str : Nat → Str) (listing : Dict Str Tree) (declarations : List (Str × Tree)) (l : ResourceList)
    (T : Tree) : Prop where
  plain : Spec.Pointed.Plain (.dict listing)
  plains : Spec.Pointed.Plain (.dict declarations)
  read : _root_.Upgraded.read listing declarations = some l
  loaded : _root_.Upgraded.load env str listing declarations = some T
  closed : Closed env l

variable {env : Env} {str : Nat → Str} {listing : Dict Str Tree} {declarations : List (Str × Tree)} {l : ResourceList}
  {T : Tree} {s : Swagger} {sq : Dict Str Tree}

/-- **C87, reading.** What is read is what the JSON says, and a document is loaded exactly when it is read and can be
upgraded. -/
theorem C87_reads (h : _root_.Upgraded.read listing declarations = some l) :
    ListingIn listing declarations l ∧
    ((∃ T, _root_.Upgraded.load env str listing declarations = some T) ↔ ∃ s, upgrade env str l = .ok s) := by
  refine ⟨Proofs.Listing12.read_in h, ?_, ?_⟩
  · rintro ⟨T, hT⟩
    obtain ⟨l', s, h1, h2, -⟩ := Proofs.Listing12.load_reads hT
    rw [h] at h1
    cases h1
    exact ⟨s, h2⟩
  · rintro ⟨s, hs⟩
    refine ⟨_root_.Upgraded.tree s, ?_⟩
    simp only [_root_.Upgraded.load, h, Option.bind_eq_bind, Option.bind_some, hs]

theorem under_get {α : Type} {R : Dict Str Tree → α → Prop} {q : Dict Str Tree} {n : Str} {d : Dict Str α} (h : Under R q n d) {k : Str} {a : α}
    (hk : Dict.get? d k = some a) : ∃ ts dq, Dict.get? q n = some (.dict ts) ∧ Dict.get? ts k = some (.dict dq) ∧ R dq a := by
  obtain ⟨ts, h1, h2⟩ := h
  have hne : Dict.get? q n = some (.dict ts) := by
    cases hq : Dict.get? q n with
    | some t => rw [hq] at h1; rw [← h1]; rfl
    | none =>
      rw [hq] at h1
      cases h1
      cases h2
      cases hk
  suffices h : ∃ dq, Dict.get? ts k = some (.dict dq) ∧ R dq a by obtain ⟨dq, h⟩ := h; exact ⟨ts, dq, hne, h⟩
  clear hne h1
  induction h2 with
  | nil => cases hk
  | @cons t e ts d h _ ih =>
    obtain ⟨tn, tv⟩ := t
    obtain ⟨en, ev⟩ := e
    obtain ⟨rfl, dq, rfl, hr⟩ := h
    rw [Dict.get?] at hk ⊢
    split at hk
    · rename_i e
      dsimp only at e
      cases hk
      exact ⟨dq, by rw [if_pos e], hr⟩
    · rename_i e
      dsimp only at e
      rw [if_neg e]
      exact ih hk

theorem under_back {α : Type} {R : Dict Str Tree → α → Prop} {q : Dict Str Tree} {n : Str} {d : Dict Str α} (h : Under R q n d) {k : Str}
    {ts : Dict Str Tree} {t : Tree} (hq : Dict.get? q n = some (.dict ts)) (hk : Dict.get? ts k = some t) :
    ∃ dq a, t = .dict dq ∧ Dict.get? d k = some a ∧ R dq a := by
  obtain ⟨ts', h1, h2⟩ := h
  rw [hq] at h1
  cases h1
  clear hq
  induction h2 with
  | nil => cases hk
  | @cons t' e ts d h _ ih =>
    obtain ⟨tn, tv⟩ := t'
    obtain ⟨en, ev⟩ := e
    obtain ⟨e1, dq, e2, hr⟩ := h
    dsimp only at e1 e2 hr
    subst e1 e2
    rw [Dict.get?] at hk ⊢
    split at hk
    · rename_i e
      cases hk
      exact ⟨dq, ev, rfl, by rw [if_pos e], hr⟩
    · rename_i e
      rw [if_neg e]
      exact ih hk

/-- the references in the document are those of schemas, to definitions -/
def RefsOf (D : Tree) (s : Swagger) : Prop := ∀ ts c q v, Written D ts c q → Dict.get? (v20 c).fields c!"$ref" ≠ none →
  Dict.get? q c!"$ref" = some v → c = cSchema ∧ ∃ r, v = text r ∧ Points s r

theorem document (h : Upgrades env str listing declarations l T) :
    ∃ s sq, upgrade env str l = .ok s ∧ T = _root_.Upgraded.tree s ∧ DocumentIn sq s ∧ Styled (.dict sq) ∧ RefsOf (.dict sq) s ∧
      ∀ p, Canon p → p.fragment = [] → ∃ R, Loads (.dict sq) p T R := by
  obtain ⟨l', s, h1, hu, rfl⟩ := Proofs.Listing12.load_reads h.loaded
  rw [h.read] at h1
  cases h1
  have hpl := Proofs.Closed12.list_plain h.plain h.plains (Proofs.Listing12.read_in h.read)
  have hok := Proofs.Closed12.document_ok hu h.closed hpl
  have hform := Proofs.Upgraded.tree_formed hok
  obtain ⟨sq, hb, hin⟩ := Proofs.Document20.document_in hok
  refine ⟨s, sq, hu, rfl, hin, hb ▸ Proofs.Bare.styled hform, fun ts c q v hw => ?_, fun p hp hf => ?_⟩
  · rw [← hb] at hw
    exact Proofs.Bare.refs_of hform hw
  have hself : SelfContained (.dict sq) (urlunparse p) := by
    rw [← hb]
    refine Proofs.Bare.selfContained hform ?_
    rintro r ⟨key, rfl, hk⟩
    obtain ⟨d, hd⟩ := Option.isSome_iff_exists.1 ((Dict.get?_isSome_iff _ _).2 hk)
    obtain ⟨ts, dq, h1, h2, -⟩ := under_get hin.definitions hd
    refine ⟨[c!"definitions", key], dq, ⟨by simp, .inl rfl⟩, .one cSchema, .inl rfl, ?_⟩
    rw [hb]
    exact .field (.inl rfl) h1 (by decide : _ = some (.dict cSchema)) (.key h2 .here)
  have hread : parse v20 cSwagger (.dict sq) = some (_root_.Upgraded.tree s) := by
    rw [← hb]; exact Proofs.Bare.parse_bare _ _ hform
  exact ⟨_, hp, hf, hself, hread, Proofs.Loaded.normalize_eq (Proofs.Placed.url_facts hp hf).2.2 _
    (Proofs.Origin.filled_good hself hread)⟩

/-- **C87, the document.** There is a document of Swagger 2.0, in JSON, that says what the records say (and no more), and
loading it from any URL gives the same objects: everything proved about 2.0 documents (C82 to C86) holds of it. -/
theorem C87_document (h : Upgrades env str listing declarations l T) :
    ∃ s sq, upgrade env str l = .ok s ∧ DocumentIn sq s ∧ Styled (.dict sq) ∧
      ∀ p, Canon p → p.fragment = [] → ∃ R, Loads (.dict sq) p T R := by
  obtain ⟨s, sq, h1, -, h2, h3, -, h4⟩ := document h
  exact ⟨s, sq, h1, h2, h3, h4⟩

/-! ## operations -/

/-- what is found was declared, at the URL with this beginning -/
theorem found_of (h : upgrade env str l = .ok s) {pre : Str}
    (hcut : ∀ s1, finish s1 = .ok s → s1.host = [] → Dict.WF s1.paths →
      (∀ k ∈ Dict.keys s1.paths, ∃ n r p op m, Declares l n r p op ∧ At env.lower r p op k m) →
      ∀ q m, lookup s.paths q m = lookup s1.paths (pre ++ q) m)
    {q m : Str} {o : Op20} (ho : Found s q m o) :
    ∃ n r p op, Declares l n r p op ∧ At env.lower r p op (pre ++ q) m ∧ OpOf env (rfcEscape n) r op o := by
  obtain ⟨s1, made, hf, hh, -, hp, hm⟩ := Props.C55.scanned h
  have hesc : jp_escape = rfcEscape := funext Proofs.JsonPointer.jp_escape_eq
  have hwf : Dict.WF s1.paths := by rw [hp]; exact wf_foldl_put made Dict.WF_nil
  have hl := (found_iff s q m o).1 ho
  rw [hcut s1 hf hh hwf ?_, hp] at hl
  · rcases lookup_foldl made [] _ m o hl with hmem | hnil
    · obtain ⟨⟨n, r, p, op⟩, hx, hmade⟩ := Props.C55.forall₂_right hm _ hmem
      rw [hesc] at hmade
      exact ⟨n, r, p, op, (mem_opsOf l n r p op).1 hx, made_at hmade, made_opOf hmade⟩
    · simp [lookup, Dict.get?] at hnil
  · intro k hk
    rw [hp] at hk
    exact keys_at hm hk

/-- all operations are on one site -/
def OnSite (env : Env) (l : ResourceList) (sch host : Str) : Prop :=
  Site sch host ∧ ∀ n r p op url m, Declares l n r p op → At env.lower r p op url m → ∃ q, url = sch ++ c!"://" ++ host ++ q ∧ Rooted q

/-- all operations are given by paths -/
def OffSite (env : Env) (l : ResourceList) : Prop :=
  ∀ n r p op url m, Declares l n r p op → At env.lower r p op url m → Relative url

/-- no other operation is declared at the URL with the method -/
def Alone (env : Env) (l : ResourceList) (n : Str) (r : Resource) (op : Operation) (url m : Str) : Prop :=
  ∀ n' r' p' op', Declares l n' r' p' op' → At env.lower r' p' op' url m → n' = n ∧ r' = r ∧ op' = op

theorem some_paths {s1 : Swagger} (hf : finish s1 = .ok s) {q m : Str} {o : Op20} (ho : Found s q m o) : s1.paths ≠ [] := by
  intro hne
  obtain ⟨item, hi, -⟩ := ho
  obtain ⟨-, hc⟩ := finish_ok hf
  obtain ⟨k0, hk0, -⟩ := hc _ item hi
  rw [hne] at hk0
  cases hk0

theorem found_site (h : upgrade env str l = .ok s) {sch host : Str} (hs : OnSite env l sch host) {q m : Str} {o : Op20} (ho : Found s q m o) :
    ∃ n r p op, Declares l n r p op ∧ At env.lower r p op (sch ++ c!"://" ++ host ++ q) m ∧ OpOf env (rfcEscape n) r op o := by
  refine found_of h ?_ ho
  intro s1 hf _ hwf hk q m
  have hkeys : ∀ k ∈ Dict.keys s1.paths, ∃ q, k = sch ++ c!"://" ++ host ++ q ∧ Rooted q := by
    intro k hk'
    obtain ⟨n, r, p, op, m, hd, ha⟩ := hk k hk'
    exact hs.2 n r p op k m hd ha
  have hne := some_paths hf ho
  rw [finish_site hs.1 s1 hne hkeys] at hf
  simp only [Except.ok.injEq] at hf
  unfold lookup
  rw [← hf]
  dsimp only
  rw [get?_cutPaths hwf (fun k hk => by obtain ⟨q, rfl, -⟩ := hkeys k hk; exact List.prefix_append _ _)]

theorem found_relative (h : upgrade env str l = .ok s) (hs : OffSite env l) {q m : Str} {o : Op20} (ho : Found s q m o) :
    ∃ n r p op, Declares l n r p op ∧ At env.lower r p op q m ∧ OpOf env (rfcEscape n) r op o := by
  refine found_of (pre := []) h ?_ ho
  intro s1 hf hh hwf hk q m
  have hkeys : ∀ k ∈ Dict.keys s1.paths, Relative k := by
    intro k hk'
    obtain ⟨n, r, p, op, m, hd, ha⟩ := hk k hk'
    exact hs n r p op k m hd ha
  obtain ⟨s', hs', -, hget, -⟩ := finish_relative s1 (some_paths hf ho) hwf hh hkeys
  rw [hf] at hs'
  cases hs'
  unfold lookup
  rw [hget, List.nil_append]

/-- an operation found in the records is written in the document, and the other way round -/
theorem found_written (hin : DocumentIn sq s) {q m : Str} (hm : m ∈ Proofs.Upgraded.verbs) {o : Op20} (ho : Found s q m o) :
    ∃ oq, C86.At sq q m oq ∧ OperationIn oq o := by
  obtain ⟨item, hi, hmo⟩ := ho
  obtain ⟨ts, iq, h1, h2, h3⟩ := under_get hin.paths hi
  have := h3 m
  rw [hmo] at this
  obtain ⟨oq, h4, h5⟩ := this
  exact ⟨oq, ⟨hm, ts, iq, h1, h2, h4⟩, h5⟩

theorem written_found (hin : DocumentIn sq s) {q m : Str} {oq : Dict Str Tree} (h : C86.At sq q m oq) : ∃ o, Found s q m o ∧ OperationIn oq o := by
  obtain ⟨-, ts, iq, h1, h2, h3⟩ := h
  obtain ⟨iq', item, e, hi, h4⟩ := under_back hin.paths h1 h2
  cases e
  have := h4 m
  cases hmo : Dict.get? item m with
  | none => rw [hmo] at this; rw [show Dict.get? iq m = none from this] at h3; cases h3
  | some o =>
    rw [hmo] at this
    obtain ⟨oq', h5, h6⟩ := this
    rw [h3] at h5
    cases h5
    exact ⟨o, ⟨item, hi, hmo⟩, h6⟩

/-- **C87, operations.** Of a service on one site, the document writes every declared operation under the rest of its URL
and its method: tags, media types, parameters, responses and security are what the declaration says. -/
theorem C87_operation (hc : Closed env l) (hu : upgrade env str l = .ok s) (hin : DocumentIn sq s) {sch host : Str} (hs : OnSite env l sch host)
    {n : Str} {r : Resource} {p : Option Str} {op : Operation} {q m : Str} (hd : Declares l n r p op)
    (ha : At env.lower r p op (sch ++ c!"://" ++ host ++ q) m) (hone : Alone env l n r op (sch ++ c!"://" ++ host ++ q) m) :
    ∃ oq o, C86.At sq q m oq ∧ OperationIn oq o ∧ OpOf env (rfcEscape n) r op o := by
  obtain ⟨o, ho⟩ := (C55_site hu hs.1 ⟨n, r, p, op, hd⟩ hs.2).2.1 n r p op q m hd ha
  obtain ⟨n', r', p', op', hd', ha', hop⟩ := found_site hu hs ho
  obtain ⟨rfl, rfl, rfl⟩ := hone n' r' p' op' hd' ha'
  obtain ⟨oq, h1, h2⟩ := found_written hin (hc.methods _ _ _ _ _ _ hd ha) ho
  exact ⟨oq, o, h1, h2, hop⟩

/-- **C87, no other operations.** -/
theorem C87_only (hu : upgrade env str l = .ok s) (hin : DocumentIn sq s) {sch host : Str} (hs : OnSite env l sch host) {q m : Str}
    {oq : Dict Str Tree} (h : C86.At sq q m oq) :
    ∃ n r p op o, Declares l n r p op ∧ At env.lower r p op (sch ++ c!"://" ++ host ++ q) m ∧ OperationIn oq o ∧ OpOf env (rfcEscape n) r op o := by
  obtain ⟨o, ho, hoq⟩ := written_found hin h
  obtain ⟨n, r, p, op, h1, h2, h3⟩ := found_site hu hs ho
  exact ⟨n, r, p, op, o, h1, h2, hoq, h3⟩

/-- **C87, operations** given by paths. -/
theorem C87_operation_relative (hc : Closed env l) (hu : upgrade env str l = .ok s) (hin : DocumentIn sq s) (hs : OffSite env l)
    {n : Str} {r : Resource} {p : Option Str} {op : Operation} {q m : Str} (hd : Declares l n r p op)
    (ha : At env.lower r p op q m) (hone : Alone env l n r op q m) :
    ∃ oq o, C86.At sq q m oq ∧ OperationIn oq o ∧ OpOf env (rfcEscape n) r op o := by
  obtain ⟨o, ho⟩ := (C55_relative hu ⟨n, r, p, op, hd⟩ hs).2.1 n r p op q m hd ha
  obtain ⟨n', r', p', op', hd', ha', hop⟩ := found_relative hu hs ho
  obtain ⟨rfl, rfl, rfl⟩ := hone n' r' p' op' hd' ha'
  obtain ⟨oq, h1, h2⟩ := found_written hin (hc.methods _ _ _ _ _ _ hd ha) ho
  exact ⟨oq, o, h1, h2, hop⟩

/-! ## requests -/

/-- the scopes required are texts -/
def Scoped (sec : List (Str × List Val)) (reqs : List (Dict Str (List Str))) : Prop :=
  List.Forall₂ (fun e d => ∃ ss, d = [(e.1, ss)] ∧ e.2 = ss.map Val.str) sec reqs

theorem values_texts {vs : List Tree} {ss : List Str} (hp : PlainList vs) (h : Spec.Described.Values vs (ss.map Val.str)) :
    vs = ss.map text := by
  rw [← Proofs.Closed12.ofVals_value vs _ hp h, Proofs.Upgraded.ofVals_eq, List.map_map]
  rfl

/-- what the document says for the service and for the operation -/
theorem says_in (hu : upgrade env str l = .ok s) (hin : DocumentIn sq s) :
    (⟨some s.host, some [], [c!"http", c!"https"], [], [], some []⟩ : Common).In sq := by
  obtain ⟨i, s0, s1, made, -, -, -, -, -, -, -, -, -, hsch⟩ := Props.C56.scanned hu
  have hnone : ∀ n, n ∉ [c!"info", c!"swagger", c!"schemes", c!"host", c!"basePath", c!"tags", c!"definitions", c!"parameters",
    c!"responses", c!"paths", c!"security", c!"securityDefinitions"] → Dict.get? sq n = none := fun n hn =>
    Classical.byContradiction fun h => hn (hin.only n h)
  refine ⟨hin.host, hin.basePath, hsch ▸ hin.schemes, .inr ⟨hnone _ (by decide), rfl⟩, .inr ⟨hnone _ (by decide), rfl⟩, hin.security⟩

theorem own_in {q : Dict Str Tree} {o : Op20} (hq : Spec.Pointed.Plain (.dict q)) (h : OperationIn q o)
    {reqs : List (Dict Str (List Str))} (hs : Scoped o.security reqs) : (⟨[], o.consumes, o.produces, some reqs⟩ : Own).In q := by
  refine ⟨.inr ⟨Classical.byContradiction fun hn => absurd (h.only _ hn) (by decide), rfl⟩, h.consumes, h.produces, ?_⟩
  obtain ⟨ts, h1, h2⟩ := h.security
  have hp := Proofs.Closed12.plain_get hq h1
  rw [Spec.Pointed.Plain] at hp
  replace hp := Proofs.Placed.plainList_iff.1 hp
  show Dict.get? q c!"security" = some (Spec.Service.requirements reqs)
  rw [h1]
  unfold Spec.Service.requirements
  clear h1
  have : ts = reqs.map fun d => .dict (d.map fun x => (x.1, .list (x.2.map text))) := by
    unfold Scoped at hs
    generalize o.security = sec at h2 hs
    induction h2 generalizing reqs with
    | nil => cases hs; rfl
    | cons ht _ ih =>
      cases hs with
      | cons hd hs =>
        obtain ⟨vs, rfl, hv⟩ := ht
        obtain ⟨ss, rfl, e⟩ := hd
        rw [e] at hv
        have hpv := hp _ (List.mem_cons_self ..)
        rw [Spec.Pointed.Plain, PlainDict, Spec.Pointed.Plain] at hpv
        rw [values_texts hpv.2.1 hv, ih (fun t ht => hp t (List.mem_cons_of_mem _ ht)) hs]
        rfl
  rw [this]

/-- the scopes an operation requires are texts if those of its authorisations are -/
theorem scoped_of {r : Resource} {op : Operation} {sec : List (Str × List Val)} (hop : SecurityOf r op sec)
    (htexts : ∀ e ∈ op.authorizations, ∀ v ∈ e.2, ∃ x, v = Val.str x) : ∃ reqs, Scoped sec reqs := by
  have : ∀ e ∈ sec, ∀ v ∈ e.2, ∃ x, v = Val.str x := by
    intro e he v hv
    cases hop with
    | own _ => exact htexts e he v hv
    | inherited _ hn => rw [hn e he] at hv; cases hv
  unfold Scoped
  clear hop
  induction sec with
  | nil => exact ⟨[], .nil⟩
  | cons e sec ih =>
    obtain ⟨reqs, h⟩ := ih fun e he => this e (List.mem_cons_of_mem _ he)
    obtain ⟨ss, hss⟩ : ∃ ss : List Str, e.2 = ss.map Val.str := by
      have := this e (by simp)
      generalize e.2 = vs at this
      induction vs with
      | nil => exact ⟨[], rfl⟩
      | cons v vs ih =>
        obtain ⟨x, rfl⟩ := this v (by simp)
        obtain ⟨ss, rfl⟩ := ih fun v hv => this v (List.mem_cons_of_mem _ hv)
        exact ⟨x :: ss, rfl⟩
    exact ⟨[(e.1, ss)] :: reqs, .cons ⟨ss, rfl, hss⟩ h⟩

/-- the operation a request is made for, as declared -/
structure Serves {δ : Type} (r : Resource) (op : Operation) (host q m : Str) (x : Io.Op δ) : Prop where
  method : x.method = m
  path : x.path = q
  url : x.url = c!"//" ++ host ++ q
  consumes : OwnOr op.consumes r.consumes x.consumes
  produces : OwnOr op.produces r.produces x.produces
  schemes : x.schemes = [c!"http", c!"https"]
  security : ∃ sec reqs, SecurityOf r op sec ∧ Scoped sec reqs ∧ x.security = some reqs

/-- **C87, requests.** A request for a declared operation goes to its URL with its method; its media types and security
are those of the operation, else those of the resource. -/
theorem C87_request {u : Py.Url} {R : Tree} (hl : Loads (.dict sq) u T R) (hc : Closed env l) (hu : upgrade env str l = .ok s)
    (hin : DocumentIn sq s) {sch host : Str} (hs : OnSite env l sch host)
    {n : Str} {r : Resource} {p : Option Str} {op : Operation} {q m : Str} (hd : Declares l n r p op)
    (ha : At env.lower r p op (sch ++ c!"://" ++ host ++ q) m) (hone : Alone env l n r op (sch ++ c!"://" ++ host ++ q) m)
    (htexts : ∀ e ∈ op.authorizations, ∀ v ∈ e.2, ∃ x, v = Val.str x) (deref : Nat → Except Exc Nat) (ps : List Call.Decl) :
    ∃ x, _root_.Service.operation (urlunparse u) R [c!"paths", q] m deref ps = some x ∧ Serves r op host q m x := by
  obtain ⟨oq, o, hat, ho, hop⟩ := C87_operation hc hu hin hs hd ha hone
  have hhost := (C55_site hu hs.1 ⟨n, r, p, op, hd⟩ hs.2).1
  have hroot : Rooted q := by
    obtain ⟨q', e, hq⟩ := hs.2 n r p op _ m hd ha
    rw [List.append_cancel_left e]; exact hq
  obtain ⟨reqs, hreqs⟩ := scoped_of hop.security htexts
  have hplain : Spec.Pointed.Plain (.dict oq) := by
    obtain ⟨-, ts, iq, h1, h2, h3⟩ := hat
    exact Proofs.Closed12.plain_get (Proofs.Closed12.plain_get (Proofs.Closed12.plain_get hl.self.plain h1) h2) h3
  obtain ⟨x, hx, hsays, -⟩ := C86.C86_operation hl rfl (says_in hu hin) hat (own_in hplain ho hreqs) deref ps
  have hor : ∀ a b : List Str, C51.orElse a [] = b → b = a := by intro a b h; subst h; cases a <;> rfl
  refine ⟨x, hx, hsays.method, hsays.path, ?_, ?_, ?_, hsays.schemes, o.security, reqs, hop.security, hreqs, hsays.security⟩
  · obtain ⟨h, hh, e⟩ := hsays.url
    dsimp only at hh e
    rw [hhost] at hh
    rw [e, host_own hs.1.host_ne hh, Option.getD_some, List.nil_append, rooted_eq hroot]
  · rw [hor o.consumes x.consumes hsays.consumes.symm]; exact hop.consumes
  · rw [hor o.produces x.produces hsays.produces.symm]; exact hop.produces

/-! ## credentials and models -/

/-- **C87, credentials.** The document defines a security scheme of the same kind for every authorisation. -/
theorem C87_credentials (hp : Spec.Pointed.Plain (.dict sq)) (hu : upgrade env str l = .ok s) (hin : DocumentIn sq s)
    (hw : (Dict.keys l.authorizations).Nodup) {n : Str} {a : Auth} (ha : (n, a) ∈ l.authorizations) :
    (a.type = some c!"basicAuth" → C86.Defined sq (rfcEscape n) .basic) ∧
    (a.type = some c!"oauth2" → C86.Defined sq (rfcEscape n) .oauth2) ∧
    ∀ k b, a.type = some c!"apiKey" → a.keyname = .str k → a.passAs = .str (if b = true then c!"header" else c!"query") →
      C86.Defined sq (rfcEscape n) (.key b k) := by
  obtain ⟨sch, hg, hof, -⟩ := C56_schemes hu hw ha
  obtain ⟨ts, dq, h1, h2, h3⟩ := under_get hin.securityDefinitions hg
  have hq : Proofs.Closed12.PlainQ dq := Proofs.Closed12.plain_get (Proofs.Closed12.plain_get hp h1) h2
  have value : ∀ {k x}, Value dq k (.str x) → Dict.get? dq k = some (text x) := by
    intro k x h
    unfold Value under at h
    cases hk : Dict.get? dq k with
    | none =>
      rw [hk] at h
      have := Proofs.Closed12.ofVal_value Spec.Swagger12.null _ trivial h
      cases this
    | some t =>
      rw [hk] at h
      have := Proofs.Closed12.ofVal_value _ _ (Proofs.Closed12.plain_get hq hk) h
      rw [← this]; rfl
  have htype := h3.type
  have hname := h3.name
  have hinn := h3.in
  refine ⟨fun e => ⟨ts, dq, h1, h2, ?_⟩, fun e => ⟨ts, dq, h1, h2, ?_⟩, fun k b e e1 e2 => ⟨ts, dq, h1, h2, ?_⟩⟩
  · cases hof with
    | basic => exact htype
    | other _ h => exact absurd e h
    | _ => simp_all
  · cases hof with
    | implicit => exact htype
    | code => exact htype
    | grantless => exact htype
    | _ => simp_all
  · cases hof with
    | apiKey =>
      dsimp only at htype hname hinn
      rw [e1] at hname
      rw [e2] at hinn
      exact ⟨htype, value hname, value hinn⟩
    | _ => simp_all

/-- **C87, models.** A model whose name no other model has is written as a definition under that name, with its own
properties; it is composed of the models that name it as a sub type. -/
theorem C87_models (hu : upgrade env str l = .ok s) (hin : DocumentIn sq s) {n : Str} {m : Model} (hm : HasModel l n m)
    (hone : ∀ n' m', HasModel l n' m' → name env n' m' = name env n m → n' = n ∧ m' = m) :
    ∃ ds q d, Dict.get? sq c!"definitions" = some (.dict ds) ∧ Dict.get? ds (name env n m) = some (.dict q) ∧ DefinitionIn q d ∧
      ModelOf env (rfcEscape n) m d ∧
      ∀ x, x ∈ d.allOf ↔ ∃ n' m', HasModel l n' m' ∧ ∃ t ∈ m'.subTypes,
        name env n m = qualified env.sep (rfcEscape n') t ∧ x = c!"#/definitions/" ++ name env n' m' := by
  obtain ⟨d, h1, h2, h3⟩ := C56_models hu hm hone
  obtain ⟨ds, q, h4, h5, h6⟩ := under_get hin.definitions h1
  exact ⟨ds, q, d, h4, h5, h6, h2, h3⟩

/-! ## examples -/

set_option synthInstance.maxSize 1000

/-- a resource listing with an API key -/
def listing0 : Dict Str Tree :=
  [(c!"swaggerVersion", text c!"1.2"), (c!"apiVersion", text c!"1"),
   (c!"apis", .list [.dict [(c!"path", text c!"/pet")]]),
   (c!"info", .dict [(c!"title", text c!"t"), (c!"description", text c!"d")]),
   (c!"authorizations", .dict [(c!"key", .dict [(c!"type", text c!"apiKey"), (c!"passAs", text c!"header"), (c!"keyname", text c!"k")])])]

/-- the only API declaration: `type` is the type of the response, a model or a primitive type -/
def declaration0 (type : Str) : Dict Str Tree :=
  [(c!"swaggerVersion", text c!"1.2"), (c!"basePath", text c!"https://h.com/api"), (c!"produces", .list [text c!"application/json"]),
   (c!"apis", .list [.dict [(c!"path", text c!"/pet/{id}"), (c!"operations", .list [.dict
     [(c!"method", text c!"GET"), (c!"nickname", text c!"getPet"), (c!"type", text type),
      (c!"authorizations", .dict [(c!"key", .list [])]),
      (c!"parameters", .list [.dict [(c!"name", text c!"id"), (c!"paramType", text c!"path"), (c!"type", text c!"integer"),
        (c!"required", .atom (.bool true))]])]])]]),
   (c!"models", .dict [(c!"Pet", .dict [(c!"id", text c!"Pet"), (c!"properties", .dict [(c!"name", .dict [(c!"type", text c!"string")])])])])]

def get0 (type : Str) : Operation :=
  { nickname := c!"getPet", method := some c!"GET", type := some type, authorizations := [(c!"key", [])],
    parameters := [{ name := some c!"id", paramType := some c!"path", type := some c!"integer", required := .bool true }] }

def resource0 (type : Str) : Resource :=
  { basePath := some c!"https://h.com/api", produces := [c!"application/json"], apis := [(c!"getPet", some c!"/pet/{id}", get0 type)],
    models := [(c!"Pet", { id := some c!"Pet", properties := [(c!"name", { type := some c!"string" })] })] }

def list0 (type : Str) : ResourceList :=
  { apiVersion := .str c!"1", info := some { title := .str c!"t", description := .str c!"d" },
    authorizations := [(c!"key", { type := some c!"apiKey", passAs := .str c!"header", keyname := .str c!"k" })],
    apis := [(c!"pet", resource0 type)] }

theorem read0 (type : Str) : _root_.Upgraded.read listing0 [(c!"pet", .dict (declaration0 type))] = some (list0 type) := by rfl

theorem declares0 {type n : Str} {r : Resource} {p : Option Str} {op : Operation} (h : Declares (list0 type) n r p op) :
    n = c!"pet" ∧ r = resource0 type ∧ p = some c!"/pet/{id}" ∧ op = get0 type := by
  obtain ⟨h1, k, h2⟩ := h
  simp only [list0, List.mem_singleton, Prod.mk.injEq] at h1
  obtain ⟨rfl, rfl⟩ := h1
  simp only [resource0, List.mem_singleton, Prod.mk.injEq] at h2
  exact ⟨rfl, rfl, h2.2.1, h2.2.2⟩

theorem at0 {type url m : Str} (h : At env0.lower (resource0 type) (some c!"/pet/{id}") (get0 type) url m) :
    url = c!"https" ++ c!"://" ++ c!"h.com" ++ c!"/api/pet/{id}" ∧ m = c!"get" := by
  obtain ⟨b, q, x, hb, hq, rfl, hx, rfl⟩ := h
  cases hb
  cases hq
  cases hx
  exact ⟨rfl, by decide⟩

theorem has0 : HasModel (list0 c!"Pet") c!"pet" { id := some c!"Pet", properties := [(c!"name", { type := some c!"string" })] } :=
  ⟨resource0 c!"Pet", c!"Pet", by simp [list0], by simp [resource0]⟩

theorem model0 {type n : Str} {m : Model} (h : HasModel (list0 type) n m) :
    n = c!"pet" ∧ m = { id := some c!"Pet", properties := [(c!"name", { type := some c!"string" })] } := by
  obtain ⟨r, k, h1, h2⟩ := h
  simp only [list0, List.mem_singleton, Prod.mk.injEq] at h1
  obtain ⟨rfl, rfl⟩ := h1
  simp only [resource0, List.mem_singleton, Prod.mk.injEq] at h2
  exact ⟨rfl, h2.2⟩

theorem closed0 : Closed env0 (list0 c!"Pet") where
  responses n r p op hd _ := by
    obtain ⟨rfl, rfl, rfl, rfl⟩ := declares0 hd
    refine ⟨⟨?_, by rintro x ⟨⟩⟩, by rintro i ⟨⟩⟩
    rintro t ⟨⟩ - -
    exact ⟨_, has0, rfl⟩
  bodies n r p op hd x hx hb := by
    obtain ⟨rfl, rfl, rfl, rfl⟩ := declares0 hd
    simp only [get0, List.mem_singleton] at hx
    subst hx
    simp at hb
  properties n m hm e he := by
    obtain ⟨rfl, rfl⟩ := model0 hm
    simp only [List.mem_singleton] at he
    subst he
    refine ⟨⟨?_, by rintro x ⟨⟩⟩, by rintro i ⟨⟩⟩
    rintro t ⟨⟩ - h
    exact absurd h (by decide)
  resources n r hn := by
    simp only [list0, List.mem_singleton, Prod.mk.injEq] at hn
    rw [hn.1]; exact ⟨by decide, by decide⟩
  ids n m i hm hi := by
    obtain ⟨rfl, rfl⟩ := model0 hm
    cases hi; exact ⟨by decide, by decide⟩
  sep := ⟨by decide, by decide⟩
  methods n r p op url m hd ha := by
    obtain ⟨rfl, rfl, rfl, rfl⟩ := declares0 hd
    rw [(at0 ha).2]; decide

/-- it is upgraded -/
theorem upgrades0 : ∃ T, Upgrades env0 str0 listing0 [(c!"pet", .dict (declaration0 c!"Pet"))] (list0 c!"Pet") T :=
  ⟨_, by simp [listing0, text, Spec.Pointed.Plain, PlainDict, PlainList], by simp [declaration0, text, Spec.Pointed.Plain, PlainDict, PlainList],
    read0 _, rfl, closed0⟩

theorem onSite0 : OnSite env0 (list0 c!"Pet") c!"https" c!"h.com" := by
  refine ⟨⟨by decide, by decide, by decide, by decide, by decide⟩, fun n r p op url m hd ha => ?_⟩
  obtain ⟨rfl, rfl, rfl, rfl⟩ := declares0 hd
  exact ⟨_, (at0 ha).1, .inr ⟨_, rfl⟩⟩

/-- a request for the operation of the example -/
example (u : Py.Url) (hu : Canon u) (hf : u.fragment = []) (deref : Nat → Except Exc Nat) (ps : List Call.Decl) :
    ∃ T R x, _root_.Upgraded.load env0 str0 listing0 [(c!"pet", .dict (declaration0 c!"Pet"))] = some T ∧
      _root_.Loaded.normalizeRefs (urlunparse u) T = some R ∧
      _root_.Service.operation (urlunparse u) R [c!"paths", c!"/api/pet/{id}"] c!"get" deref ps = some x ∧
      x.url = c!"//h.com/api/pet/{id}" ∧ x.produces = [c!"application/json"] := by
  obtain ⟨T, h⟩ := upgrades0
  obtain ⟨s, sq, hs, hin, -, hall⟩ := C87_document h
  obtain ⟨R, hl⟩ := hall u hu hf
  have hd : Declares (list0 c!"Pet") c!"pet" (resource0 c!"Pet") (some c!"/pet/{id}") (get0 c!"Pet") :=
    ⟨by simp [list0], c!"getPet", by simp [resource0]⟩
  have ha : At env0.lower (resource0 c!"Pet") (some c!"/pet/{id}") (get0 c!"Pet")
      (c!"https" ++ c!"://" ++ c!"h.com" ++ c!"/api/pet/{id}") c!"get" := ⟨_, _, _, rfl, rfl, rfl, rfl, rfl⟩
  obtain ⟨x, h1, h2⟩ := C87_request hl h.closed hs hin onSite0 hd ha
    (fun n' r' p' op' hd' _ => by obtain ⟨rfl, rfl, -, rfl⟩ := declares0 hd'; exact ⟨rfl, rfl, rfl⟩)
    (by intro e he v hv; simp only [get0, List.mem_singleton] at he; subst he; cases hv) deref ps
  refine ⟨T, R, x, h.loaded, hl.normalized, h1, by rw [h2.url]; rfl, ?_⟩
  have := h2.produces
  generalize x.produces = y at this
  cases this
  · rename_i hne; exact absurd rfl hne
  · rfl

/-- **C87** refuted for documents that name models of other resources or none: the reference is to a definition that the
upgraded document does not have, so no request that needs it can be made. -/
theorem C87_unknown_model_false :
    ∃ l s o, _root_.Upgraded.read listing0 [(c!"pet", .dict (declaration0 c!"User"))] = some l ∧ upgrade env0 str0 l = .ok s ∧
      lookup s.paths c!"/api/pet/{id}" c!"get" = some o ∧
      o.response.bind Schema.ref = some (Spec.Places.pointer [c!"definitions", c!"pet!##!User"]) ∧
      Dict.get? s.definitions c!"pet!##!User" = none :=
  ⟨_, _, _, read0 _, rfl, rfl, by decide +kernel, by decide +kernel⟩

end Props.C87
