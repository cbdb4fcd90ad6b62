import Verif.Proofs.Data12
import Verif.Props.C87
import Verif.Props.C88Example
/-!
# C89: the operations of a 1.2 document are found by resource and nickname, and called with what it declares

The end of the road for 1.2 documents: C87 gives a 2.0 document that says the same, C88 finds its operations, C86 sends
requests. Here all of it is said in terms of the resource listing and the API declarations.
-/

namespace Props.C89
open Py Utils Tree _root_.Doc Upgrade Spec.Upgrade12 Spec.Listing12 Spec.Document20 Spec.Pointed Spec.Data12 Props.C55 Props.C56 Props.C87
open Proofs.Closed12 (Closed PlainQ)
open Proofs.Origin (Loads)
open Spec.Index (Label Calls)
open Spec (rfcEscape)

variable {env : Env} {str : Nat → Str} {l : ResourceList} {T R : Tree} {s : Swagger} {sq : Dict Str Tree} {u : Py.Url} {sch host : Str}
  {o : Objects.Outside}

/-- a service on one site, described by a 1.2 document and prepared -/
structure Service12 (env : Env) (str : Nat → Str) (l : ResourceList) (T : Tree) (s : Swagger) (sq : Dict Str Tree) (u : Py.Url) (R : Tree)
    (sch host : Str) : Prop where
  loads : Loads (.dict sq) u T R
  styled : Styled (.dict sq)
  closed : Closed env l
  upgraded : upgrade env str l = .ok s
  written : DocumentIn sq s
  site : OnSite env l sch host

/-- the operation is declared by the resource `n`, alone at the path `q` of the site with the method -/
structure Op12 (env : Env) (l : ResourceList) (sch host n : Str) (r : Resource) (op : Operation) (q m : Str) : Prop where
  declared : ∃ p, Declares l n r p op ∧ At env.lower r p op (sch ++ c!"://" ++ host ++ q) m
  alone : Alone env l n r op (sch ++ c!"://" ++ host ++ q) m

/-- a document that is upgraded is such a service -/
theorem service {listing : Dict Str Tree} {declarations : List (Str × Tree)} (h : Upgrades env str listing declarations l T)
    (hs : OnSite env l sch host) (hu : Canon u) (hf : u.fragment = []) : ∃ s sq R, Service12 env str l T s sq u R sch host := by
  obtain ⟨s, sq, h1, h2, h3, h4⟩ := C87_document h
  obtain ⟨R, hR⟩ := h4 u hu hf
  exact ⟨s, sq, R, hR, h3, h.closed, h1, h2, hs⟩

/-! ## names -/

theorem labelled (hin : DocumentIn sq s) : C88.Labelled sq := by
  intro k m oq hat
  obtain ⟨op, -, h⟩ := written_found hin hat
  exact ⟨⟨op.tags, some op.operationId⟩, .inl h.tags, h.id⟩

theorem in_place (h : Service12 env str l T s sq u R sch host) : C88.InPlace sq := by
  intro paths k iq h1 h2
  obtain ⟨iq', item, e, hi, h4⟩ := under_back h.written.paths h1 h2
  cases e
  have h5 := h4 c!"$ref"
  cases hmo : Dict.get? item c!"$ref" with
  | none => rw [hmo] at h5; exact h5
  | some x =>
    obtain ⟨n, r, p, op, hd, ha, -⟩ := found_site h.upgraded h.site ⟨item, hi, hmo⟩
    exact absurd (h.closed.methods _ _ _ _ _ _ hd ha) (by decide)

/-- the operation is declared by the resource `n` at the path `q` of the site with the method -/
def Declared12 (env : Env) (l : ResourceList) (sch host n : Str) (op : Operation) (q m : Str) : Prop :=
  ∃ r p, Declares l n r p op ∧ At env.lower r p op (sch ++ c!"://" ++ host ++ q) m

/-- what is written was declared; its tag is the resource, its id the nickname -/
theorem label_of (h : Service12 env str l T s sq u R sch host) {k m : Str} {oq : Dict Str Tree} (hat : C86.At sq k m oq) :
    ∃ n op, Declared12 env l sch host n op k m ∧ (⟨[n], some op.nickname⟩ : Label).In oq := by
  obtain ⟨n, r, p, op, x, hd, ha, hx, hop⟩ := C87_only h.upgraded h.written h.site hat
  refine ⟨n, op, ⟨r, p, hd, ha⟩, .inl ?_, ?_⟩
  · have := hx.tags
    rw [hop.tags, escape_plain (h.closed.resources n r hd.1)] at this
    exact this
  · have := hx.id
    rw [hop.id] at this
    exact this

/-- a declared operation is written -/
theorem op_at (h : Service12 env str l T s sq u R sch host) {n : Str} {r : Resource} {op : Operation} {q m : Str}
    (ho : Op12 env l sch host n r op q m) :
    ∃ oq x, C86.At sq q m oq ∧ OperationIn oq x ∧ OpOf env n r op x ∧ (⟨[n], some op.nickname⟩ : Label).In oq := by
  obtain ⟨p, hd, ha⟩ := ho.declared
  obtain ⟨oq, x, h1, h2, h3⟩ := C87_operation h.closed h.upgraded h.written h.site hd ha ho.alone
  rw [escape_plain (h.closed.resources n r hd.1)] at h3
  refine ⟨oq, x, h1, h2, h3, .inl ?_, ?_⟩
  · have := h2.tags; rw [h3.tags] at this; exact this
  · have := h2.id; rw [h3.id] at this; exact this

/-- **C89, names.** An operation of a 1.2 document is `app.op[resource, nickname]`: the object at its path and method. -/
theorem C89_named (h : Service12 env str l T s sq u R sch host) {d : Dict Str Nat} (hi : Index.index o R env.sep = some (.ok d))
    {n : Str} {r : Resource} {op : Operation} {q m : Str} (ho : Op12 env l sch host n r op q m) (hn : n ≠ []) (hnick : op.nickname ≠ []) :
    ScopeDict.getitem env.sep d (.tuple [some n, some op.nickname]) = .ok (o.num [c!"paths", q, m]) := by
  obtain ⟨oq, x, hat, -, -, hlab⟩ := op_at h ho
  exact C88.C88_tagged h.loads rfl (labelled h.written) (in_place h) hi hat hlab rfl rfl hn hnick

/-- **C89, only operations of the document.** Whatever `app.op[...]` returns was declared. -/
theorem C89_only (h : Service12 env str l T s sq u R sch host) {d : Dict Str Nat} (hi : Index.index o R env.sep = some (.ok d))
    {key : ScopeKey} {i : Nat} (hg : ScopeDict.getitem env.sep d key = .ok i) :
    ∃ n op q m, Declared12 env l sch host n op q m ∧ i = o.num [c!"paths", q, m] := by
  obtain ⟨k, m, oq, name, hat, -, e⟩ := C88.C88_only h.loads rfl (labelled h.written) (in_place h) hi hg
  obtain ⟨n, op, hd, -⟩ := label_of h hat
  exact ⟨n, op, k, m, hd, e⟩

/-- **C89, clashes.** The index is there, or preparing raises `SchemaError` because two operations at different places have
the same name. -/
theorem C89_clash (h : Service12 env str l T s sq u R sch host) (hn : ∀ n r, (n, r) ∈ l.apis → n ≠ []) :
    (∃ d, Index.index o R env.sep = some (.ok d)) ∨
    Index.index o R env.sep = some (.error .SchemaError) ∧
      ∃ n op q m n' op' q' m', Declared12 env l sch host n op q m ∧ Declared12 env l sch host n' op' q' m' ∧ (q, m) ≠ (q', m') ∧
        n ++ env.sep ++ op.nickname = n' ++ env.sep ++ op'.nickname := by
  obtain ⟨r, h1, h2⟩ := C88.C88_index (o := o) h.loads rfl (labelled h.written) (in_place h) env.sep
  rcases h2 with ⟨rfl, k, m, oq, k', m', oq', x, hne, a1, a2, c1, c2⟩ | ⟨d, rfl, -⟩
  · right
    refine ⟨h1, ?_⟩
    obtain ⟨n, op, d1, b1⟩ := label_of h a1
    obtain ⟨n', op', d2, b2⟩ := label_of h a2
    have name : ∀ {n : Str} {op : Operation} {oq : Dict Str Tree} {k m : Str}, Declared12 env l sch host n op k m →
        (⟨[n], some op.nickname⟩ : Label).In oq → Calls env.sep oq x → x = n ++ env.sep ++ op.nickname := by
      intro n op oq k m hd hb hc
      obtain ⟨r, p, hd, -⟩ := hd
      cases hc with
      | alone lb i hl hi _ ht =>
        obtain ⟨e, -⟩ := C88.label_unique hl hb
        exact absurd (ht n (by rw [e]; rfl)) (hn n r hd.1)
      | tagged lb t i hl hi _ ht _ =>
        obtain ⟨e1, e2⟩ := C88.label_unique hl hb
        rw [e1] at ht
        rw [e2] at hi
        cases ht
        cases hi
        rfl
    exact ⟨n, op, k, m, n', op', k', m', d1, d2, hne, by rw [← name d1 b1 c1, ← name d2 b2 c2]⟩
  · exact .inl ⟨d, h1⟩

/-- **C89, no clashes.** If the index is there, operations with the same name are at the same place. -/
theorem C89_distinct (h : Service12 env str l T s sq u R sch host) {d : Dict Str Nat} (hi : Index.index o R env.sep = some (.ok d))
    {n n' : Str} {r r' : Resource} {op op' : Operation} {q m q' m' : Str} (h1 : Op12 env l sch host n r op q m) (h2 : Op12 env l sch host n' r' op' q' m')
    (hn : n ≠ []) (hn' : n' ≠ []) (hk : op.nickname ≠ []) (hk' : op'.nickname ≠ [])
    (he : n ++ env.sep ++ op.nickname = n' ++ env.sep ++ op'.nickname) : (q, m) = (q', m') := by
  obtain ⟨x, e, hx⟩ := C88.C88_index (o := o) h.loads rfl (labelled h.written) (in_place h) env.sep
  rw [hi] at e
  cases e
  rcases hx with ⟨e, -⟩ | ⟨d', -, -, -, hx⟩
  · cases e
  · obtain ⟨oq, -, a1, -, -, b1⟩ := op_at h h1
    obtain ⟨oq', -, a2, -, -, b2⟩ := op_at h h2
    exact hx q m oq q' m' oq' _ a1 a2 (.tagged _ n op.nickname b1 rfl hk rfl hn) (he ▸ .tagged _ n' op'.nickname b2 rfl hk' rfl hn')

/-! ## parameters -/

/-- every parameter has a name, no two have the same, and a location -/
structure Parameters12 (op : Operation) : Prop where
  names : ∀ x ∈ op.parameters, x.name ≠ none
  locations : ∀ x ∈ op.parameters, x.paramType ≠ none
  distinct : (op.parameters.map Param.name).Nodup

/-- the dict says what becomes of the parameter -/
def Says12 (env : Env) (scope : Str) (q : Dict Str Tree) (x : Param) : Prop := PlainQ q ∧ ∃ y, Param20In q y ∧ ParamOf env scope x y

theorem param_name {scope : Str} {x : Param} {y : Param20} (h : ParamOf env scope x y) : y.name = x.name := by cases h <;> rfl

theorem param_loc {scope : Str} {x : Param} {y : Param20} (h : ParamOf env scope x y) : LocOf x.paramType y.in := by
  cases h with
  | body _ h => rw [h]; exact .other _ (by decide)
  | multiple _ _ _ _ h => exact h
  | single _ _ _ _ _ _ h => exact h
  | array _ _ _ _ _ _ _ _ h => exact h

theorem each_dicts {α : Type} {P : Dict Str Tree → α → Prop} {ts : List Tree} {as : List α} (h : List.Forall₂ (fun t a => ∃ d, t = .dict d ∧ P d a) ts as) :
    ∃ qs : List (Dict Str Tree), ts = qs.map .dict ∧ List.Forall₂ P qs as := by
  induction h with
  | nil => exact ⟨[], rfl, .nil⟩
  | cons h _ ih =>
    obtain ⟨d, rfl, h⟩ := h
    obtain ⟨qs, rfl, h'⟩ := ih
    exact ⟨d :: qs, rfl, .cons h h'⟩

theorem forall₂_get {α β : Type} {P : α → β → Prop} {l : List α} {l' : List β} (hlen : l.length = l'.length)
    (h : ∀ (i : Nat) a b, l[i]? = some a → l'[i]? = some b → P a b) : List.Forall₂ P l l' := by
  induction l generalizing l' with
  | nil => cases l' with
    | nil => exact .nil
    | cons => cases hlen
  | cons a l ih => cases l' with
    | nil => cases hlen
    | cons b l' =>
      exact .cons (h 0 a b rfl rfl) (ih (by simpa using hlen) fun i x y hx hy => h (i + 1) x y (by simpa using hx) (by simpa using hy))

/-- the parameters of the operation as the 2.0 document declares them -/
theorem asked (h : Service12 env str l T s sq u R sch host) {n : Str} {r : Resource} {op : Operation} {q m : Str} {oq : Dict Str Tree} {x : Op20}
    (hat : C86.At sq q m oq) (hx : OperationIn oq x) (hop : OpOf env n r op x) (hp : Parameters12 op) :
    ∃ iq qs, C83.Asked (.dict sq) u [c!"paths", q] m iq oq qs [] ∧ List.Forall₂ (Says12 env n) qs op.parameters.reverse ∧
      Spec.Described.inForce qs [] = qs := by
  obtain ⟨hm, paths, iq, h1, h2, h3⟩ := hat
  obtain ⟨iq', item, e, hi, h4⟩ := under_back h.written.paths h1 h2
  cases e
  have hplain : PlainQ oq := Proofs.Closed12.plain_get (Proofs.Closed12.plain_get (Proofs.Closed12.plain_get h.loads.self.plain h1) h2) h3
  obtain ⟨ts, hts, hall⟩ := hx.parameters
  obtain ⟨qs, rfl, hqs⟩ := each_dicts hall
  have hpars := hop.parameters
  have hplainp : ∀ d ∈ qs, PlainQ d := by
    intro d hd
    cases hg : Dict.get? oq c!"parameters" with
    | none =>
      rw [hg, Option.getD_none] at hts
      injection hts with hts
      rw [List.nil_eq, List.map_eq_nil_iff] at hts
      rw [hts] at hd; cases hd
    | some t =>
      rw [hg, Option.getD_some] at hts
      subst hts
      have := Proofs.Closed12.plain_get hplain hg
      rw [Spec.Pointed.Plain] at this
      exact Proofs.Placed.plainList_iff.1 this _ (List.mem_map_of_mem hd)
  have hsays : List.Forall₂ (Says12 env n) qs op.parameters.reverse := by
    have e : ∀ {qs : List (Dict Str Tree)} {ys : List Param20} {xs : List Param}, List.Forall₂ Param20In qs ys → List.Forall₂ (ParamOf env n) xs ys →
        (∀ d ∈ qs, PlainQ d) → List.Forall₂ (Says12 env n) qs xs := by
      intro qs ys xs h1 h2 hp
      induction h1 generalizing xs with
      | nil => cases h2; exact .nil
      | cons a _ ih =>
        cases h2 with
        | cons b h2 => exact .cons ⟨hp _ (by simp), _, a, b⟩ (ih h2 fun d hd => hp d (by simp [hd]))
    exact e hqs hpars hplainp
  have hnames : qs.map Spec.Described.nameIn = op.parameters.reverse.map Param.name := by
    clear hqs hplainp hts hall
    generalize op.parameters.reverse = xs at hsays
    induction hsays with
    | nil => rfl
    | cons a _ ih =>
      obtain ⟨-, y, hy, hof⟩ := a
      have := hy.name
      rw [param_name hof] at this
      have e := Proofs.Data12.maybe_text this
      rw [List.map_cons, List.map_cons, ih, ← e]
      rfl
  have hforce : Spec.Described.inForce qs [] = qs := by
    unfold Spec.Described.inForce Spec.Described.unnamed
    split
    · rename_i e; exact e.symm
    · simp
  have hel : Spec.Pointed.elements [c!"paths", q, m] c!"parameters" oq = (List.range qs.length).map fun i => [c!"paths", q, m] ++ [c!"parameters", natStr i] := by
    unfold Spec.Pointed.elements
    cases hg : Dict.get? oq c!"parameters" with
    | none =>
      rw [hg, Option.getD_none] at hts
      injection hts with hts
      rw [List.nil_eq, List.map_eq_nil_iff] at hts
      rw [hts]; rfl
    | some t =>
      rw [hg, Option.getD_some] at hts
      subst hts
      simp
  have hitem : Written (.dict sq) [c!"paths", q] cPathItem iq :=
    ⟨.one cPathItem, .inl rfl, .field (.inl rfl) h1 (by decide : _ = some (.dict cPathItem)) (.key h2 .here)⟩
  have hverb : Dict.get? (v20 cPathItem).child m = some (.one cOperation) := by
    have : ∀ m ∈ Proofs.Upgraded.verbs, Dict.get? (v20 cPathItem).child m = some (.one cOperation) := by decide
    exact this m hm
  refine ⟨iq, qs, ⟨hitem, in_place h paths q iq h1 h2, ⟨h3, hverb⟩, ?_, ?_, ?_, ?_⟩, hsays, hforce⟩
  · rw [show [c!"paths", q] ++ [m] = [c!"paths", q, m] from rfl, hel]
    refine forall₂_get (by simp) fun i a b ha hb => ⟨0, ?_⟩
    rw [List.getElem?_map, Option.map_eq_some_iff] at ha
    obtain ⟨j, hj, rfl⟩ := ha
    have : j = i := by
      rw [List.getElem?_range (by exact (List.getElem?_eq_some_iff.1 hb).1)] at hj
      exact (Option.some.inj hj).symm
    subst this
    have hg : Dict.get? oq c!"parameters" = some (.list (qs.map .dict)) := by
      cases hg : Dict.get? oq c!"parameters" with
      | none =>
        rw [hg, Option.getD_none] at hts
        injection hts with hts
        rw [List.nil_eq, List.map_eq_nil_iff] at hts
        rw [hts] at hb; cases hb
      | some t => rw [hg, Option.getD_some] at hts; rw [hts]
    refine .inline ⟨.one cParameter, .inl rfl, .field (.inl rfl) h1 (by decide : _ = some (.dict cPathItem)) (.key h2 (.field (.inl rfl) h3 hverb
      (.field (.inl rfl) hg (by decide : _ = some (.list cParameter)) (.item (v := .dict b) (by simp [hb]) .here))))⟩ ?_
    obtain ⟨-, y, hy, -⟩ := List.forall₂_iff_get.1 hsays |>.2 j (List.getElem?_eq_some_iff.1 hb).1 (by
      rw [← hsays.length_eq]; exact (List.getElem?_eq_some_iff.1 hb).1)
    have e : qs.get ⟨j, (List.getElem?_eq_some_iff.1 hb).1⟩ = b := (List.getElem?_eq_some_iff.1 hb).2
    rw [e] at hy
    exact Proofs.Data12.missing hy.only (by decide)
  · have hno : Dict.get? iq c!"parameters" = none := by
      have h5 := h4 c!"parameters"
      cases hmo : Dict.get? item c!"parameters" with
      | none => rw [hmo] at h5; exact h5
      | some y =>
        obtain ⟨n', r', p', op', hd, ha, -⟩ := found_site h.upgraded h.site ⟨item, hi, hmo⟩
        exact absurd (h.closed.methods _ _ _ _ _ _ hd ha) (by decide)
    unfold Spec.Pointed.elements
    rw [hno]
    exact .nil
  · rw [List.append_nil]
    intro d hd
    obtain ⟨y, hy, -, z, hz, hof⟩ := C55.forall₂_left hsays d hd
    rw [List.mem_reverse] at hy
    constructor
    · obtain ⟨nm, e⟩ := Option.ne_none_iff_exists'.1 (hp.names y hy)
      have := hz.name
      rw [param_name hof, e] at this
      exact ⟨nm, this⟩
    · have hl := param_loc hof
      have := hz.in
      obtain ⟨nm, e⟩ := Option.ne_none_iff_exists'.1 (hp.locations y hy)
      generalize z.in = loc at hl this
      generalize y.paramType = pt at hl e
      cases hl with
      | form => exact ⟨_, this⟩
      | other =>
        rw [e] at this
        exact ⟨nm, this⟩
  · rw [hforce, hnames, List.map_reverse]
    exact List.nodup_reverse.2 hp.distinct

/-- what the document says for the operation alone -/
theorem own {n : Str} {r : Resource} {op : Operation} {q m : Str} {oq : Dict Str Tree} {x : Op20} (h : Service12 env str l T s sq u R sch host)
    (hat : C86.At sq q m oq) (hx : OperationIn oq x) (hop : OpOf env n r op x)
    (htexts : ∀ e ∈ op.authorizations, ∀ v ∈ e.2, ∃ y, v = Val.str y) :
    ∃ a : Spec.Service.Own, a.In oq := by
  obtain ⟨reqs, hreqs⟩ := scoped_of hop.security htexts
  have hplain : Spec.Pointed.Plain (.dict oq) := by
    obtain ⟨-, ts, iq, h1, h2, h3⟩ := hat
    exact Proofs.Closed12.plain_get (Proofs.Closed12.plain_get (Proofs.Closed12.plain_get h.loads.self.plain h1) h2) h3
  exact ⟨_, own_in hplain hx hreqs⟩

/-- **C89, calls.** What a call of the operation found works with is what its declaration says: a request goes to its URL
with its method, media types and security, and the parameters are those declared, in the opposite order. -/
theorem C89_operation (h : Service12 env str l T s sq u R sch host) {order : List Atom → List Atom} (hord : ∀ l, (order l).Perm l)
    {n : Str} {r : Resource} {op : Operation} {q m : Str} (ho : Op12 env l sch host n r op q m) (hp : Parameters12 op)
    (htexts : ∀ e ∈ op.authorizations, ∀ v ∈ e.2, ∃ y, v = Val.str y) {w : Prim.World.Outside} (hw : C74.Sound w)
    (e : Prim.Env Prim.World.Atom) (deref : Nat → Except Exc Nat) :
    ∃ b, ∀ mfuel, b ≤ mfuel →
    ∃ x ps, Index.operation o (urlunparse u) R order mfuel deref (o.num [c!"paths", q, m]) = some (x, ps) ∧ Serves r op host q m x ∧
      List.Forall₂ (fun (d : Call.Decl) (y : Param) => y.name = some d.name ∧ LocOf y.paramType (some d.in_)) ps op.parameters.reverse := by
  obtain ⟨p, hd, ha⟩ := ho.declared
  obtain ⟨oq, y, hat, hy, hop, -⟩ := op_at h ho
  obtain ⟨iq, qs, hask, hsays, hforce⟩ := asked h hat hy hop hp
  obtain ⟨b, hb⟩ := C83.C83_parameters (o := o) h.loads h.styled hord hask hw
  refine ⟨b, fun mfuel hm => ?_⟩
  obtain ⟨ps, h1, h2⟩ := hb mfuel hm b (Nat.le_refl b)
  obtain ⟨x, h3, h4⟩ := C87_request h.loads h.closed h.upgraded h.written h.site hd ha ho.alone htexts deref ps
  refine ⟨x, ps, C88.index_operation h.loads rfl hask.item hat h1 h3, h4, ?_⟩
  replace h2 := h2 e
  rw [hforce] at h2
  clear hask hforce h1 h3 hb
  generalize op.parameters.reverse = xs at hsays ⊢
  induction h2 generalizing xs with
  | nil => cases hsays; exact .nil
  | cons hd _ ih =>
    cases hsays with
    | cons hs hsays =>
      obtain ⟨-, z, hz, hof⟩ := hs
      refine .cons ⟨?_, ?_⟩ (ih _ hsays)
      · have := Proofs.Data12.maybe_text hz.name
        unfold Spec.Conform.textAt at this
        rw [hd.name] at this
        rw [← param_name hof, ← this]
      · have := Proofs.Data12.maybe_text hz.in
        unfold Spec.Conform.textAt at this
        rw [hd.location] at this
        have e := param_loc hof
        rw [← this] at e
        exact e

/-! ## arguments -/

section
open Prim Spec.Described Spec.Conform Spec.Wire Proofs.Wire Props.C79
open Props.C81 (Present Legible Clear inUrl)
open Proofs.Made (direct bound)
open Call Io Core Ask Spec.Server Props.C72

variable {w : World.Outside} {e : Prim.Env World.Atom} {other : Prim World.Atom → Str} {form : Str → Str → Prop} {order : List Atom → List Atom}
  {files : FileArg World.Atom → FileVal} {k : Dict Str Val} {nm n q m : Str} {π : Type} {renv : Io.Env (Prim World.Atom) Nat π}
  {r : Resource} {op : Operation} {x : Param}

/-- there is an argument for the parameter, or a default -/
def Given (x : Param) (k : Dict Str Val) (nm : Str) : Prop := Dict.get? k nm ≠ none ∨ ∃ v, x.defaultValue = some v ∧ v ≠ .none

/-- the value is the argument; without one there is a default -/
def Taken (x : Param) (k : Dict Str Val) (nm : Str) (v : Val) : Prop :=
  Dict.get? k nm = some v ∨ Dict.get? k nm = none ∧ x.defaultValue ≠ none

/-- the default written for the parameter -/
theorem default_of {y : Param20} (h : ParamOf env n x y) (hb : x.paramType ≠ some c!"body") :
    ((∃ v, x.defaultValue = some v ∧ v ≠ .none) → y.default ≠ .none) ∧ (y.default ≠ .none → x.defaultValue ≠ none) := by
  have one : ∀ {o : Option Val} {d : Val}, DefaultOf o d → ((∃ v, o = some v ∧ v ≠ .none) → d ≠ .none) ∧ (d ≠ .none → o ≠ none) := by
    intro o d h; cases h <;> simp
  have many : ∀ {o : Option Val} {d : Val}, DefaultListOf o d → ((∃ v, o = some v ∧ v ≠ .none) → d ≠ .none) ∧ (d ≠ .none → o ≠ none) := by
    intro o d h; cases h <;> simp
  cases h with
  | body _ h => exact absurd h hb
  | multiple _ _ _ _ _ _ _ _ h => exact many h
  | single _ _ _ _ _ _ _ _ _ _ _ h => exact one h
  | array _ _ _ _ _ _ _ _ _ _ _ _ h => exact one h

theorem present {pq : Dict Str Tree} (h : Says12 env n pq x) (hb : x.paramType ≠ some c!"body") (hg : Given x k nm) : Present pq k nm := by
  rcases hg with hg | hg
  · exact .inl hg
  · obtain ⟨hq, y, hy, hof⟩ := h
    have hne := (default_of hof hb).1 hg
    rcases Proofs.Data12.value_tree hq hy.default with h | ⟨-, h⟩
    · refine .inr ⟨_, h, fun e => ?_⟩
      have hv := hy.default
      unfold Spec.Listing12.Value Spec.Listing12.under at hv
      rw [h, Option.getD_some, e, Spec.Described.Value] at hv
      exact hne hv
    · exact absurd h hne

theorem taken {pq : Dict Str Tree} (h : Says12 env n pq x) (hb : x.paramType ≠ some c!"body") {v : Val} (hv : C81.Value pq k nm v) : Taken x k nm v := by
  rcases hv with hv | ⟨h1, hv⟩
  · exact .inl hv
  · obtain ⟨hq, y, hy, hof⟩ := h
    refine .inr ⟨h1, (default_of hof hb).2 fun e => ?_⟩
    have hd := hy.default
    rw [e] at hd
    unfold Default at hv
    rcases Proofs.Data12.value_tree hq hd with h | ⟨h, -⟩
    · rw [h] at hv; simp [_root_.Upgraded.ofVal] at hv
    · rw [h] at hv; simp at hv

/-- the operation, its parameter and what is known of Python and of formats -/
structure Case (env : Env) (l : ResourceList) (sch host n : Str) (r : Resource) (op : Operation) (q m : Str) (x : Param) (nm : Str)
    (w : World.Outside) (e : Prim.Env World.Atom) (other : Prim World.Atom → Str) (form : Str → Str → Prop) : Prop where
  operation : Op12 env l sch host n r op q m
  parameters : Parameters12 op
  scopes : ∀ e ∈ op.authorizations, ∀ v ∈ e.2, ∃ y, v = Val.str y
  parameter : x ∈ op.parameters
  name : x.name = some nm
  reach : Reach env x
  python : Python env
  sound : C74.Sound w
  forms : Forms (World.env w e) (inUrl w other) form

/-- a type whose texts have no commas -/
def NoCommas (env : Env) (type : Str) (format : Option Str) : Prop :=
  env.lower type = c!"integer" ∨ env.lower type = c!"number" ∨
    env.lower type = c!"string" ∧ ∃ f, format = some f ∧ f ∈ [c!"uuid", c!"date", c!"date-time"]

/-- what is used of the 2.0 document -/
theorem case_of (h : Service12 env str l T s sq u R sch host) (hc : Case env l sch host n r op q m x nm w e other form)
    (hb : x.paramType ≠ some c!"body") :
    ∃ oq iq qs a pq, C86.At sq q m oq ∧ C83.Asked (.dict sq) u [c!"paths", q] m iq oq qs [] ∧ Spec.Service.Own.In a oq ∧
      pq ∈ inForce qs [] ∧ Within (Proofs.Data12.Own pq) ∧ Says12 env n pq x ∧
      Dict.get? pq c!"name" = some (.atom (.str nm)) ∧ (∀ loc, LocOf x.paramType (some loc) → Dict.get? pq c!"in" = some (.atom (.str loc))) ∧
      (∀ d ∈ inForce qs [], ∃ y ∈ op.parameters, y.name = nameIn d) := by
  obtain ⟨oq, y, hat, hy, hop, -⟩ := op_at h hc.operation
  obtain ⟨iq, qs, hask, hsays, hforce⟩ := asked h hat hy hop hc.parameters
  obtain ⟨a, ha⟩ := own h hat hy hop hc.scopes
  obtain ⟨pq, hpq, hs⟩ := C55.forall₂_right hsays x (by rw [List.mem_reverse]; exact hc.parameter)
  have hs' := hs
  obtain ⟨hq, z, hz, hof⟩ := hs'
  refine ⟨oq, iq, qs, a, pq, hat, hask, ha, by rw [hforce]; exact hpq, Proofs.Data12.within hc.python hof hb hc.reach hq hz, hs, ?_, ?_, ?_⟩
  · have := hz.name
    rw [param_name hof, hc.name] at this
    exact this
  · intro loc hloc
    have h1 := param_loc hof
    have h2 := hz.in
    have : z.in = some loc := by
      generalize x.paramType = pt at h1 hloc
      generalize z.in = zi at h1
      cases h1 <;> cases hloc
      · rfl
      · rename_i h; exact absurd rfl h
      · rename_i h; exact absurd rfl h
      · rfl
    rw [this] at h2
    exact h2
  · intro d hd
    rw [hforce] at hd
    obtain ⟨y, hy, -, z, hz, hof⟩ := C55.forall₂_left hsays d hd
    refine ⟨y, List.mem_reverse.1 hy, ?_⟩
    have e := Proofs.Data12.maybe_text hz.name
    rw [← param_name hof, ← e]
    rfl

/-- **C89, which arguments can be read.** Those of one value, except booleans, infinities and NaN; and those of several, of
types whose texts have no commas. -/
theorem C89_clear (h : Service12 env str l T s sq u R sch host) (hc : Case env l sch host n r op q m x nm w e other form)
    (hb : x.paramType ≠ some c!"body") : ∃ b, ∀ mfuel rounds, b ≤ rounds → ∀ pq d v z fuel, Says12 env n pq x →
      Declared (World.env w (Objects.env o (urlunparse u) R order mfuel rounds e)) d pq →
      convert (World.env w (Objects.env o (urlunparse u) R order mfuel rounds e)) fuel d.obj v false = .ok z →
      (∀ ty, ¬ IsTrue x.allowMultiple ∨ x.blankItems = true → x.items = none → x.type = some ty → env.lower ty ≠ c!"boolean" →
        C81.Definite z → Clear (World.leaf w other) z) ∧
      (∀ ty f xs, IsTrue x.allowMultiple → x.blankItems = false → x.items = none → x.type = some ty → NoCommas env ty x.format →
        z = .array f xs → xs ≠ [] → (∀ y ∈ xs, C81.Definite y) → Clear (World.leaf w other) z) ∧
      (∀ j tj f xs, x.items = some j → j.type = some tj → NoCommas env tj j.format →
        z = .array f xs → xs ≠ [] → (∀ y ∈ xs, C81.Definite y) → Clear (World.leaf w other) z) := by
  refine ⟨bound R, fun mfuel rounds hr pq d v z fuel hs hd hz => ?_⟩
  have hs' := hs
  obtain ⟨hq, y, hy, hof⟩ := hs'
  have hwin := Proofs.Data12.within hc.python hof hb hc.reach hq hy
  obtain ⟨c1, c2⟩ := C81.C81_clear (other := other) hc.sound (fun n h => direct hr h) hwin hd.object (.inl rfl) hz
  have compact : ∀ {iq : Dict Str Tree} {i : Items20} {type ref format : Option Str} {enum : Val} {ty : Str}, Items20In iq i →
      PlainItems env type ref format enum i → type = some ty → NoCommas env ty format → C81.Compact iq := by
    intro iq i type ref format enum ty hiq hi hty hnc
    have hsay := Proofs.Data12.items_says hc.python hiq hi hty
    rcases hnc with h | h | ⟨h, g, hg, hm⟩
    · exact .inl (by rw [hsay.type, h])
    · exact .inr (.inl (by rw [hsay.type, h]))
    · exact .inr (.inr ⟨by rw [hsay.type, h], g, by rw [hsay.format, hg], hm⟩)
  have sep : ∀ {c : Str}, (Dict.get? pq c!"collectionFormat").getD (Spec.Service.text c!"csv") = Spec.Service.text c → c = c!"csv" →
      Separates pq ',' := fun h1 h2 => ⟨c!"csv", (Proofs.Data12.comma h1 h2).1, by simp⟩
  refine ⟨?_, ?_, ?_⟩
  · intro ty hone hit hty hbool hdef
    cases hof with
    | body _ h => exact absurd h hb
    | multiple _ _ _ _ _ hm =>
      rcases hone with h | h
      · exact absurd hm.1 h
      · rw [hm.2] at h; cases h
    | single loc t dd mn mx _ _ hm _ _ hty' =>
      rw [hty] at hty'; cases hty'
      have ht : textAt pq c!"type" = some (env.lower ty) := Proofs.Data12.maybe_text hy.type
      refine c1 (by rw [ht]; exact fun e => hbool (Option.some.inj e)) ?_ hdef
      rw [ht]
      intro e
      have hr := hc.reach
      cases hr with
      | one ty' _ _ e1 hB => rw [hty] at e1; cases e1; exact (Proofs.Data12.type_cases hB).2 (Option.some.inj e)
      | multiple ty' _ _ _ e1 hB => rw [hty] at e1; cases e1; exact (Proofs.Data12.type_cases hB).2 (Option.some.inj e)
      | array _ _ _ _ _ e1 => rw [hit] at e1; cases e1
    | array _ _ _ _ _ _ _ _ _ _ e => rw [hit] at e; cases e
  · intro ty f xs hmul hbl hit hty hnc hzz hne hdef
    cases hof with
    | body _ h => exact absurd h hb
    | multiple loc i dd _ _ hm _ hi =>
      have hit' : ∃ iq, Dict.get? pq c!"items" = some (.dict iq) ∧ Items20In iq i := hy.items
      obtain ⟨iq, e, hiq⟩ := hit'
      exact c2 ',' iq f xs (sep hy.collectionFormat rfl) e (compact hiq hi hty hnc) hzz hne hdef
    | single _ _ _ _ _ _ _ hm => exact absurd ⟨hmul, hbl⟩ hm
    | array _ _ _ _ _ _ _ _ _ _ e => rw [hit] at e; cases e
  · intro j tj f xs hit hty hnc hzz hne hdef
    cases hof with
    | body _ h => exact absurd h hb
    | multiple _ _ _ _ _ _ e => rw [hit] at e; cases e
    | single _ _ _ _ _ _ _ _ e => rw [hit] at e; cases e
    | array loc t dd mn mx j' i _ _ _ e1 _ _ _ _ hi =>
      rw [hit] at e1; cases e1
      have hit' : ∃ iq, Dict.get? pq c!"items" = some (.dict iq) ∧ Items20In iq i := hy.items
      obtain ⟨iq, e, hiq⟩ := hit'
      exact c2 ',' iq f xs (sep hy.collectionFormat rfl) e (compact hiq hi hty hnc) hzz hne hdef

/-- **C89, query arguments.** From the query of a request as it is sent a server reads for a parameter a value the 1.2
document allows, if no credential goes under its name. -/
theorem C89_query (h : Service12 env str l T s sq u R sch host) (hord : ∀ l, (order l).Perm l)
    (hc : Case env l sch host n r op q m x nm w e other form) (hin : x.paramType = some c!"query") (hg : Given x k nm) :
    ∃ b, ∀ mfuel, b ≤ mfuel → ∀ rounds, b ≤ rounds → ∀ deref, ∃ y ps,
      Index.operation o (urlunparse u) R order mfuel deref (o.num [c!"paths", q, m]) = some (y, ps) ∧
      ∀ {fuel : Nat} {rq : Req (Prim World.Atom) π} {c : Client} {opt : Dict Str (Option Str)} {hs : HeadersArg}
        {res : SendResult (Prim World.Atom) π} {regs : List (Str × SecurityInfo)},
      ask (World.env w (Objects.env o (urlunparse u) R order mfuel rounds e)) (World.leaf w other) fuel ps files y k = .ok rq →
      send renv y c opt hs rq = .ok res → c.security = some (C18.after (_root_.Service.defs R) regs) →
      (∀ i cr, Dict.get? (C18.after (_root_.Service.defs R) regs) i = some cr → cr.header = false → cr.key ≠ nm) →
      ∃ pq d v z, Says12 env n pq x ∧ Declared (World.env w (Objects.env o (urlunparse u) R order mfuel rounds e)) d pq ∧ Taken x k nm v ∧
        convert (World.env w (Objects.env o (urlunparse u) R order mfuel rounds e)) fuel d.obj v false = .ok z ∧
        (Legible (World.leaf w other) z → ∃ val, Sends env form x ((res.sent.query.filter fun y => y.1 = nm).map Prod.snd) val) := by
  have hb : x.paramType ≠ some c!"body" := by rw [hin]; decide
  obtain ⟨oq, iq, qs, a, pq, hat, hask, ha, hpq, hwin, hs, hname, hloc, -⟩ := case_of h hc hb
  obtain ⟨b, hq⟩ := C86.C86_query (o := o) (files := files) (renv := renv) h.loads h.styled hord hask hc.sound hwin hc.forms hpq (.inl rfl) hname
    (hloc _ (by rw [hin]; exact .other _ (by decide))) (present hs hb hg) rfl (says_in h.upgraded h.written) hat ha
  refine ⟨b, fun mfuel hm rounds hr deref => ?_⟩
  obtain ⟨ps, y, h1, h2, -, h3⟩ := hq mfuel hm rounds hr deref
  refine ⟨y, ps, C88.index_operation h.loads rfl hask.item hat h1 h2, ?_⟩
  intro fuel rq c opt hs' res regs hask' hsend hsec hno
  obtain ⟨v, z, hv, ⟨d, hd, hz⟩, hleg⟩ := h3 hask' hsend hsec fun i _ cr hcr h1 => hno i cr hcr h1
  refine ⟨pq, d, v, z, hs, hd, taken hs hb hv, hz, fun hl => ?_⟩
  obtain ⟨val, g1, g2⟩ := hleg hl
  obtain ⟨hq, zz, hzz, hof⟩ := hs
  exact ⟨val, Proofs.Data12.sends hc.python hof hb hc.reach hq hzz g1 g2⟩

/-- **C89, form arguments.** The same of the form in the body of a request. -/
theorem C89_form (h : Service12 env str l T s sq u R sch host) (hord : ∀ l, (order l).Perm l)
    (hc : Case env l sch host n r op q m x nm w e other form) (hin : x.paramType = some c!"form") (hg : Given x k nm) :
    ∃ b, ∀ mfuel, b ≤ mfuel → ∀ rounds, b ≤ rounds → ∀ deref, ∃ y ps,
      Index.operation o (urlunparse u) R order mfuel deref (o.num [c!"paths", q, m]) = some (y, ps) ∧
      ∀ {fuel : Nat} {sc : SchemeArg} {hf : Bool} {rq rq' : Req (Prim World.Atom) π},
      ask (World.env w (Objects.env o (urlunparse u) R order mfuel rounds e)) (World.leaf w other) fuel ps files y k = .ok rq →
      prepare renv y sc hf rq = .ok rq' → rq.p.file = [] → rq.p.formData ≠ [] →
      ∃ body f, rq'.data = .text body ∧ Spec.formDecode body = some f ∧
      ∃ pq d v z, Says12 env n pq x ∧ Declared (World.env w (Objects.env o (urlunparse u) R order mfuel rounds e)) d pq ∧ Taken x k nm v ∧
        convert (World.env w (Objects.env o (urlunparse u) R order mfuel rounds e)) fuel d.obj v false = .ok z ∧
        (Legible (World.leaf w other) z → ∃ val, Sends env form x ((f.filter fun y => y.1 = nm).map Prod.snd) val) := by
  have hb : x.paramType ≠ some c!"body" := by rw [hin]; decide
  obtain ⟨oq, iq, qs, a, pq, hat, hask, ha, hpq, hwin, hs, hname, hloc, -⟩ := case_of h hc hb
  obtain ⟨b, hq⟩ := C83.C83_operation (o := o) h.loads h.styled hord hask hc.sound
  refine ⟨b, fun mfuel hm rounds hr deref => ?_⟩
  obtain ⟨ps, h1, h2⟩ := hq mfuel hm rounds hr
  obtain ⟨y, h3, -⟩ := C86.C86_operation h.loads rfl (says_in h.upgraded h.written) hat ha deref ps
  refine ⟨y, ps, C88.index_operation h.loads rfl hask.item hat h1 h3, ?_⟩
  intro fuel sc hf rq rq' hask' hprep hfile hfd
  obtain ⟨body, f, f1, f2, d, v, z, hd, hv, hz, hleg⟩ := C82.C82_form h.loads (h2 e) hwin
    ⟨hc.forms.email, hc.forms.object, hc.forms.unknown⟩ hpq (.inl rfl) hname
    (hloc _ (by rw [hin]; exact .form)) (present hs hb hg) hask' hprep hfile hfd
  refine ⟨body, f, f1, f2, pq, d, v, z, hs, hd, taken hs hb hv, hz, fun hl => ?_⟩
  obtain ⟨val, g1, g2⟩ := hleg hl
  obtain ⟨hq, zz, hzz, hof⟩ := hs
  exact ⟨val, Proofs.Data12.sends hc.python hof hb hc.reach hq hzz g1 g2⟩

/-- **C89, header arguments.** The same of a header, by any spelling of its name; the names of other parameters differ by
more than the case of letters. -/
theorem C89_header (h : Service12 env str l T s sq u R sch host) (hord : ∀ l, (order l).Perm l)
    (hc : Case env l sch host n r op q m x nm w e other form) (hin : x.paramType = some c!"header") (hg : Given x k nm)
    (hno : ∀ y ∈ op.parameters, ∀ t, y.name = some t → renv.lower t = renv.lower nm → t = nm) {nx : Str}
    (hx : renv.lower nx = renv.lower nm) (hx1 : renv.lower nx ≠ renv.lower c!"Accept") (hx2 : renv.lower nx ≠ renv.lower c!"Content-Type") :
    ∃ b, ∀ mfuel, b ≤ mfuel → ∀ rounds, b ≤ rounds → ∀ deref, ∃ y ps,
      Index.operation o (urlunparse u) R order mfuel deref (o.num [c!"paths", q, m]) = some (y, ps) ∧
      ∀ {fuel : Nat} {sc : SchemeArg} {hf : Bool} {rq rq' : Req (Prim World.Atom) π},
      ask (World.env w (Objects.env o (urlunparse u) R order mfuel rounds e)) (World.leaf w other) fuel ps files y k = .ok rq →
      prepare renv y sc hf rq = .ok rq' →
      ∃ pq d v z t, Says12 env n pq x ∧ Declared (World.env w (Objects.env o (urlunparse u) R order mfuel rounds e)) d pq ∧ Taken x k nm v ∧
        convert (World.env w (Objects.env o (urlunparse u) R order mfuel rounds e)) fuel d.obj v false = .ok z ∧
        Utils.CIDict.getitem renv.lower rq'.header nx = .ok t ∧
        (Clear (World.leaf w other) z → ∃ val, Sends env form x [t] val) := by
  have hb : x.paramType ≠ some c!"body" := by rw [hin]; decide
  obtain ⟨oq, iq, qs, a, pq, hat, hask, ha, hpq, hwin, hs, hname, hloc, hall⟩ := case_of h hc hb
  obtain ⟨b, hq⟩ := C83.C83_operation (o := o) h.loads h.styled hord hask hc.sound
  refine ⟨b, fun mfuel hm rounds hr deref => ?_⟩
  obtain ⟨ps, h1, h2⟩ := hq mfuel hm rounds hr
  obtain ⟨y, h3, -⟩ := C86.C86_operation h.loads rfl (says_in h.upgraded h.written) hat ha deref ps
  refine ⟨y, ps, C88.index_operation h.loads rfl hask.item hat h1 h3, ?_⟩
  intro fuel sc hf rq rq' hask' hprep
  obtain ⟨d, v, z, t, hd, hv, hz, ht, hleg⟩ := C82.C82_header h.loads (h2 e) hwin
    ⟨hc.forms.email, hc.forms.object, hc.forms.unknown⟩ hpq (.inl rfl) hname
    (hloc _ (by rw [hin]; exact .other _ (by decide))) (present hs hb hg) hask' hprep
    (fun d hd t ht hlt => by obtain ⟨y, hy, e⟩ := hall d hd; exact hno y hy t (e.trans ht) hlt) hx hx1 hx2
  refine ⟨pq, d, v, z, t, hs, hd, taken hs hb hv, hz, ht, fun hl => ?_⟩
  obtain ⟨val, g1, g2⟩ := hleg hl
  obtain ⟨hq, zz, hzz, hof⟩ := hs
  exact ⟨val, Proofs.Data12.sends hc.python hof hb hc.reach hq hzz (.one g1) g2⟩

/-- **C89, path arguments.** The same of the path of a request: a server that knows the path of the operation, a text with
holes, reads a text for each hole. -/
theorem C89_path (h : Service12 env str l T s sq u R sch host) (hord : ∀ l, (order l).Perm l)
    (hc : Case env l sch host n r op q m x nm w e other form) (hin : x.paramType = some c!"path") (hg : Given x k nm)
    (plus : Bool) {t : List Seg} (ht : Props.C72.Plain t) (hqt : q = written t) :
    ∃ b, ∀ mfuel, b ≤ mfuel → ∀ rounds, b ≤ rounds → ∀ deref, ∃ y ps,
      Index.operation o (urlunparse u) R order mfuel deref (o.num [c!"paths", q, m]) = some (y, ps) ∧
      ∀ {fuel : Nat} {sc : SchemeArg} {hf : Bool} {rq rq' : Req (Prim World.Atom) π},
      ask (World.env w (Objects.env o (urlunparse u) R order mfuel rounds e)) (World.leaf w other) fuel ps files y k = .ok rq →
      prepare renv y sc hf rq = .ok rq' →
      (∀ i ∈ holes t, ∀ x, Dict.get? rq.p.path i = some x → plus = true ∨ ' ' ∉ x) →
      ∃ f, readPath plus t rq'.path = some f ∧ f.map Prod.fst = holes t ∧
      ∃ pq d v z, Says12 env n pq x ∧ Declared (World.env w (Objects.env o (urlunparse u) R order mfuel rounds e)) d pq ∧ Taken x k nm v ∧
        convert (World.env w (Objects.env o (urlunparse u) R order mfuel rounds e)) fuel d.obj v false = .ok z ∧
        ∀ y, (nm, y) ∈ f → Clear (World.leaf w other) z → ∃ val, Sends env form x [y] val := by
  have hb : x.paramType ≠ some c!"body" := by rw [hin]; decide
  obtain ⟨oq, iq, qs, a, pq, hat, hask, ha, hpq, hwin, hs, hname, hloc, -⟩ := case_of h hc hb
  obtain ⟨b, hq⟩ := C83.C83_operation (o := o) h.loads h.styled hord hask hc.sound
  refine ⟨b, fun mfuel hm rounds hr deref => ?_⟩
  obtain ⟨ps, h1, h2⟩ := hq mfuel hm rounds hr
  obtain ⟨y, h3, h4, -⟩ := C86.C86_operation h.loads rfl (says_in h.upgraded h.written) hat ha deref ps
  refine ⟨y, ps, C88.index_operation h.loads rfl hask.item hat h1 h3, ?_⟩
  intro fuel sc hf rq rq' hask' hprep hsp
  obtain ⟨f, f1, f2, f3⟩ := C82.C82_path h.loads (h2 e) hwin
    ⟨hc.forms.email, hc.forms.object, hc.forms.unknown⟩ hask' hprep plus ht (by rw [h4.path, hqt]) hsp
  obtain ⟨d, v, z, hd, hv, hz, hleg⟩ := f3 pq nm hpq (.inl rfl) hname
    (hloc _ (by rw [hin]; exact .other _ (by decide))) (present hs hb hg)
  refine ⟨f, f1, f2, pq, d, v, z, hs, hd, taken hs hb hv, hz, fun y hy hl => ?_⟩
  obtain ⟨val, g1, g2⟩ := hleg y hy hl
  obtain ⟨hq, zz, hzz, hof⟩ := hs
  exact ⟨val, Proofs.Data12.sends hc.python hof hb hc.reach hq hzz (.one g1) g2⟩

end

end Props.C89
