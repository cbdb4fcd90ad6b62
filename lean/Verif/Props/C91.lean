import Verif.Proofs.Model12
import Verif.Props.C04
import Verif.Props.C89
import Verif.Props.C90
/-!
# C91: bodies and results of the operations of a 1.2 document are values its models allow

C89 says what arguments in the URL, in headers and in forms are. Here: what is sent as a body, and what a response is read
to, in terms of the data types and models of the 1.2 document.
-/

namespace Props.C91
open Py Utils Tree _root_.Doc Upgrade Spec.Upgrade12 Spec.Listing12 Spec.Document20 Spec.Pointed Spec.Data12 Spec.Model12 Props.C55 Props.C56 Props.C87 Props.C89
open Proofs.Closed12 (Closed PlainQ Refers)
open Proofs.Origin (Loads)
open Proofs.Model12
open Proofs.Placed (url_facts)
open Spec (rfcEscape)
open Spec.Conform (Proper Conforms Member textAt Numeral)
open Spec.Places

variable {env : Env} {str : Nat → Str} {l : ResourceList} {T R : Tree} {s : Swagger} {sq : Dict Str Tree} {u : Py.Url} {sch host : Str}
  {o : Objects.Outside} {N : Prop}

theorem doc12 (h : Service12 env str l T s sq u R sch host) (ha : All env l N) (hp : Python env) : Doc12 env str l s sq u N := by
  obtain ⟨-, h1, h2⟩ := url_facts h.loads.canon h.loads.whole
  exact ⟨h.loads.self.plain, ⟨h1, h2⟩, h.closed, h.upgraded, h.written, ha, hp⟩

theorem schemed (h : Doc12 env str l s sq u N) : C83.Schemed (.dict sq) u (look sq u) (Known env l sq N) :=
  ⟨fun r ts q h1 h2 => Proofs.Checked.looks h.plain h.url.1 h.url.2 r ts q h1 h2, closed h, fun _ h => enums h,
    fun ts q e h1 h2 _ _ h3 => tags h ts q e h1 h2 h3⟩

/-! ## the names of models -/

/-- the reference is to the definition of the model with this id -/
def Refs (env : Env) (l : ResourceList) (r X : Str) : Prop :=
  ∃ n m, HasModel l n m ∧ m.id = some X ∧ X ≠ [] ∧ r = c!"#/definitions/" ++ name env n m

theorem nowhere {c : Char} {t a : Str} (h : c ∉ a) : ¬ (c :: t) <:+: a := by
  rintro ⟨x, y, e⟩
  exact h (by rw [← e]; simp)

theorem before {c : Char} {t a : Str} (h : c ∉ a) : C04.NoEarlySep a (c :: t) := by
  rintro i hi ⟨y, e⟩
  have h1 : ((a ++ (c :: t)).drop i)[0]? = some c := by rw [← e]; rfl
  rw [List.getElem?_drop, Nat.add_zero, List.getElem?_append_left hi] at h1
  exact h (List.mem_of_getElem? h1)

/-- the name of a definition without the resource -/
theorem named_id (h : Doc12 env str l s sq u N) (hsep : Separate env l) {r X : Str} (hr : Refs env l r X) :
    X ≠ [] ∧ ∃ ts, Names (urlunparse u) r ts ∧ Objects.nameAt true ts = some X := by
  obtain ⟨n, m, hm, hid, hne, rfl⟩ := hr
  refine ⟨hne, [c!"definitions", name env n m], ⟨by simp, .inl (Proofs.Closed12.pointer_plain (Proofs.Closed12.name_plain h.closed hm)).symm⟩, ?_⟩
  obtain ⟨r, k, h1, h2⟩ := hm
  have hn : name env n m = qualified c!"!##!" n X := by
    unfold name keyOf
    rw [hid, hsep.sep, escape_plain (h.closed.resources n r h1)]
  have hi := hsep.ids n m X ⟨r, k, h1, h2⟩ hid
  show (scope_split (some (name env n m))).getLast?.join = some X
  rw [hn]
  unfold qualified
  by_cases e : n = []
  · rw [if_pos e]
    obtain ⟨a, as, rfl⟩ := List.exists_cons_of_ne_nil hne
    show ((split c!"!##!" (a :: as)).map some).getLast?.join = _
    rw [split_of_no_occ fun i hi' hp => ?_]
    · rfl
    · exact nowhere hi (hp.isInfix.trans (List.drop_suffix i _).isInfix)
  · rw [if_neg e, if_neg hne]
    have := (C04.C04_roundtrip_iff n X c!"!##!" e hne (by decide)).2 ⟨before (hsep.resources n r h1), nowhere hi⟩
    obtain ⟨a, as, rfl⟩ := List.exists_cons_of_ne_nil hne
    obtain ⟨b, bs, rfl⟩ := List.exists_cons_of_ne_nil e
    rw [show scope_split (some (b :: bs ++ c!"!##!" ++ a :: as)) = [some (b :: bs), some (a :: as)] from this]
    rfl

theorem discriminator_of {n k : Str} {m : Model} {q : Dict Str Tree} {df : Definition} (h : Def env l sq n m q df)
    (hk : m.discriminator = .str k) : textAt q c!"discriminator" = some k := by
  have hv := h.written.discriminator
  rw [h.made.discriminator, hk] at hv
  unfold textAt
  rcases Proofs.Data12.value_tree h.plain hv with e | ⟨-, e⟩
  · rw [e]; rfl
  · cases e

/-- the names of definitions are the ids of models -/
theorem tagged_of (h : Doc12 env str l s sq u N) {form : Str → Str → Prop} {q : Dict Str Tree} {v : Val}
    (hc : Spec.Tagged.Tagged (look sq u) (Refs env l) q v) :
    ∀ {n : Str} {d : DataType}, Reach env N d → Refers env l n d → Typed env n q d → PlainQ q → Instance env l form N n d v →
      Tagged env l n d v := by
  induction hc with
  | single h1 h2 => intros; exact .single h1 h2
  | @array q e i vs hl hit _ ih =>
    intro n d hr hrf ht hp hins
    cases hr with
    | basic ty h1 h2 h3 h4 =>
      have := Proofs.Data12.leads (primitive ht h1 h2 h3).1 hl
      subst this
      rw [ht.noItems h4] at hit; cases hit
    | array ty j h1 h2 _ h3 h4 hj =>
      have := Proofs.Data12.leads (primitive ht h1 h2 h3).1 hl
      subst this
      obtain ⟨iq, g1, g2, g3⟩ := typed_items_of hp ht h4
      rw [hit] at g1
      cases g1
      refine .array h4 fun v hv => ih v hv (reach_items hj) (refers_items hrf h4) g3 g2 ?_
      cases hins with
      | array _ _ e hv' => rw [h4] at e; cases e; exact hv' v hv
      | number _ _ hn => rcases hn with hn | ⟨_, hn, -⟩ <;> cases hn
    | model x hx =>
      obtain ⟨m, df, -, hd⟩ := leads_model h ht hx hrf.own hl
      rw [Proofs.Data12.missing hd.written.only (by decide)] at hit; cases hit
  | @object q e es hl htag hprop _ ih _ =>
    intro n d hr hrf ht hp hins
    cases hins with
    | number _ _ hn => rcases hn with hn | ⟨_, hn, -⟩ <;> cases hn
    | @model _ i m _ hi hm hid _ _ hps hbs =>
      have hx : Is env d i := hi
      obtain ⟨m', df, hid', hd⟩ := leads_model h ht hi hrf.own hl
      have := ((h.all n m hm).alone n m' hd.model (by unfold keyOf; rw [hid, hid'])).2
      subst this
      have hled : Spec.Tagged.Led (look sq u) q (point env.sep (rfcEscape n) i) e := by
        obtain ⟨q', df', h1, h2⟩ := looked h hm
        rw [name_id hid] at h1
        rw [def_unique hd h2] at h1
        exact .last (referring ht hi) h1 (def_ref hd)
      have hrefs : Refs env l (point env.sep (rfcEscape n) i) i := ⟨n, m', hm, hid, hi.1, (name_id hid).symm⟩
      have base : ∀ b, Has l n b → i ∈ b.subTypes → ∃ j df' x, b.id = some j ∧ j ≠ [] ∧ Member (look sq u) e x ∧ Def env l sq n b x df' := by
        intro b hb hib
        obtain ⟨j, hj, hne⟩ := (h.all n b hb).id
        obtain ⟨x, g1, g2, g3⟩ := of_base h hd (n' := n) (j := j) (b := b) ⟨hb, i, hib, by unfold keyOf; rw [hid]⟩ hj
        obtain ⟨y, df', k1, k2⟩ := looked h hb
        rw [name_id hj] at k1
        exact ⟨j, df', y, hj, hne, .part g1 (.go (referring g3 (is_ref hne)) k1 (.stop (def_ref k2))), k2⟩
      refine .model hi hm hid ?_ ?_ ?_ ?_
      · intro k hk
        exact htag _ _ _ k hled hrefs .self (discriminator_of hd hk)
      · intro b k hb hib hk
        obtain ⟨j, df', x, -, -, g1, g2⟩ := base b hb hib
        exact htag _ _ _ k hled hrefs g1 (discriminator_of g2 hk)
      · intro k p v hk hv
        obtain ⟨x, g1, g2, g3⟩ := property_of hd hk
        have hmem := Dict.mem_of_get? hk
        exact ih e k x v .self g1 hv ((h.all n m' hm).properties _ hmem) (h.closed.properties n m' hm _ hmem) g3 g2 (hps k p v hk hv)
      · intro b k p v hb hib hk hv
        obtain ⟨j, df', x, hj, hne, g1, g2⟩ := base b hb hib
        obtain ⟨y, k1, k2, k3⟩ := property_of g2 hk
        have hmem := Dict.mem_of_get? hk
        refine ih x k y v g1 k1 hv ((h.all n b hb).properties _ hmem) (h.closed.properties n b hb _ hmem) k3 k2 ?_
        have hbi := hbs b j hb hj hib
        cases hbi with
        | number _ _ hn => rcases hn with hn | ⟨_, hn, -⟩ <;> cases hn
        | @model _ j' b' _ hj' hb' hid'' _ _ hps' _ =>
          obtain ⟨-, hj'⟩ := hj'
          rcases hj' with ⟨e, -⟩ | ⟨-, e⟩
          · cases e
          · cases e
            have := ((h.all n b hb).alone n b' hb' (by unfold keyOf; rw [hid'', hj])).2
            subst this
            exact hps' k p v hk hv

/-! ## bodies -/

section
open Prim Spec.Described Spec.Wire Proofs.Wire Props.C79
open Props.C90 (no_forms C90_tagged names_of)
open Call Io Core Ask Spec.Server Props.C72

variable {w : World.Outside} {e : Prim.Env World.Atom} {form : Str → Str → Prop} {order : List Atom → List Atom}
  {files : FileArg World.Atom → FileVal} {k : Dict Str Val} {nm n q m : Str}
  {r : Resource} {op : Operation} {x : Param}

/-- the operation, its body and the models within reach -/
structure Body12 (env : Env) (l : ResourceList) (sch host n : Str) (r : Resource) (op : Operation) (q m : Str) (x : Param) (nm : Str)
    (N : Prop) : Prop where
  operation : Op12 env l sch host n r op q m
  parameters : Parameters12 op
  scopes : ∀ e ∈ op.authorizations, ∀ v ∈ e.2, ∃ y, v = Val.str y
  parameter : x ∈ op.parameters
  name : x.name = some nm
  location : x.paramType = some c!"body"
  only : ∀ y ∈ op.parameters, y.paramType = some c!"body" → y = x
  reach : Spec.Model12.Reach env N x.toDataType
  models : All env l N
  python : Python env

/-- **C91, bodies.** What a client sends as the body of a request is a JSON text, and any reader of RFC 8259 reads from it a
value the 1.2 document allows for the body. -/
theorem C91_body (h : Service12 env str l T s sq u R sch host) (hord : ∀ l, (order l).Perm l) (he : ∀ l, (e.order l).Perm l)
    (hc : Body12 env l sch host n r op q m x nm N) (hw : C74.Sound w) {enc : Prim.Json.Enc World.Atom}
    (hform : Forms (World.env w e) enc.toJson form) {leaf : Prim World.Atom → Except Exc Str} {renv : Io.Env (Prim World.Atom) Nat Str}
    {v : Val} (hk : Dict.get? k nm = some v) (hv : Proper N v) :
    ∃ b, ∀ mfuel, b ≤ mfuel → ∀ rounds, b ≤ rounds → ∀ deref, ∃ y ps,
      Index.operation o (urlunparse u) R order mfuel deref (o.num [c!"paths", q, m]) = some (y, ps) ∧ Serves r op host q m y ∧
      ∀ {fuel : Nat} {rq : Req (Prim World.Atom) Str} {c : Client} {opt : Dict Str (Option Str)} {hs : HeadersArg}
        {res : SendResult (Prim World.Atom) Str},
      ask (World.env w (Objects.env o (urlunparse u) R order mfuel rounds e)) leaf fuel ps files y k = .ok rq →
      send renv y c opt hs rq = .ok res → rq.p.file = [] → rq.p.formData = [] →
      (∀ b d, renv.marshal (C24.bodyType y.consumes rq.consume) b d = Prim.Json.marshal enc b) →
      ∃ j z, (∃ d ∈ ps, d.name = nm ∧ d.in_ = c!"body" ∧ d.schema = some j) ∧
        convert (World.env w (Objects.env o (urlunparse u) R order mfuel rounds e)) fuel j v false = .ok z ∧
        ∀ val, C70.jsonOf enc.toJson z = .ok val → Spec.Json.Plain enc.repr val →
          ∃ body, res.sent.data = .payload body ∧ Spec.Json.readJson body = some val ∧
            Instance env l form N n x.toDataType val ∧
            (o.version12 = true → Separate env l → Spec.Model12.Tagged env l n x.toDataType val) := by
  have hdoc := doc12 h hc.models hc.python
  obtain ⟨p, hd, ha⟩ := hc.operation.declared
  obtain ⟨oq, oy, hat, hoy, hop, -⟩ := op_at h hc.operation
  obtain ⟨iq, qs, hask, hsays, hforce⟩ := asked h hat hoy hop hc.parameters
  obtain ⟨a, hown⟩ := own h hat hoy hop hc.scopes
  obtain ⟨pq, hpq, hplain, z, hz, hof⟩ := C55.forall₂_right hsays x (by rw [List.mem_reverse]; exact hc.parameter)
  have hplainn := h.closed.resources n r hd.1
  have hrf := h.closed.bodies n r p op hd x hc.parameter hc.location
  obtain ⟨sc, rfl, hsc⟩ : ∃ sc, z = { name := x.name, required := x.required, description := x.description, «in» := some c!"body", schema := some sc } ∧
      SchemaOf env n x.toDataType .none sc := by
    cases hof with
    | body sc _ h => exact ⟨sc, rfl, h⟩
    | multiple _ _ _ h => exact absurd hc.location h
    | single _ _ _ _ _ h => exact absurd hc.location h
    | array _ _ _ _ _ _ _ h => exact absurd hc.location h
  obtain ⟨scq, hscq, hscin⟩ : ∃ d, Dict.get? pq c!"schema" = some (.dict d) ∧ SchemaIn d sc := hz.schema
  rw [← escape_plain hplainn] at hsc
  have htyped : Typed env n scq x.toDataType := typed_schema hscin hsc
  have hscp : PlainQ scq := Proofs.Closed12.plain_get hplain hscq
  have hknown : Known env l sq N scq := .typed hc.reach hrf htyped hscp
  have hname : Dict.get? pq c!"name" = some (.atom (.str nm)) := by
    have := hz.name; rw [show (Param20.name _) = x.name from rfl, hc.name] at this; exact this
  have hin : Dict.get? pq c!"in" = some (.atom (.str c!"body")) := hz.in
  have hone : ∀ d ∈ inForce qs [], Dict.get? d c!"in" = some (.atom (.str c!"body")) → nameIn d = some nm := by
    intro d hd hin'
    rw [hforce] at hd
    obtain ⟨y, hy, -, z', hz', hof'⟩ := C55.forall₂_left hsays d hd
    have e1 := Proofs.Data12.maybe_text hz'.in
    have e2 := Proofs.Data12.maybe_text hz'.name
    have e1 : some c!"body" = z'.in := by unfold textAt at e1; rw [hin'] at e1; exact e1
    have hloc := param_loc hof'
    rw [← e1] at hloc
    have : y.paramType = some c!"body" := by
      generalize y.paramType = pt at hloc
      generalize hb : some c!"body" = b at hloc
      cases hloc with
      | form => cases hb
      | other => rfl
    have := hc.only y (List.mem_reverse.1 hy) this
    subst this
    rw [param_name hof', hc.name] at e2
    exact e2
  obtain ⟨b1, h1⟩ := C83.C83_operation (o := o) h.loads h.styled hord hask hw
  obtain ⟨b2, h2⟩ := C83.C83_schemata (o := o) (order := order) h.loads (schemed hdoc)
  refine ⟨b1 + b2, fun mfuel hm rounds hr deref => ?_⟩
  obtain ⟨ps, f1, f2⟩ := h1 mfuel (by omega) rounds (by omega)
  obtain ⟨y, e1, e2, e3⟩ := C86.C86_operation h.loads rfl (says_in h.upgraded h.written) hat hown deref ps
  obtain ⟨y', e4, e5⟩ := C87_request h.loads h.closed h.upgraded h.written h.site hd ha hc.operation.alone hc.scopes deref ps
  rw [e1] at e4
  cases e4
  refine ⟨y, ps, C88.index_operation h.loads rfl hask.item hat f1 e1, e5, fun {fuel rq c opt hs res} hask' hsend hfile hfd hmar => ?_⟩
  have hres : reset y rq = rq := by
    obtain ⟨s, -, rfl⟩ := C72.ask_ok hask'
    rfl
  obtain ⟨sl, rq', -, hp, -, -, -, hdata, -⟩ := C86.C86_transfer hres hsend
  have hsch := h2 rounds (by omega) (World.env w e) rfl he mfuel
  obtain ⟨d, j, z, g1, g2, g3, g4, g5, g6⟩ := C82.body_made (form := form) h.loads (f2 e) hsch (fun q h => defaults h)
    ⟨hform.email, hform.object, hform.unknown⟩ hask' hp hfile hfd (by rw [hforce]; exact hpq) hname hin
    (hz.type) (hz.items) hone e3 hmar hscq hknown hk hv
  refine ⟨j, z, ⟨d, g1, ?_, ?_, g3⟩, g4, fun val hval hpl => ?_⟩
  · have := g2.name; rw [hname] at this; simpa using this.symm
  · have := g2.location; rw [hin] at this; simpa using this.symm
  · obtain ⟨body, k1, k2, k3⟩ := g6 val hval hpl
    have hins := instance_of hdoc k3 hc.reach hrf htyped hscp
    refine ⟨body, by rw [hdata]; exact k1, k2, hins, fun hver hsep => ?_⟩
    refine tagged_of hdoc (C90_tagged (model := Refs env l) (C82.schemata h.loads hsch) (fun q h => defaults h)
      (names_of h.loads hsch fun r X hX => ?_) g5 hknown hv g4 hval (plain_finite val hpl)) hc.reach hrf htyped hscp hins
    rw [hver]
    exact named_id hdoc hsep hX

end

/-! ## results -/

section
open Prim Spec.Reply _root_.Io Props.C79

variable {ω : Type} {penv : Prim.Env ω} {out : Reply.Outside} {toJson : AtomKind → ω → Except Exc Str} {form : Str → Str → Prop}
  {order : List Atom → List Atom} {n q m : Str} {r : Resource} {op : Operation}

/-- the operation, the data type of its result and the models within reach -/
structure Result12 (env : Env) (l : ResourceList) (sch host n : Str) (r : Resource) (op : Operation) (q m : Str) (N : Prop) : Prop where
  operation : Op12 env l sch host n r op q m
  value : op.type ≠ some c!"void"
  reach : Spec.Model12.Reach env N op.toDataType
  models : All env l N
  python : Python env

/-- what is written for the result -/
theorem answered (h : Service12 env str l T s sq u R sch host) (hc : Result12 env l sch host n r op q m N) :
    ∃ oq rq scq, C83.Answered (.dict sq) u [c!"paths", q, m] oq ∧
      named [c!"paths", q, m] c!"responses" oq = [(c!"default", [c!"paths", q, m, c!"responses", c!"default"])] ∧
      Stands (.dict sq) (urlunparse u) cResponse 0 [c!"paths", q, m, c!"responses", c!"default"] rq ∧
      Dict.get? rq c!"schema" = some (.dict scq) ∧ Typed env n scq op.toDataType ∧ PlainQ scq ∧ Refers env l n op.toDataType := by
  obtain ⟨p, hd, ha⟩ := hc.operation.declared
  obtain ⟨oq, oy, hat, hoy, hop, -⟩ := op_at h hc.operation
  obtain ⟨hm, paths, iq, h1, h2, h3⟩ := hat
  obtain ⟨rq, g1, g2, g3⟩ := hoy.responses
  have hres := hop.response
  have hplain : PlainQ oq := Proofs.Closed12.plain_get (Proofs.Closed12.plain_get (Proofs.Closed12.plain_get h.loads.self.plain h1) h2) h3
  have hverb : Dict.get? (v20 cPathItem).child m = some (.one cOperation) := by
    have : ∀ m ∈ Proofs.Upgraded.verbs, Dict.get? (v20 cPathItem).child m = some (.one cOperation) := by decide
    exact this m hm
  obtain ⟨sc, e1, e2⟩ : ∃ sc, oy.response = some sc ∧ SchemaOf env n op.toDataType .none sc := by
    generalize oy.response = x at hres
    cases hres with
    | void h => exact absurd h hc.value
    | value sc _ h => exact ⟨sc, rfl, h⟩
  rw [e1] at g2
  obtain ⟨scq, g4, g5⟩ : ∃ d, Dict.get? rq c!"schema" = some (.dict d) ∧ SchemaIn d sc := g2
  rw [← escape_plain (h.closed.resources n r hd.1)] at e2
  have hrp : PlainQ rq := Proofs.Closed12.plain_get (Proofs.Closed12.plain_get hplain g1) (n := c!"default") rfl
  have hnamed : named [c!"paths", q, m] c!"responses" oq = [(c!"default", [c!"paths", q, m, c!"responses", c!"default"])] := by
    unfold named; rw [g1]; rfl
  have hst : Stands (.dict sq) (urlunparse u) cResponse 0 [c!"paths", q, m, c!"responses", c!"default"] rq := by
    refine .inline ⟨.one cResponse, .inl rfl, .field (.inl rfl) h1 (by decide : _ = some (.dict cPathItem)) (.key h2 (.field (.inl rfl) h3 hverb
      (.field (.inl rfl) g1 (by decide : _ = some (.dict cResponse)) (.key rfl .here))))⟩ (Proofs.Data12.missing g3 (by decide))
  refine ⟨oq, rq, scq, ⟨⟨.one cOperation, .inl rfl, .field (.inl rfl) h1 (by decide : _ = some (.dict cPathItem)) (.key h2 (.field (.inl rfl) h3 hverb .here))⟩, ?_⟩,
    hnamed, hst, g4, typed_schema g5 e2, Proofs.Closed12.plain_get hrp g4, h.closed.responses n r p op hd hc.value⟩
  intro x hx
  rw [hnamed] at hx
  rcases List.mem_singleton.1 hx with rfl
  exact ⟨0, rq, hst⟩

/-- **C91, results.** Whatever the status, `response.data` is a value the 1.2 document allows for the result of the
operation, if reading it raises nothing. -/
theorem C91_data (h : Service12 env str l T s sq u R sch host) (hord : ∀ l, (order l).Perm l) (he : ∀ l, (penv.order l).Perm l)
    (hreg : penv.reg = builtins) (hc : Result12 env l sch host n r op q m N) (hform : Forms penv toJson form)
    (hlow : out.text.lower c!"content-type" = c!"content-type") (cs : List (RespCall (Bytes ⊕ Str)))
    (c : RespCall (Bytes ⊕ Str)) {raw : Bytes ⊕ Str} (hraw : c.raw = some raw) {z : Int}
    (hz : C28.latest ((cs ++ [c]).map (·.status)) none = some z)
    (hval : ∀ ct v, Codec.withCodec out.text out.codecs ct (out.unmarshal raw) = .ok v → Proper N v) :
    ∃ b, ∀ mfuel, b ≤ mfuel → ∀ rounds, b ≤ rounds → ∃ table,
      Objects.table o (urlunparse u) R order mfuel [(c!"default", o.num [c!"paths", q, m, c!"responses", c!"default"])] = some table ∧
      ∀ stack rv, rv = Reply.renv out (Objects.env o (urlunparse u) R order mfuel rounds penv) stack →
        (applyWith rv table { applyAll rv table Resp.init cs with rawBodyOnly := false } c).2 = none →
        ∃ x, (applyWith rv table { applyAll rv table Resp.init cs with rawBodyOnly := false } c).1.data = some x ∧
          ∀ val, C70.jsonOf toJson x = .ok val → Spec.Json.nonfinite val = false → Instance env l form N n op.toDataType val := by
  have hdoc := doc12 h hc.models hc.python
  obtain ⟨oq, rq, scq, hans, hnamed, hst, hsch, htyped, hscp, hrf⟩ := answered h hc
  have hi : entryFor (named [c!"paths", q, m] c!"responses" oq) z = some [c!"paths", q, m, c!"responses", c!"default"] := by
    rw [hnamed]
    unfold entryFor
    simp only [Dict.get?]
    by_cases hd : c!"default" = (toString z).toList
    · rw [if_pos hd]
    · rw [if_neg hd]; rfl
  obtain ⟨b, hb⟩ := C83.C83_data (o := o) h.loads h.styled hord he hreg hans (schemed hdoc) (fun q h => defaults h) hform hlow cs c hraw hz hi hst
    hsch (.typed hc.reach hrf htyped hscp) hval
  rw [hnamed] at hb
  refine ⟨b, fun mfuel hm rounds hr => ?_⟩
  obtain ⟨table, e1, e2⟩ := hb mfuel hm rounds hr
  refine ⟨table, e1, fun stack rv hrv hok => ?_⟩
  obtain ⟨x, k1, k2⟩ := e2 stack rv hrv hok
  exact ⟨x, k1, fun val hval hfin => instance_of hdoc (k2 val hval hfin) hc.reach hrf htyped hscp⟩

end

end Props.C91
