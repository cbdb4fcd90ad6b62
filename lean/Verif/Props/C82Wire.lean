import Verif.Props.C82
import Verif.Proofs.Under
/-!
# C82, requests and replies

What C79-C81 say, about the document alone.
-/

namespace Props.C82
open Py Utils Tree _root_.Doc Prim Spec Spec.Places Spec.Pointed Spec.Described Spec.SchemaDoc Spec.Conform Spec.Wire
open Spec.Reply _root_.Loaded Proofs.Loaded Proofs.Origin Proofs.Wire Proofs.Effective Props.C78 Props.C79
open Props.C81 (Present Value Legible Clear inUrl Literal)
open _root_.Effective (attr)
open Call Io Ask Spec.Server Props.C72

variable {D T R : Tree} {p : Url} {o : Loaded.Outside}
variable {w : World.Outside} {e : Prim.Env World.Atom} {other : Prim World.Atom → Str} {S : Dict Str Tree → Prop}
  {form : Str → Str → Prop} {N : Prop} {order : List Atom → List Atom} {mfuel fuel : Nat} {ref : Nat → Option Nat}
  {place : List Str} {method : Str} {qs us : List (Dict Str Tree)} {ps : List Decl} {δ π : Type}
  {files : FileArg World.Atom → FileVal} {op : Op δ} {k : Dict Str Val} {renv : Io.Env (Prim World.Atom) δ π}
  {sch : SchemeArg} {hf : Bool} {nm : Str} {q iq oq : Dict Str Tree} {r r' : Req (Prim World.Atom) π}

/-- **C82, query.** -/
theorem C82_query (hl : Loads D p T R) (ho : Operation D p R o order mfuel w e ref place method iq oq qs us ps)
    (hS : Within S) (hform : Forms (World.env w e) (inUrl w other) form) (hq : q ∈ inForce qs us) (hSq : S q)
    (hname : Dict.get? q c!"name" = some (.atom (.str nm))) (hin : Dict.get? q c!"in" = some (.atom (.str c!"query")))
    (hpr : Present q k nm) (ha : ask (World.env w e) (World.leaf w other) fuel ps files op k = .ok r)
    (hp : prepare renv op sch hf r = .ok r') :
    ∃ d v c, Declared (World.env w e) d q ∧ Value q k nm v ∧ convert (World.env w e) fuel d.obj v false = .ok c ∧
      (Legible (World.leaf w other) c → ∃ val,
        ReadsAll q ((r'.p.query.filter fun x => x.1 = nm).map Prod.snd) val ∧
        Conforms (fun _ => none) form False q val) :=
  C81.C81_query (setting hl ho) hS hform hq hSq hname hin hpr ha hp

/-- **C82, form.** -/
theorem C82_form (hl : Loads D p T R) (ho : Operation D p R o order mfuel w e ref place method iq oq qs us ps)
    (hS : Within S) (hform : Forms (World.env w e) (inUrl w other) form) (hq : q ∈ inForce qs us) (hSq : S q)
    (hname : Dict.get? q c!"name" = some (.atom (.str nm))) (hin : Dict.get? q c!"in" = some (.atom (.str c!"formData")))
    (hpr : Present q k nm) (ha : ask (World.env w e) (World.leaf w other) fuel ps files op k = .ok r)
    (hp : prepare renv op sch hf r = .ok r') (hfile : r.p.file = []) (hfd : r.p.formData ≠ []) :
    ∃ body l, r'.data = .text body ∧ formDecode body = some l ∧
    ∃ d v c, Declared (World.env w e) d q ∧ Value q k nm v ∧ convert (World.env w e) fuel d.obj v false = .ok c ∧
      (Legible (World.leaf w other) c → ∃ val, ReadsAll q ((l.filter fun x => x.1 = nm).map Prod.snd) val ∧
        Conforms (fun _ => none) form False q val) :=
  C81.C81_form (setting hl ho) hS hform hq hSq hname hin hpr ha hp hfile hfd

/-- **C82, header.** -/
theorem C82_header (hl : Loads D p T R) (ho : Operation D p R o order mfuel w e ref place method iq oq qs us ps)
    (hS : Within S) (hform : Forms (World.env w e) (inUrl w other) form) (hq : q ∈ inForce qs us) (hSq : S q)
    (hname : Dict.get? q c!"name" = some (.atom (.str nm))) (hin : Dict.get? q c!"in" = some (.atom (.str c!"header")))
    (hpr : Present q k nm) (ha : ask (World.env w e) (World.leaf w other) fuel ps files op k = .ok r)
    (hp : prepare renv op sch hf r = .ok r')
    (hno : ∀ d ∈ inForce qs us, ∀ s, nameIn d = some s → renv.lower s = renv.lower nm → s = nm) {x : Str}
    (hx : renv.lower x = renv.lower nm) (h1 : renv.lower x ≠ renv.lower c!"Accept")
    (h2 : renv.lower x ≠ renv.lower c!"Content-Type") :
    ∃ d v c t, Declared (World.env w e) d q ∧ Value q k nm v ∧ convert (World.env w e) fuel d.obj v false = .ok c ∧
      Utils.CIDict.getitem renv.lower r'.header x = .ok t ∧
      (Clear (World.leaf w other) c → ∃ val, Reads q t val ∧ Conforms (fun _ => none) form False q val) :=
  C81.C81_header (setting hl ho) hS hform hq hSq hname hin hpr ha hp hno hx h1 h2

/-- **C82, path.** -/
theorem C82_path (hl : Loads D p T R) (ho : Operation D p R o order mfuel w e ref place method iq oq qs us ps)
    (hS : Within S) (hform : Forms (World.env w e) (inUrl w other) form)
    (ha : ask (World.env w e) (World.leaf w other) fuel ps files op k = .ok r) (hp : prepare renv op sch hf r = .ok r')
    (plus : Bool) {t : List Seg} (ht : Props.C72.Plain t) (hop : op.path = written t)
    (hb : ∀ n ∈ holes t, ∀ x, Dict.get? r.p.path n = some x → plus = true ∨ ' ' ∉ x) :
    ∃ l, readPath plus t r'.path = some l ∧ l.map Prod.fst = holes t ∧
      ∀ q nm, q ∈ inForce qs us → S q → Dict.get? q c!"name" = some (.atom (.str nm)) →
        Dict.get? q c!"in" = some (.atom (.str c!"path")) → Present q k nm →
        ∃ d v c, Declared (World.env w e) d q ∧ Value q k nm v ∧ convert (World.env w e) fuel d.obj v false = .ok c ∧
          ∀ y, (nm, y) ∈ l → Clear (World.leaf w other) c →
            ∃ val, Reads q y val ∧ Conforms (fun _ => none) form False q val :=
  C81.C81_path (setting hl ho) hS hform ha hp plus ht hop hb

/-! ## bodies -/

/-- what is inside the schema object of a place are the objects of the places inside, and below `definitions` it has a
name, unless it is written under the empty name -/
structure Inside {ω : Type} (env : Prim.Env ω) (num : List Str → Nat) (ts : List Str) : Prop where
  name : ts.head? = some c!"definitions" → ts.getLast? ≠ some [] → ∃ s, (env.node (num ts)).name = some (some s)
  items : ∀ m, (env.node (num ts)).items = some m → m = num (ts ++ [c!"items"])
  property : ∀ k m, Dict.get? (env.node (num ts)).properties k = some m → m = num (ts ++ [c!"properties", k])
  part : ∀ i m, (env.node (num ts)).allOf[i]? = some m → m = num (ts ++ [c!"allOf", natStr i])
  further : ∀ m, (env.node (num ts)).additional = .schema m → m = num (ts ++ [c!"additionalProperties"])

/-- The schemas of the document are the ones of the conversion; `look` is what its references lead to, the schemas `S`
are within reach. Outside `definitions`, or under the empty name, none has a discriminator, nor parts with one. -/
structure Schemata (D : Tree) (p : Url) (R : Tree) (o : Loaded.Outside) {ω : Type} (env : Prim.Env ω)
    (ref : Nat → Option Nat) (look : Str → Option (Dict Str Tree)) (S : Dict Str Tree → Prop) : Prop where
  derefs : Schemas.Derefs env ref
  schemas : ∀ ts q, Written D ts cSchema q → Schemas.Shows env ref (world o (urlunparse p) R) (o.num ts)
    ((world o (urlunparse p) R).content (o.num ts))
  inside : ∀ ts q, Written D ts cSchema q → Inside env o.num ts
  looks : ∀ r ts q, Names (urlunparse p) r ts → Written D ts cSchema q → look r = some q
  closed : Closed look S
  handlers : env.reg = builtins
  order : ∀ l, (env.order l).Perm l
  distinct : ∀ n, Dict.WF (env.node n).properties
  values : ∀ q, S q → ∀ t ∈ listAt q c!"enum", ∀ c fs, t ≠ .obj c fs
  tags : ∀ ts q e, Written D ts cSchema q → ts.head? ≠ some c!"definitions" ∨ ts.getLast? = some [] → S q → refAt q = none → Member look q e →
    textAt e c!"discriminator" = none

/-- the object `n` was read from `q`, or is a copy of such an object; below `definitions` there are no copies -/
def Holds (D : Tree) (o : Loaded.Outside) {ω : Type} (env : Prim.Env ω) (ref : Nat → Option Nat) (W : MergeRefs.World)
    (n : Nat) (q : Dict Str Tree) : Prop :=
  Belongs env ref W n q ∧ ∃ ts, Written D ts cSchema q ∧ (n = o.num ts ∨ ts.head? ≠ some c!"definitions")

theorem holds_inner {ω : Type} {env : Prim.Env ω} {W : MergeRefs.World} {n m : Nat} {q d : Dict Str Tree} {ts us : List Str}
    (h : n = o.num ts ∨ ts.head? ≠ some c!"definitions") (hw : Written D ts cSchema q) (hd : Written D (ts ++ us) cSchema d)
    (hb : Belongs env ref W m d) (hm : n = o.num ts → m = o.num (ts ++ us)) : Holds D o env ref W m d := by
  refine ⟨hb, ts ++ us, hd, h.imp hm fun h => ?_⟩
  cases ts with
  | nil =>
    obtain ⟨k, hk, hp⟩ := hw
    cases hp
    rcases hk with hk | hk <;> cases hk
  | cons t ts => exact h

theorem holds_says {ω : Type} {env : Prim.Env ω} (hl : Loads D p T R) {look : Str → Option (Dict Str Tree)}
    (hs : Schemata D p R o env ref look S) {n : Nat} {q : Dict Str Tree}
    (h : Holds D o env ref (raw o D (urlunparse p) T) n q) :
    Says env look (Holds D o env ref (raw o D (urlunparse p) T)) n q := by
  obtain ⟨hb, ts, hw, hn⟩ := h
  have hkn := known hl hs.looks hs.schemas
  have hsays := C78_schema hs.derefs hkn hb
  have hin := hs.inside ts q hw
  refine ⟨hsays.facts, hsays.named, hsays.noItems, ?_, hsays.noProperty, ?_, hsays.parts, ?_, hsays.anyFurther, hsays.noFurther,
    hsays.further, ?_, hsays.noRef, ?_⟩
  · intro d hd
    obtain ⟨m, h1, h2⟩ := hsays.items d hd
    exact ⟨m, h1, holds_inner hn hw (Proofs.Under.written_items hw hd) h2 fun e => hin.items m (e ▸ h1)⟩
  · intro k d hd
    obtain ⟨m, h1, h2⟩ := hsays.property k d hd
    exact ⟨m, h1, holds_inner hn hw (Proofs.Under.written_property hw hd) h2 fun e => hin.property k m (e ▸ h1)⟩
  · intro i d hd
    obtain ⟨m, h1, h2⟩ := hsays.part i d hd
    exact ⟨m, h1, holds_inner hn hw (Proofs.Under.written_part hw hd) h2 fun e => hin.part i m (e ▸ h1)⟩
  · intro d hd
    obtain ⟨m, h1, h2⟩ := hsays.furtherSchema d hd
    exact ⟨m, h1, holds_inner hn hw (Proofs.Under.written_further hw hd) h2 fun e => hin.further m (e ▸ h1)⟩
  · intro r hr
    obtain ⟨j, d, h1, h2, h3, h4, h5⟩ := referred hs.derefs hkn hb hr
    obtain ⟨us, d', rfl, h6, h7⟩ := resolved_at hl h1 h2
    have := hs.looks r us d' h6 h7
    rw [h3] at this
    cases this
    exact ⟨_, d, h3, ⟨h4, us, h7, .inl rfl⟩, h5⟩

theorem schemata {ω : Type} {env : Prim.Env ω} (hl : Loads D p T R) {look : Str → Option (Dict Str Tree)}
    (hs : Schemata D p R o env ref look S) : C79.Setting env (Holds D o env ref (raw o D (urlunparse p) T)) look S where
  tells h := holds_says hl hs h
  leads {n q} h := by
    have two : ∀ {q d}, Leads look q d → ∀ {n}, Holds D o env ref (raw o D (urlunparse p) T) n q →
        ∃ i, env.deref n = .ok i ∧ Holds D o env ref (raw o D (urlunparse p) T) i d := by
      intro q d hld
      induction hld with
      | stop hr => exact fun h => ⟨_, (holds_says hl hs h).noRef hr, h⟩
      | go hr hlk _ ih =>
        intro n h
        obtain ⟨m, d, h1, h2, h3⟩ := (holds_says hl hs h).ref _ hr
        rw [hlk] at h1
        cases h1
        obtain ⟨i, hi, hb⟩ := ih h2
        exact ⟨i, (h3 i).2 hi, hb⟩
    refine ⟨fun i hi => ?_, fun d hld => two hld h⟩
    obtain ⟨d, h1, -⟩ := (C78_references hs.derefs (known hl hs.looks hs.schemas) h.1).1 i hi
    obtain ⟨i', h2, h3⟩ := two h1 h
    rw [hi] at h2
    cases h2
    exact ⟨d, h1, h3⟩
  closed := hs.closed
  handlers := hs.handlers
  order := hs.order
  distinct := hs.distinct
  values := hs.values
  names n q e k hq hr hb hm ht := by
    obtain ⟨-, ts, hw, hn⟩ := hb
    by_cases hd : ts.head? ≠ some c!"definitions" ∨ ts.getLast? = some []
    · rw [hs.tags ts q e hw hd hq hr hm] at ht
      cases ht
    · rw [not_or, Classical.not_not] at hd
      rcases hn with rfl | hn
      · exact (hs.inside ts q hw).name hd.1 hd.2
      · exact absurd hd.1 hn

/-- the schema of a parameter or response, wherever that is -/
theorem holds_schema {ω : Type} {env : Prim.Env ω} {W : MergeRefs.World} {c k : Nat} {url : Str} {ts : List Str} {q s : Dict Str Tree}
    (hst : Stands D url c k ts q) (hb : Proofs.Under.below c = false)
    (hc : Dict.get? (v20 c).child c!"schema" = some (.one cSchema)) (hs : Dict.get? q c!"schema" = some (.dict s)) {m : Nat}
    (h : Belongs env ref W m s) : Holds D o env ref W m s := by
  obtain ⟨us, hw⟩ : ∃ us, Written D us c q := by
    clear hs
    induction hst with
    | inline h _ => exact ⟨_, h⟩
    | ref _ _ _ ih => exact ih
  refine ⟨h, us ++ [c!"schema"], Proofs.Under.written_one hw hs hc (.inl rfl), .inr ?_⟩
  rcases Proofs.Under.outside hw hb [c!"schema"] with h | rfl
  · exact h
  · decide

theorem belongs_body {W : MergeRefs.World} {env : Prim.Env World.Atom} :
    ∀ {l : List (Nat × Tree)} {ds : List (Dict Str Tree)} {ps : List Decl}, List.Forall₂ C77.Of l ds →
      List.Forall₂ (fun d t => _root_.Effective.Declares env d t ∧ BodyShows env ref W d t) ps (l.map Prod.snd) →
      List.Forall₂ (fun d q => Declared env d q ∧ ∀ s, Dict.get? q c!"schema" = some (.dict s) →
        ∃ m, d.schema = some m ∧ Belongs env ref W m s) ps ds
  | _, _, _, .nil, h => by cases h; exact .nil
  | _, _, _, .cons (a := x) (b := q) hx hxs, h => by
    cases h with
    | @cons d _ _ _ hd htl =>
      refine .cons ?_ (belongs_body hxs htl)
      obtain ⟨fs, gs, e1, e2, e3⟩ := hx
      rw [e2] at hd
      have hdec := declared e1 e3 hd.1
      refine ⟨hdec, fun s hs => ?_⟩
      obtain ⟨m, hm⟩ := Option.isSome_iff_exists.1 (hdec.body.1 ⟨s, hs⟩)
      refine ⟨m, hm, ?_⟩
      have hsh := hd.2 m _ _ hm rfl
      rcases child (n := c!"schema") (c' := cSchema) e1 e3 (by decide) rfl rfl with ⟨hq, _⟩ | ⟨s', fs', gs', hs', hpe, hat, hc⟩
      · rcases hq with hq | hq <;> rw [hq] at hs <;> cases hs
      · rw [hs'] at hs
        cases hs
        rw [hat] at hsh
        exact ⟨_, _, hsh, hpe, .inr hc⟩

theorem unnamed_mem {seen : List (Option Str)} {l : List (Dict Str Tree)} (h : q ∈ unnamed seen l) : q ∈ l := by
  induction l generalizing seen with
  | nil => cases h
  | cons d l ih =>
    rw [unnamed] at h
    split at h
    · exact List.mem_cons_of_mem _ (ih h)
    · rcases List.mem_cons.1 h with rfl | h
      · exact List.mem_cons_self ..
      · exact List.mem_cons_of_mem _ (ih h)

theorem inForce_mem (h : q ∈ inForce qs us) : q ∈ qs ++ us := by
  unfold inForce at h
  split at h
  · exact List.mem_append_right _ h
  · rcases List.mem_append.1 h with h | h
    · exact List.mem_append_left _ h
    · exact List.mem_append_right _ (unnamed_mem h)

theorem stands_of (ho : Operation D p R o order mfuel w e ref place method iq oq qs us ps) (hq : q ∈ inForce qs us) :
    ∃ ts k, Stands D (urlunparse p) cParameter k ts q := by
  have hmem : q ∈ qs ++ us := inForce_mem hq
  rcases List.mem_append.1 hmem with h | h
  · obtain ⟨ts, -, h⟩ := forall₂_right ho.forOp q h
    exact ⟨ts, h⟩
  · obtain ⟨ts, -, h⟩ := forall₂_right ho.forItem q h
    exact ⟨ts, h⟩

/-- the body, and the object of its schema -/
theorem body_made (hl : Loads D p T R) (ho : Operation D p R o order mfuel w e ref place method iq oq qs us ps)
    {look : Str → Option (Dict Str Tree)} (hs : Schemata D p R o (World.env w e) ref look S)
    (hdef : ∀ q, S q → Defaults N q) {enc : Prim.Json.Enc World.Atom} (hform : Forms (World.env w e) enc.toJson form)
    {leaf : Prim World.Atom → Except Exc Str} {renv : Io.Env (Prim World.Atom) δ Str} {r r' : Req (Prim World.Atom) Str}
    (ha : ask (World.env w e) leaf fuel ps files op k = .ok r) (hp : prepare renv op sch hf r = .ok r')
    (hfile : r.p.file = []) (hfd : r.p.formData = []) (hq : q ∈ inForce qs us)
    (hname : Dict.get? q c!"name" = some (.atom (.str nm))) (hin : Dict.get? q c!"in" = some (.atom (.str c!"body")))
    (hty : Dict.get? q c!"type" = none ∨ Dict.get? q c!"type" = some (.atom .none)) (hit : Dict.get? q c!"items" = none)
    (hone : ∀ d ∈ inForce qs us, Dict.get? d c!"in" = some (.atom (.str c!"body")) → nameIn d = some nm)
    (hop : op.parameters.map (fun d => (d.name, d.in_)) = ps.map fun q => (q.name, q.in_))
    (hm : ∀ b d, renv.marshal (C24.bodyType op.consumes r.consume) b d = Prim.Json.marshal enc b)
    {s : Dict Str Tree} (hsch : Dict.get? q c!"schema" = some (.dict s)) (hS : S s) {v : Val}
    (hk : Dict.get? k nm = some v) (hv : Proper N v) :
    ∃ d m c, d ∈ ps ∧ Declared (World.env w e) d q ∧ d.schema = some m ∧ convert (World.env w e) fuel m v false = .ok c ∧
      Holds D o (World.env w e) ref (raw o D (urlunparse p) T) m s ∧
      ∀ u, C70.jsonOf enc.toJson c = .ok u → Spec.Json.Plain enc.repr u →
        ∃ body, r'.data = .payload body ∧ Spec.Json.readJson body = some u ∧ Conforms look form N s u := by
  have hset := setting hl ho
  obtain ⟨ts, h1, h2⟩ := parameters_raw hl ho
  obtain ⟨l, hof, rfl⟩ := C77.parameters_of ho.perm hset.forOp hset.forItem h1
  have hall := belongs_body hof h2
  obtain ⟨d, hd, hdec, hbel⟩ := forall₂_right hall q hq
  obtain ⟨m, hm1, hm2⟩ := hbel s hsch
  obtain ⟨ts', k', hst⟩ : ∃ ts' k', Stands D (urlunparse p) cParameter k' ts' q := stands_of ho hq
  have hdn : d.name = nm := by
    have := hdec.name; rw [hname] at this; simpa using this.symm
  have hdi : d.in_ = c!"body" := by
    have := hdec.location; rw [hin] at this; simpa using this.symm
  have hall' := hall.imp fun _ _ h => h.1
  have hnd : (ps.map Decl.name).Nodup := by
    have hn := C77.names_declared hall'
    have hnd := ho.distinct
    rw [← hn] at hnd
    have : ps.map (fun p => some p.name) = (ps.map Decl.name).map some := by rw [List.map_map]; rfl
    rw [this] at hnd
    exact List.Pairwise.of_map some (fun a b h e => h (by rw [e])) hnd
  have hlim := limits hdec.object
  have hsup : C72.Supplied (World.env w e) ps k d v := by
    refine ⟨hnd, hd, ?_, ?_, ?_⟩
    · have := hlim.type
      unfold Text at this
      rcases hty with hty | hty <;> rw [hty] at this <;> rw [this] <;> simp
    · rintro ⟨it, g1, -⟩
      cases hdec.object with
      | plain _ _ h => rw [h] at g1; cases g1
      | array _ g2 => rw [hit] at g2; cases g2
    · unfold Spec.Calls.given
      rw [hdn, hk]
  have hone' : ∀ d' ∈ ps, d'.in_ = c!"body" → d'.name = d.name := by
    intro d' hd' hb
    obtain ⟨q', hq', hdec'⟩ := forall₂_right hall'.flip d' hd'
    have := hone q' hq' (by rw [hdec'.location, hb])
    unfold nameIn at this
    rw [hdec'.name] at this
    rw [hdn]
    exact Option.some.inj this
  have hh := holds_schema (o := o) hst rfl rfl hsch hm2
  obtain ⟨c, hc, hrest⟩ := C79_received (schemata hl hs) hdef hform ha hp hfile hfd hsup hdi hone' hop hm hm1 hh hS hv
  exact ⟨d, m, c, hd, hdec, hm1, hc, hh, hrest⟩

/-- **C82, body.** The body of a request is a JSON text, and the value any reader of RFC 8259 reads from it conforms to
the schema the document writes for the body parameter in force. -/
theorem C82_body (hl : Loads D p T R) (ho : Operation D p R o order mfuel w e ref place method iq oq qs us ps)
    {look : Str → Option (Dict Str Tree)} (hs : Schemata D p R o (World.env w e) ref look S)
    (hdef : ∀ q, S q → Defaults N q) {enc : Prim.Json.Enc World.Atom} (hform : Forms (World.env w e) enc.toJson form)
    {leaf : Prim World.Atom → Except Exc Str} {renv : Io.Env (Prim World.Atom) δ Str} {r r' : Req (Prim World.Atom) Str}
    (ha : ask (World.env w e) leaf fuel ps files op k = .ok r) (hp : prepare renv op sch hf r = .ok r')
    (hfile : r.p.file = []) (hfd : r.p.formData = []) (hq : q ∈ inForce qs us)
    (hname : Dict.get? q c!"name" = some (.atom (.str nm))) (hin : Dict.get? q c!"in" = some (.atom (.str c!"body")))
    (hty : Dict.get? q c!"type" = none) (hit : Dict.get? q c!"items" = none)
    (hone : ∀ d ∈ inForce qs us, Dict.get? d c!"in" = some (.atom (.str c!"body")) → nameIn d = some nm)
    (hop : op.parameters.map (fun d => (d.name, d.in_)) = ps.map fun q => (q.name, q.in_))
    (hm : ∀ b d, renv.marshal (C24.bodyType op.consumes r.consume) b d = Prim.Json.marshal enc b)
    {s : Dict Str Tree} (hsch : Dict.get? q c!"schema" = some (.dict s)) (hS : S s) {v : Val}
    (hk : Dict.get? k nm = some v) (hv : Proper N v) :
    ∃ d m c, d ∈ ps ∧ Declared (World.env w e) d q ∧ d.schema = some m ∧ convert (World.env w e) fuel m v false = .ok c ∧
      ∀ u, C70.jsonOf enc.toJson c = .ok u → Spec.Json.Plain enc.repr u →
        ∃ body, r'.data = .payload body ∧ Spec.Json.readJson body = some u ∧ Conforms look form N s u := by
  obtain ⟨d, m, c, h1, h2, h3, h4, -, h5⟩ := body_made hl ho hs hdef hform ha hp hfile hfd hq hname hin (.inl hty) hit hone hop hm hsch hS hk hv
  exact ⟨d, m, c, h1, h2, h3, h4, h5⟩

/-! ## replies -/

variable {ω : Type} {env : Prim.Env ω} {stack : Nat} {table : Dict Str (RespDecl Nat Nat)} {out : Reply.Outside}
  {toJson : AtomKind → ω → Except Exc Str}

/-- The table of responses of the operation `oq` at `place`: each declared in place or by references. -/
structure Responses (D : Tree) (p : Url) (R : Tree) (o : Loaded.Outside) (order : List Atom → List Atom) (mfuel : Nat)
    {ω : Type} (env : Prim.Env ω) (ref : Nat → Option Nat) (place : List Str) (oq : Dict Str Tree)
    (table : Dict Str (RespDecl Nat Nat)) : Prop where
  operation : Written D place cOperation oq
  perm : ∀ l, (order l).Perm l
  stand : ∀ x ∈ named place c!"responses" oq, ∃ k q, Stands D (urlunparse p) cResponse k x.2 q
  table : Reply.Table env ref (world o (urlunparse p) R) order mfuel
    ((named place c!"responses" oq).map fun x => (x.1, o.num x.2)) table

theorem table_of (hl : Loads D p T R) (ht : Responses D p R o order mfuel env ref place oq table) :
    Reply.Table env ref (raw o D (urlunparse p) T) order mfuel
      ((named place c!"responses" oq).map fun x => (x.1, o.num x.2)) table := by
  refine table_raw hl ht.table fun x hx => ?_
  obtain ⟨y, hy, rfl⟩ := List.mem_map.1 hx
  obtain ⟨k, q, h⟩ := ht.stand y hy
  exact stands_mine h

theorem get_numbered {α β : Type} (g : α → β) (l : List (Str × α)) (n : Str) :
    Dict.get? (l.map fun x => (x.1, g x.2)) n = (Dict.get? l n).map g := by
  induction l with
  | nil => rfl
  | cons x l ih =>
    obtain ⟨m, a⟩ := x
    rw [List.map_cons, Dict.get?, Dict.get?]
    split
    · rfl
    · exact ih

theorem entry_numbered {α β : Type} (g : α → β) {l : List (Str × α)} {n : Int} {a : α} (h : entryFor l n = some a) :
    entryFor (l.map fun x => (x.1, g x.2)) n = some (g a) := by
  unfold entryFor at h ⊢
  rw [get_numbered, get_numbered]
  cases hx : Dict.get? l (toString n).toList with
  | some b => rw [hx] at h; cases h; rfl
  | none => rw [hx] at h; dsimp only at h; rw [h]; rfl

/-- **C82, replies accepted.** A reply whose body conforms to the schema the document writes for the status, and whose
declared headers read as values that conform, is accepted: the data stands for the very JSON value that was sent. -/
theorem C82_reply (hl : Loads D p T R) (ht : Responses D p R o order mfuel (World.env w e) ref place oq table)
    {look : Str → Option (Dict Str Tree)} {toJson : AtomKind → World.Atom → Except Exc Str}
    {S' : Dict Str Tree → Prop} {M : Prop} (hset : Schemata D p R o (World.env w e) ref look S')
    (hback : Back (World.env w e) toJson form) (hneu : ∀ q, S' q → Neutral False q)
    (hloads : ∀ s v, Spec.Json.readJson s = some v → out.loads s = .ok v)
    (hlow : out.text.lower c!"content-type" = c!"content-type") (hj : JsonType out c!"application/json") {z : Int}
    {ts : List Str} (hi : entryFor (named place c!"responses" oq) z = some ts) {k : Nat} {s : Dict Str Tree}
    (hm : Stands D (urlunparse p) cResponse k ts q) (hs : Dict.get? q c!"schema" = some (.dict s)) (hS' : S' s)
    {txt : Str} {raw : Bytes ⊕ Str} (hraw : raw = .inr txt ∨ raw = .inl (utf8 txt)) {v : Val}
    (hv : Spec.Json.readJson txt = some v) (hc : Conforms look form M s v)
    (hn : v = .none → ∃ d, Leads look s d) {hd : List (Str × Str)}
    (hct : ∀ h ∈ hd, out.text.lower h.1 = c!"content-type" → headerAt q h.1 = none ∧ JsonType out (out.text.lower h.2))
    (hder : ∀ n, (e.node n).isSchema = false → e.deref n = .ok n) (hS : Within S) (hlit : ∀ q, S q → Literal q)
    (hhd : ∀ h ∈ hd, headerAt q h.1 = none ∨ ∃ d u, headerAt q h.1 = some (.dict d) ∧ S d ∧ Reads d h.2 u ∧
      Conforms (fun _ => none) form N d u) :
    ∃ F, ∀ stack, F ≤ stack →
      ∃ x v', (applyWith (Reply.renv out (World.env w e) stack) table Resp.init ⟨some z, some raw, some hd⟩).2 = none ∧
        (applyWith (Reply.renv out (World.env w e) stack) table Resp.init ⟨some z, some raw, some hd⟩).1.data = some x ∧
        C70.jsonOf toJson x = .ok v' ∧ Same v v' :=
  C81.C81_reply ht.perm (schemata hl hset) hback hneu hloads hlow hj (table_of hl ht) (entry_numbered o.num hi)
    (means hl (by decide) hm) hs hS' (fun m h => holds_schema hm rfl rfl hs h) hraw hv hc hn hct hder hS hlit hhd

/-- **C82, data.** Whatever was received before: the data of a reply that raises nothing conforms to the schema the
document writes for the status. -/
theorem C82_data (hl : Loads D p T R) (ht : Responses D p R o order mfuel env ref place oq table)
    {look : Str → Option (Dict Str Tree)} (hset : Schemata D p R o env ref look S)
    (hdef : ∀ q, S q → Defaults N q) (hform : Forms env toJson form)
    (hlow : out.text.lower c!"content-type" = c!"content-type") (cs : List (RespCall (Bytes ⊕ Str)))
    (c : RespCall (Bytes ⊕ Str)) {raw : Bytes ⊕ Str} (hraw : c.raw = some raw) {z : Int}
    (hz : C28.latest ((cs ++ [c]).map (·.status)) none = some z)
    {ts : List Str} (hi : entryFor (named place c!"responses" oq) z = some ts) {k : Nat} {s : Dict Str Tree}
    (hm : Stands D (urlunparse p) cResponse k ts q) (hs : Dict.get? q c!"schema" = some (.dict s)) (hS : S s)
    (hval : ∀ ct v, Codec.withCodec out.text out.codecs ct (out.unmarshal raw) = .ok v → Proper N v)
    (hok : (applyWith (Reply.renv out env stack) table
      { applyAll (Reply.renv out env stack) table Resp.init cs with rawBodyOnly := false } c).2 = none) :
    ∃ x, (applyWith (Reply.renv out env stack) table
      { applyAll (Reply.renv out env stack) table Resp.init cs with rawBodyOnly := false } c).1.data = some x ∧
      ∀ u, C70.jsonOf toJson x = .ok u → Spec.Json.nonfinite u = false → Conforms look form N s u :=
  C80.C80_data ht.perm (schemata hl hset) hdef hform hlow (table_of hl ht) cs c hraw hz (entry_numbered o.num hi)
    (means hl (by decide) hm) hs hS (fun m h => holds_schema hm rfl rfl hs h) hval hok

/-- **C82, headers received.** -/
theorem C82_received (hl : Loads D p T R) (ht : Responses D p R o order mfuel env ref place oq table)
    (hreg : env.reg = builtins) (hder : ∀ n, (env.node n).isSchema = false → env.deref n = .ok n) (hS : Within S)
    (hform : Forms env toJson form) (cs : List (RespCall (Bytes ⊕ Str))) (c : RespCall (Bytes ⊕ Str)) {z : Int}
    (hz : C28.latest ((cs ++ [c]).map (·.status)) none = some z)
    {ts : List Str} (hi : entryFor (named place c!"responses" oq) z = some ts) {k : Nat}
    (hm : Stands D (urlunparse p) cResponse k ts q) {b : Bool}
    (hok : (applyWith (Reply.renv out env stack) table
      { applyAll (Reply.renv out env stack) table Resp.init cs with rawBodyOnly := b } c).2 = none) {hd : List (Str × Str)}
    (hh : c.header = some hd) {x t : Str} (hx : (x, t) ∈ hd) {x' : Str} (hx' : out.text.lower x' = out.text.lower x) :
    ∃ l y, Utils.CIDict.getitem out.text.lower (applyWith (Reply.renv out env stack) table
        { applyAll (Reply.renv out env stack) table Resp.init cs with rawBodyOnly := b } c).1.header x' = .ok l ∧ y ∈ l ∧
      (headerAt q x = none → y = .str t) ∧
      ∀ d, headerAt q x = some (.dict d) → S d → ∀ v, C70.jsonOf toJson y = .ok v → Spec.Json.nonfinite v = false →
        (nulls v = true → N) → Conforms (fun _ => none) form N d v :=
  C81.C81_received ht.perm (table_of hl ht) hreg hder hS hform cs c hz (entry_numbered o.num hi)
    (means hl (by decide) hm) hok hh hx hx'

end Props.C82
