import Verif.Proofs.Made
/-!
# C83: the objects of a document are made, and requests and replies follow the document alone

C82 takes the objects of conversion as given, with hypotheses that they are the ones of the document. Here they are the
ones `Model/Objects.lean` makes: by the places of the document, and by the places inside the objects `final` that `Merge`
adds. Preparing ends without exception, dereferencing never runs into its bound, and nothing is assumed of any object:
the hypotheses are about what is written in the document.
-/

namespace Props.C83
open Py Utils Tree _root_.Doc Prim Spec Spec.Places Spec.Pointed Spec.Described Spec.SchemaDoc Spec.Conform Spec.Wire
open Spec.Reply _root_.Loaded Proofs.Loaded Proofs.Origin Proofs.Wire Proofs.Effective Proofs.Fit Proofs.Made Props.C78 Props.C79
open Props.C81 (Present Value Legible Clear inUrl Literal)
open Props.C82 (Operation Schemata Responses BodyShows)
open _root_.Effective (attr)
open Call Io Ask Spec.Server Props.C72

variable {D T R : Tree} {p : Url} {o : Objects.Outside}
variable {w : World.Outside} {e : Prim.Env World.Atom} {other : Prim World.Atom → Str} {S : Dict Str Tree → Prop}
  {form : Str → Str → Prop} {N : Prop} {order : List Atom → List Atom} {fuel : Nat} {look : Str → Option (Dict Str Tree)}
  {place : List Str} {method : Str} {qs us : List (Dict Str Tree)} {δ π : Type}
  {files : FileArg World.Atom → FileVal} {op : Op δ} {k : Dict Str Val} {renv : Io.Env (Prim World.Atom) δ π}
  {sch : SchemeArg} {hf : Bool} {nm : Str} {q iq oq : Dict Str Tree}

/-- What the document says about its schemas: `look` is what its references lead to, the schemas `S` are within reach.
Schemas with a discriminator, of their own or in a part, are written below `definitions`, under a name that is not
empty: the library has a name for no others. -/
structure Schemed (D : Tree) (p : Url) (look : Str → Option (Dict Str Tree)) (S : Dict Str Tree → Prop) : Prop where
  looks : ∀ r ts q, Names (urlunparse p) r ts → Written D ts cSchema q → look r = some q
  closed : Closed look S
  values : ∀ q, S q → ∀ t ∈ listAt q c!"enum", ∀ c fs, t ≠ .obj c fs
  tags : ∀ ts q e, Written D ts cSchema q → ts.head? ≠ some c!"definitions" ∨ ts.getLast? = some [] → S q →
    refAt q = none → Member look q e → textAt e c!"discriminator" = none

/-- What the document says about the parameters of an operation: `oq` is written for the method in the path item `iq` at
`place` (without reference); `qs` are the dicts that declare its own parameters, `us` those of the path item, in place or
by references, each with the texts `name` and `in`; no two in force have the same name. -/
structure Asked (D : Tree) (p : Url) (place : List Str) (method : Str) (iq oq : Dict Str Tree)
    (qs us : List (Dict Str Tree)) : Prop where
  item : Written D place cPathItem iq
  inPlace : Dict.get? iq c!"$ref" = none
  operation : Dict.get? iq method = some (.dict oq) ∧ Dict.get? (v20 cPathItem).child method = some (.one cOperation)
  forOp : List.Forall₂ (fun ts q => ∃ k, Stands D (urlunparse p) cParameter k ts q)
    (elements (place ++ [method]) c!"parameters" oq) qs
  forItem : List.Forall₂ (fun ts q => ∃ k, Stands D (urlunparse p) cParameter k ts q) (elements place c!"parameters" iq) us
  texts : ∀ q ∈ qs ++ us, (∃ s, Dict.get? q c!"name" = some (.atom (.str s))) ∧ ∃ s, Dict.get? q c!"in" = some (.atom (.str s))
  distinct : ((inForce qs us).map nameIn).Nodup

/-- What the document says about the responses of an operation: each is declared in place or by references. -/
structure Answered (D : Tree) (p : Url) (place : List Str) (oq : Dict Str Tree) : Prop where
  operation : Written D place cOperation oq
  stand : ∀ x ∈ named place c!"responses" oq, ∃ k q, Stands D (urlunparse p) cResponse k x.2 q

/-! ## the objects -/

/-- **C83, dereferencing.** `deref` of any object ends within a number of rounds that depends on the document only: its
bound is never the reason for an exception. -/
theorem C83_deref : ∃ b, ∀ rounds, b ≤ rounds → ∀ (url : Str) mfuel n,
    ∃ r, Utils.deref rounds (Objects.ref o url R order mfuel) n = some r :=
  ⟨bound R, fun _ hr _ _ n => derefs_ends hr n⟩

/-- the object of a place where a schema is written -/
theorem found_at (hl : Loads D p T R) {ts : List Str} {q : Dict Str Tree} (hw : Written D ts cSchema q) (mfuel : Nat) :
    ∃ fs, Objects.found o (urlunparse p) R order mfuel (o.num ts) =
      some ⟨cSchema, fs, Objects.nameAt o.version12 ts, fun us => o.num (ts ++ us)⟩ := by
  obtain ⟨fs, -, h2, -⟩ := Proofs.Placed.written_parse hl.read hw
  have hres := Proofs.Placed.object_map (f := absolute (urlunparse p)) (filled hl) h2
  rw [← normal_form hl] at hres
  unfold Objects.found
  rw [o.apart]
  dsimp only
  rw [o.left, hres]
  exact ⟨_, rfl⟩

theorem inside_of {ω : Type} (e : Prim.Env ω) {ts : List Str} {fs : List (Str × Tree)} {rounds mfuel : Nat} {url : Str}
    (h : Objects.found o url R order mfuel (o.num ts) =
      some ⟨cSchema, fs, Objects.nameAt o.version12 ts, fun us => o.num (ts ++ us)⟩) :
    C82.Inside (Objects.env o url R order mfuel rounds e) o.num ts := by
  have hnode : (Objects.env o url R order mfuel rounds e).node (o.num ts) = Schemas.nodeOf fs (Objects.nameAt o.version12 ts)
      (Objects.one ⟨cSchema, fs, Objects.nameAt o.version12 ts, fun us => o.num (ts ++ us)⟩ c!"items")
      (Objects.many ⟨cSchema, fs, Objects.nameAt o.version12 ts, fun us => o.num (ts ++ us)⟩ c!"allOf")
      (Objects.named ⟨cSchema, fs, Objects.nameAt o.version12 ts, fun us => o.num (ts ++ us)⟩ c!"properties")
      (Objects.further ⟨cSchema, fs, Objects.nameAt o.version12 ts, fun us => o.num (ts ++ us)⟩) := by
    show Objects.node o url R order mfuel (o.num ts) = _
    unfold Objects.node
    rw [h]
    rfl
  refine ⟨fun hd hne => ?_, fun m hm => ?_, fun k m hm => ?_, fun i m hm => ?_, fun m hm => ?_⟩
  · rw [hnode]
    show ∃ s, some (Objects.nameAt o.version12 ts) = some (some s)
    unfold Objects.nameAt
    rw [if_pos hd]
    cases hg : ts.getLast? with
    | none =>
      rw [List.getLast?_eq_none_iff] at hg
      subst hg; cases hd
    | some t =>
      cases t with
      | nil => exact absurd hg hne
      | cons c t =>
        cases o.version12 with
        | false => exact ⟨_, rfl⟩
        | true =>
          rw [if_pos rfl]
          show ∃ s, some (((Py.split Utils.SCOPE_SEPARATOR (c :: t)).map some).getLast?.join) = some (some s)
          rw [List.getLast?_map]
          cases hs : (Py.split Utils.SCOPE_SEPARATOR (c :: t)).getLast? with
          | some x => exact ⟨x, rfl⟩
          | none =>
            rw [List.getLast?_eq_none_iff] at hs
            exact absurd hs (splitGo_ne_nil _ _ _)
  · rw [hnode] at hm
    replace hm : Objects.one _ _ = some m := hm
    unfold Objects.one at hm
    split at hm
    · cases hm
    · exact (Option.some.inj hm).symm
  · rw [hnode] at hm
    replace hm : Dict.get? (Objects.named _ _) k = some m := hm
    unfold Objects.named at hm
    split at hm
    · have := Dict.mem_of_get? hm
      obtain ⟨x, -, hx⟩ := List.mem_map.1 this
      cases hx; rfl
    · cases hm
  · rw [hnode] at hm
    replace hm : (Objects.many _ _)[i]? = some m := hm
    unfold Objects.many at hm
    rw [List.getElem?_map] at hm
    cases hr : (List.range _)[i]? with
    | none => rw [hr] at hm; cases hm
    | some x =>
      rw [hr] at hm
      have := (List.getElem?_eq_some_iff.1 hr).2
      rw [List.getElem_range] at this
      subst this
      exact (Option.some.inj hm).symm
  · rw [hnode] at hm
    replace hm : Objects.further _ = .schema m := hm
    unfold Objects.further at hm
    split at hm
    · cases hm
    · cases hm
    · cases hm; rfl

/-- the same, with the number of rounds it takes -/
theorem schemata_of (hl : Loads D p T R) (hs : Schemed D p look S) {rounds : Nat} (hr : bound R ≤ rounds)
    {ω : Type} (e : Prim.Env ω) (hreg : e.reg = builtins) (ho : ∀ l, (e.order l).Perm l) (mfuel : Nat) :
      Schemata D p R o.toOutside (Objects.env o (urlunparse p) R order mfuel rounds e)
        (Objects.ref o (urlunparse p) R order mfuel) look S := by
  refine ⟨derefs_of hr fun _ => rfl, fun ts q hw => ?_,
    fun ts q hw => (found_at hl hw mfuel).elim fun _ h => inside_of e h, hs.looks, hs.closed, hreg, ho,
    distinct, hs.values, hs.tags⟩
  obtain ⟨fs, hp, e1, e2, e3⟩ := content_raw (o := o.toOutside) hl hw
  rw [e2]
  have hfit := fit_map (o := o.toOutside) hl (fit_twin hl q hw hp (.inl rfl)) e3
  have hnum : Numbered o (urlunparse p) R order mfuel (fun us => o.num (ts ++ us))
      (mapRefs (absolute (urlunparse p)) (.obj cSchema fs)) := by
    refine numbered_doc ?_
    obtain ⟨fs', h1, h2, -⟩ := Proofs.Placed.written_parse hl.read hw
    rw [hp] at h1
    cases h1
    rw [normal_form hl]
    exact Proofs.Placed.object_map (filled hl) h2
  have := shown (env := Objects.env o (urlunparse p) R order mfuel rounds e) (fun _ => rfl) hfit hnum
  rw [List.append_nil] at this
  exact this

/-- **C83, schemas.** The objects of the conversion are the schemas the document writes. -/
theorem C83_schemata (hl : Loads D p T R) (hs : Schemed D p look S) : ∃ b, ∀ rounds, b ≤ rounds →
    ∀ {ω : Type} (e : Prim.Env ω), e.reg = builtins → (∀ l, (e.order l).Perm l) → ∀ mfuel,
      Schemata D p R o.toOutside (Objects.env o (urlunparse p) R order mfuel rounds e)
        (Objects.ref o (urlunparse p) R order mfuel) look S :=
  ⟨bound R, fun _ hr _ e hreg ho mfuel => schemata_of hl hs hr e hreg ho mfuel⟩

theorem declared_all {env : Prim.Env World.Atom} {ref : Nat → Option Nat} {W : MergeRefs.World} :
    ∀ (l : List (Nat × Tree)), (∀ x ∈ l, _root_.Effective.Declares env (Objects.decl o x) x.2 ∧
      BodyShows env ref W (Objects.decl o x) x.2) →
    List.Forall₂ (fun d t => _root_.Effective.Declares env d t ∧ BodyShows env ref W d t) (l.map (Objects.decl o))
      (l.map Prod.snd)
  | [], _ => .nil
  | x :: l, h => .cons (h x (List.mem_cons_self ..)) (declared_all l fun y hy => h y (List.mem_cons_of_mem _ hy))

/-- **C83, operations.** The parameters of an operation are made without exception, and are the ones the document
declares. -/
theorem C83_operation (hl : Loads D p T R) (hst : Styled D) (ho : ∀ l, (order l).Perm l)
    (ha : Asked D p place method iq oq qs us) (hw : C74.Sound w) : ∃ b, ∀ mfuel, b ≤ mfuel → ∀ rounds, b ≤ rounds →
    ∃ ps, Objects.decls o (urlunparse p) R order mfuel ((elements (place ++ [method]) c!"parameters" oq).map o.num)
        ((elements place c!"parameters" iq).map o.num) = some ps ∧
      ∀ e, Operation D p R o.toOutside order mfuel w (Objects.env o (urlunparse p) R order mfuel rounds e)
        (Objects.ref o (urlunparse p) R order mfuel) place method iq oq qs us ps := by
  obtain ⟨b1, h1⟩ := finals_made (o := o) hl hst ho ha.forOp
  obtain ⟨b2, h2⟩ := finals_made (o := o) hl hst ho ha.forItem
  refine ⟨b1 + b2 + bound R, fun mfuel hm rounds hr => ?_⟩
  obtain ⟨f1, e1, g1⟩ := h1 mfuel (by omega)
  obtain ⟨f2, e2, g2⟩ := h2 mfuel (by omega)
  refine ⟨_, by rw [Objects.decls, e1, e2], fun e => ⟨ha.item, ha.inPlace, ha.operation, ho, ha.forOp, ha.forItem, ?_, ha.distinct,
    fun n h => direct (by omega) h, hw⟩⟩
  refine ⟨_, by rw [_root_.Effective.parameters, e1, e2], declared_all _ fun x hx => ?_⟩
  obtain ⟨q, hq, hx⟩ : ∃ q ∈ qs ++ us, Ready D p R o order mfuel cParameter q x.1 x.2 := by
    rcases C82.patched_mem hx with hx | hx
    · obtain ⟨q, hq, h⟩ := g1 x hx
      exact ⟨q, List.mem_append_left _ hq, h⟩
    · obtain ⟨q, hq, h⟩ := g2 x hx
      exact ⟨q, List.mem_append_right _ hq, h⟩
  obtain ⟨⟨s1, t1⟩, s2, t2⟩ := ha.texts q hq
  exact parameter_shown hl hx (fun _ => rfl) t1 t2

/-- **C83, responses.** The table of responses is made without exception, and is the one the document declares. -/
theorem C83_responses (hl : Loads D p T R) (hst : Styled D) (ho : ∀ l, (order l).Perm l)
    (ha : Answered D p place oq) : ∃ b, ∀ mfuel, b ≤ mfuel →
    ∃ table, Objects.table o (urlunparse p) R order mfuel
        ((named place c!"responses" oq).map fun x => (x.1, o.num x.2)) = some table ∧
      ∀ {ω : Type} (e : Prim.Env ω) rounds, Responses D p R o.toOutside order mfuel
        (Objects.env o (urlunparse p) R order mfuel rounds e) (Objects.ref o (urlunparse p) R order mfuel) place oq table := by
  obtain ⟨b, h⟩ := table_made (o := o) hl hst ho _ ha.stand
  refine ⟨b, fun mfuel hm => ?_⟩
  obtain ⟨table, h1, h2⟩ := h mfuel hm
  exact ⟨table, h1, fun e rounds => ⟨ha.operation, ho, ha.stand, h2 _ fun _ => rfl⟩⟩

/-- **C83, parameters.** They are those of the declarations in force, in this order. -/
theorem C83_parameters (hl : Loads D p T R) (hst : Styled D) (ho : ∀ l, (order l).Perm l)
    (ha : Asked D p place method iq oq qs us) (hw : C74.Sound w) : ∃ b, ∀ mfuel, b ≤ mfuel → ∀ rounds, b ≤ rounds →
    ∃ ps, Objects.decls o (urlunparse p) R order mfuel ((elements (place ++ [method]) c!"parameters" oq).map o.num)
        ((elements place c!"parameters" iq).map o.num) = some ps ∧
      ∀ e, List.Forall₂ (Declared (World.env w (Objects.env o (urlunparse p) R order mfuel rounds e))) ps (inForce qs us) := by
  obtain ⟨b, h⟩ := C83_operation (o := o) hl hst ho ha hw
  refine ⟨b, fun mfuel hm rounds hr => ?_⟩
  obtain ⟨ps, h1, h2⟩ := h mfuel hm rounds hr
  refine ⟨ps, h1, fun e => ?_⟩
  have hset := C82.setting hl (h2 e)
  obtain ⟨ts, g1, g2⟩ := C82.parameters_raw hl (h2 e)
  obtain ⟨l, hof, rfl⟩ := C77.parameters_of ho hset.forOp hset.forItem g1
  exact (C82.belongs_body hof g2).imp fun _ _ h => h.1

/-! ## requests -/

/-- **C83, query.** -/
theorem C83_query (hl : Loads D p T R) (hst : Styled D) (ho : ∀ l, (order l).Perm l)
    (hasked : Asked D p place method iq oq qs us) (hw : C74.Sound w)
    (hS : Within S) (hform : Forms (World.env w e) (inUrl w other) form) (hq : q ∈ inForce qs us) (hSq : S q)
    (hname : Dict.get? q c!"name" = some (.atom (.str nm))) (hin : Dict.get? q c!"in" = some (.atom (.str c!"query")))
    (hpr : Present q k nm) : ∃ b, ∀ mfuel, b ≤ mfuel → ∀ rounds, b ≤ rounds →
    ∃ ps, Objects.decls o (urlunparse p) R order mfuel ((elements (place ++ [method]) c!"parameters" oq).map o.num)
        ((elements place c!"parameters" iq).map o.num) = some ps ∧
      ∀ {fuel : Nat} {r r' : Req (Prim World.Atom) π},
      ask (World.env w (Objects.env o (urlunparse p) R order mfuel rounds e)) (World.leaf w other) fuel ps files op k = .ok r →
      prepare renv op sch hf r = .ok r' →
      ∃ v c, Value q k nm v ∧
        (∃ d, Declared (World.env w (Objects.env o (urlunparse p) R order mfuel rounds e)) d q ∧
          convert (World.env w (Objects.env o (urlunparse p) R order mfuel rounds e)) fuel d.obj v false = .ok c) ∧
        (Legible (World.leaf w other) c → ∃ val,
          ReadsAll q ((r'.p.query.filter fun x => x.1 = nm).map Prod.snd) val ∧
          Conforms (fun _ => none) form False q val) := by
  obtain ⟨b, h⟩ := C83_operation (o := o) hl hst ho hasked hw
  refine ⟨b, fun mfuel hm rounds hr => ?_⟩
  obtain ⟨ps, h1, h2⟩ := h mfuel hm rounds hr
  refine ⟨ps, h1, fun ha hp => ?_⟩
  obtain ⟨d, v, c, g1, g2, g3, g4⟩ := C82.C82_query hl (h2 e) hS ⟨hform.email, hform.object, hform.unknown⟩ hq hSq hname hin hpr ha hp
  exact ⟨v, c, g2, ⟨d, g1, g3⟩, g4⟩

/-- **C83, form.** -/
theorem C83_form (hl : Loads D p T R) (hst : Styled D) (ho : ∀ l, (order l).Perm l)
    (hasked : Asked D p place method iq oq qs us) (hw : C74.Sound w)
    (hS : Within S) (hform : Forms (World.env w e) (inUrl w other) form) (hq : q ∈ inForce qs us) (hSq : S q)
    (hname : Dict.get? q c!"name" = some (.atom (.str nm))) (hin : Dict.get? q c!"in" = some (.atom (.str c!"formData")))
    (hpr : Present q k nm) : ∃ b, ∀ mfuel, b ≤ mfuel → ∀ rounds, b ≤ rounds →
    ∃ ps, Objects.decls o (urlunparse p) R order mfuel ((elements (place ++ [method]) c!"parameters" oq).map o.num)
        ((elements place c!"parameters" iq).map o.num) = some ps ∧
      ∀ {fuel : Nat} {r r' : Req (Prim World.Atom) π},
      ask (World.env w (Objects.env o (urlunparse p) R order mfuel rounds e)) (World.leaf w other) fuel ps files op k = .ok r →
      prepare renv op sch hf r = .ok r' → r.p.file = [] → r.p.formData ≠ [] →
      ∃ body l, r'.data = .text body ∧ formDecode body = some l ∧ ∃ v c, Value q k nm v ∧
        (∃ d, Declared (World.env w (Objects.env o (urlunparse p) R order mfuel rounds e)) d q ∧
          convert (World.env w (Objects.env o (urlunparse p) R order mfuel rounds e)) fuel d.obj v false = .ok c) ∧
        (Legible (World.leaf w other) c → ∃ val, ReadsAll q ((l.filter fun x => x.1 = nm).map Prod.snd) val ∧
          Conforms (fun _ => none) form False q val) := by
  obtain ⟨b, h⟩ := C83_operation (o := o) hl hst ho hasked hw
  refine ⟨b, fun mfuel hm rounds hr => ?_⟩
  obtain ⟨ps, h1, h2⟩ := h mfuel hm rounds hr
  refine ⟨ps, h1, fun ha hp hfile hfd => ?_⟩
  obtain ⟨body, l, f1, f2, d, v, c, g1, g2, g3, g4⟩ :=
    C82.C82_form hl (h2 e) hS ⟨hform.email, hform.object, hform.unknown⟩ hq hSq hname hin hpr ha hp hfile hfd
  exact ⟨body, l, f1, f2, v, c, g2, ⟨d, g1, g3⟩, g4⟩

/-- **C83, header.** -/
theorem C83_header (hl : Loads D p T R) (hst : Styled D) (ho : ∀ l, (order l).Perm l)
    (hasked : Asked D p place method iq oq qs us) (hw : C74.Sound w)
    (hS : Within S) (hform : Forms (World.env w e) (inUrl w other) form) (hq : q ∈ inForce qs us) (hSq : S q)
    (hname : Dict.get? q c!"name" = some (.atom (.str nm))) (hin : Dict.get? q c!"in" = some (.atom (.str c!"header")))
    (hpr : Present q k nm)
    (hno : ∀ d ∈ inForce qs us, ∀ s, nameIn d = some s → renv.lower s = renv.lower nm → s = nm) {x : Str}
    (hx : renv.lower x = renv.lower nm) (hx1 : renv.lower x ≠ renv.lower c!"Accept")
    (hx2 : renv.lower x ≠ renv.lower c!"Content-Type") : ∃ b, ∀ mfuel, b ≤ mfuel → ∀ rounds, b ≤ rounds →
    ∃ ps, Objects.decls o (urlunparse p) R order mfuel ((elements (place ++ [method]) c!"parameters" oq).map o.num)
        ((elements place c!"parameters" iq).map o.num) = some ps ∧
      ∀ {fuel : Nat} {r r' : Req (Prim World.Atom) π},
      ask (World.env w (Objects.env o (urlunparse p) R order mfuel rounds e)) (World.leaf w other) fuel ps files op k = .ok r →
      prepare renv op sch hf r = .ok r' →
      ∃ v c t, Value q k nm v ∧
        (∃ d, Declared (World.env w (Objects.env o (urlunparse p) R order mfuel rounds e)) d q ∧
          convert (World.env w (Objects.env o (urlunparse p) R order mfuel rounds e)) fuel d.obj v false = .ok c) ∧
        Utils.CIDict.getitem renv.lower r'.header x = .ok t ∧
        (Clear (World.leaf w other) c → ∃ val, Reads q t val ∧ Conforms (fun _ => none) form False q val) := by
  obtain ⟨b, h⟩ := C83_operation (o := o) hl hst ho hasked hw
  refine ⟨b, fun mfuel hm rounds hr => ?_⟩
  obtain ⟨ps, h1, h2⟩ := h mfuel hm rounds hr
  refine ⟨ps, h1, fun ha hp => ?_⟩
  obtain ⟨d, v, c, t, g1, g2, g3, g4, g5⟩ := C82.C82_header hl (h2 e) hS ⟨hform.email, hform.object, hform.unknown⟩ hq hSq hname hin hpr ha hp hno hx hx1 hx2
  exact ⟨v, c, t, g2, ⟨d, g1, g3⟩, g4, g5⟩

/-- **C83, path.** -/
theorem C83_path (hl : Loads D p T R) (hst : Styled D) (ho : ∀ l, (order l).Perm l)
    (hasked : Asked D p place method iq oq qs us) (hw : C74.Sound w)
    (hS : Within S) (hform : Forms (World.env w e) (inUrl w other) form)
    (plus : Bool) {t : List Seg} (ht : Props.C72.Plain t) (hop : op.path = written t) :
    ∃ b, ∀ mfuel, b ≤ mfuel → ∀ rounds, b ≤ rounds →
    ∃ ps, Objects.decls o (urlunparse p) R order mfuel ((elements (place ++ [method]) c!"parameters" oq).map o.num)
        ((elements place c!"parameters" iq).map o.num) = some ps ∧
      ∀ {fuel : Nat} {r r' : Req (Prim World.Atom) π},
      ask (World.env w (Objects.env o (urlunparse p) R order mfuel rounds e)) (World.leaf w other) fuel ps files op k = .ok r →
      prepare renv op sch hf r = .ok r' →
      (∀ n ∈ holes t, ∀ x, Dict.get? r.p.path n = some x → plus = true ∨ ' ' ∉ x) →
      ∃ l, readPath plus t r'.path = some l ∧ l.map Prod.fst = holes t ∧
        ∀ q nm, q ∈ inForce qs us → S q → Dict.get? q c!"name" = some (.atom (.str nm)) →
          Dict.get? q c!"in" = some (.atom (.str c!"path")) → Present q k nm →
          ∃ v c, Value q k nm v ∧
            (∃ d, Declared (World.env w (Objects.env o (urlunparse p) R order mfuel rounds e)) d q ∧
              convert (World.env w (Objects.env o (urlunparse p) R order mfuel rounds e)) fuel d.obj v false = .ok c) ∧
            ∀ y, (nm, y) ∈ l → Clear (World.leaf w other) c →
              ∃ val, Reads q y val ∧ Conforms (fun _ => none) form False q val := by
  obtain ⟨b, h⟩ := C83_operation (o := o) hl hst ho hasked hw
  refine ⟨b, fun mfuel hm rounds hr => ?_⟩
  obtain ⟨ps, h1, h2⟩ := h mfuel hm rounds hr
  refine ⟨ps, h1, fun ha hp hb => ?_⟩
  obtain ⟨l, f1, f2, f3⟩ := C82.C82_path hl (h2 e) hS ⟨hform.email, hform.object, hform.unknown⟩ ha hp plus ht hop hb
  refine ⟨l, f1, f2, fun q nm hq hSq hname hin hpr => ?_⟩
  obtain ⟨d, v, c, g1, g2, g3, g4⟩ := f3 q nm hq hSq hname hin hpr
  exact ⟨v, c, g2, ⟨d, g1, g3⟩, g4⟩

/-- **C83, body.** The body of a request is a JSON text, and the value any reader of RFC 8259 reads from it conforms to
the schema the document writes for the body parameter in force. -/
theorem C83_body (hl : Loads D p T R) (hst : Styled D) (ho : ∀ l, (order l).Perm l) (he : ∀ l, (e.order l).Perm l)
    (hasked : Asked D p place method iq oq qs us) (hw : C74.Sound w) (hs : Schemed D p look S)
    (hdef : ∀ q, S q → Defaults N q) {enc : Prim.Json.Enc World.Atom} (hform : Forms (World.env w e) enc.toJson form)
    {leaf : Prim World.Atom → Except Exc Str} {renv : Io.Env (Prim World.Atom) δ Str} (hq : q ∈ inForce qs us)
    (hname : Dict.get? q c!"name" = some (.atom (.str nm))) (hin : Dict.get? q c!"in" = some (.atom (.str c!"body")))
    (hty : Dict.get? q c!"type" = none) (hit : Dict.get? q c!"items" = none)
    (hone : ∀ d ∈ inForce qs us, Dict.get? d c!"in" = some (.atom (.str c!"body")) → nameIn d = some nm)
    {s : Dict Str Tree} (hsch : Dict.get? q c!"schema" = some (.dict s)) (hS : S s) {v : Val}
    (hk : Dict.get? k nm = some v) (hv : Proper N v) : ∃ b, ∀ mfuel, b ≤ mfuel → ∀ rounds, b ≤ rounds →
    ∃ ps, Objects.decls o (urlunparse p) R order mfuel ((elements (place ++ [method]) c!"parameters" oq).map o.num)
        ((elements place c!"parameters" iq).map o.num) = some ps ∧
      ∀ {fuel : Nat} {r r' : Req (Prim World.Atom) Str},
      ask (World.env w (Objects.env o (urlunparse p) R order mfuel rounds e)) leaf fuel ps files op k = .ok r →
      prepare renv op sch hf r = .ok r' → r.p.file = [] → r.p.formData = [] →
      op.parameters.map (fun d => (d.name, d.in_)) = ps.map (fun q => (q.name, q.in_)) →
      (∀ b d, renv.marshal (C24.bodyType op.consumes r.consume) b d = Prim.Json.marshal enc b) →
      ∃ m c, (∃ d ∈ ps, Declared (World.env w (Objects.env o (urlunparse p) R order mfuel rounds e)) d q ∧ d.schema = some m) ∧
        convert (World.env w (Objects.env o (urlunparse p) R order mfuel rounds e)) fuel m v false = .ok c ∧
        ∀ u, C70.jsonOf enc.toJson c = .ok u → Spec.Json.Plain enc.repr u →
          ∃ body, r'.data = .payload body ∧ Spec.Json.readJson body = some u ∧ Conforms look form N s u := by
  obtain ⟨b1, h1⟩ := C83_operation (o := o) hl hst ho hasked hw
  obtain ⟨b2, h2⟩ := C83_schemata (o := o) (order := order) hl hs
  refine ⟨b1 + b2, fun mfuel hm rounds hr => ?_⟩
  obtain ⟨ps, e1, e2⟩ := h1 mfuel (by omega) rounds (by omega)
  refine ⟨ps, e1, fun ha hp hfile hfd hop hmar => ?_⟩
  obtain ⟨d, m, c, g1, g2, g3, g4, g5⟩ := C82.C82_body hl (e2 e) (h2 rounds (by omega) (World.env w e) rfl he mfuel) hdef ⟨hform.email, hform.object, hform.unknown⟩ ha hp
    hfile hfd hq hname hin hty hit hone hop hmar hsch hS hk hv
  exact ⟨m, c, ⟨d, g1, g2, g3⟩, g4, g5⟩

/-! ## replies -/

variable {ω : Type} {env : Prim.Env ω} {stack : Nat} {out : Reply.Outside} {toJson : AtomKind → ω → Except Exc Str}

/-- **C83, replies accepted.** -/
theorem C83_reply (hl : Loads D p T R) (hst : Styled D) (ho : ∀ l, (order l).Perm l) (he : ∀ l, (e.order l).Perm l)
    (hans : Answered D p place oq) {toJson : AtomKind → World.Atom → Except Exc Str}
    {S' : Dict Str Tree → Prop} {M : Prop} (hset : Schemed D p look S')
    (hback : Back (World.env w e) toJson form) (hneu : ∀ q, S' q → Neutral False q)
    (hloads : ∀ s v, Spec.Json.readJson s = some v → out.loads s = .ok v)
    (hlow : out.text.lower c!"content-type" = c!"content-type") (hj : JsonType out c!"application/json") {z : Int}
    {ts : List Str} (hi : entryFor (named place c!"responses" oq) z = some ts) {k : Nat} {s : Dict Str Tree}
    (hm : Stands D (urlunparse p) cResponse k ts q) (hs : Dict.get? q c!"schema" = some (.dict s)) (hS' : S' s)
    {txt : Str} {raw : Bytes ⊕ Str} (hraw : raw = .inr txt ∨ raw = .inl (utf8 txt)) {v : Val}
    (hv : Spec.Json.readJson txt = some v) (hc : Conforms look form M s v)
    (hn : v = .none → ∃ d, Leads look s d) {hd : List (Str × Str)}
    (hct : ∀ h ∈ hd, out.text.lower h.1 = c!"content-type" → headerAt q h.1 = none ∧ JsonType out (out.text.lower h.2))
    (hS : Within S) (hlit : ∀ q, S q → Literal q)
    (hhd : ∀ h ∈ hd, headerAt q h.1 = none ∨ ∃ d u, headerAt q h.1 = some (.dict d) ∧ S d ∧ Reads d h.2 u ∧
      Conforms (fun _ => none) form N d u) :
    ∃ b, ∀ mfuel, b ≤ mfuel → ∀ rounds, b ≤ rounds → ∃ table,
      Objects.table o (urlunparse p) R order mfuel ((named place c!"responses" oq).map fun x => (x.1, o.num x.2)) = some table ∧
      ∃ F, ∀ stack, F ≤ stack → ∀ rv, rv = Reply.renv out (World.env w (Objects.env o (urlunparse p) R order mfuel rounds e)) stack →
        ∃ x v', (applyWith rv table Resp.init ⟨some z, some raw, some hd⟩).2 = none ∧
          (applyWith rv table Resp.init ⟨some z, some raw, some hd⟩).1.data = some x ∧
          C70.jsonOf toJson x = .ok v' ∧ Same v v' := by
  obtain ⟨b1, h1⟩ := C83_responses (o := o) hl hst ho hans
  obtain ⟨b2, h2⟩ := C83_schemata (o := o) (order := order) hl hset
  refine ⟨b1 + b2 + bound R, fun mfuel hm' rounds hr => ?_⟩
  obtain ⟨table, e1, e2⟩ := h1 mfuel (by omega)
  obtain ⟨F, hF⟩ := C82.C82_reply hl (e2 (World.env w e) rounds) (h2 rounds (by omega) (World.env w e) rfl he mfuel) ⟨hback.email, hback.object⟩ hneu hloads
    hlow hj hi hm hs hS' hraw hv hc hn hct (e := Objects.env o (urlunparse p) R order mfuel rounds e) (w := w)
    (fun n h => direct (by omega) h) hS hlit hhd
  refine ⟨table, e1, F, fun stack hst rv hrv => ?_⟩
  subst hrv
  exact hF stack hst

/-- **C83, data.** -/
theorem C83_data (hl : Loads D p T R) (hst : Styled D) (ho : ∀ l, (order l).Perm l) (he : ∀ l, (env.order l).Perm l)
    (hreg : env.reg = builtins) (hans : Answered D p place oq) (hset : Schemed D p look S)
    (hdef : ∀ q, S q → Defaults N q) (hform : Forms env toJson form)
    (hlow : out.text.lower c!"content-type" = c!"content-type") (cs : List (RespCall (Bytes ⊕ Str)))
    (c : RespCall (Bytes ⊕ Str)) {raw : Bytes ⊕ Str} (hraw : c.raw = some raw) {z : Int}
    (hz : C28.latest ((cs ++ [c]).map (·.status)) none = some z)
    {ts : List Str} (hi : entryFor (named place c!"responses" oq) z = some ts) {k : Nat} {s : Dict Str Tree}
    (hm : Stands D (urlunparse p) cResponse k ts q) (hs : Dict.get? q c!"schema" = some (.dict s)) (hS : S s)
    (hval : ∀ ct v, Codec.withCodec out.text out.codecs ct (out.unmarshal raw) = .ok v → Proper N v) :
    ∃ b, ∀ mfuel, b ≤ mfuel → ∀ rounds, b ≤ rounds → ∃ table,
      Objects.table o (urlunparse p) R order mfuel ((named place c!"responses" oq).map fun x => (x.1, o.num x.2)) = some table ∧
      ∀ stack rv, rv = Reply.renv out (Objects.env o (urlunparse p) R order mfuel rounds env) stack →
        (applyWith rv table { applyAll rv table Resp.init cs with rawBodyOnly := false } c).2 = none →
        ∃ x, (applyWith rv table { applyAll rv table Resp.init cs with rawBodyOnly := false } c).1.data = some x ∧
          ∀ u, C70.jsonOf toJson x = .ok u → Spec.Json.nonfinite u = false → Conforms look form N s u := by
  obtain ⟨b1, h1⟩ := C83_responses (o := o) hl hst ho hans
  obtain ⟨b2, h2⟩ := C83_schemata (o := o) (order := order) hl hset
  refine ⟨b1 + b2, fun mfuel hm' rounds hr => ?_⟩
  obtain ⟨table, e1, e2⟩ := h1 mfuel (by omega)
  refine ⟨table, e1, fun stack rv hrv hok => ?_⟩
  subst hrv
  exact C82.C82_data hl (e2 env rounds) (h2 rounds (by omega) env hreg he mfuel) hdef ⟨hform.email, hform.object, hform.unknown⟩ hlow cs c hraw hz hi hm hs hS hval hok

/-- **C83, headers received.** -/
theorem C83_received (hl : Loads D p T R) (hst : Styled D) (ho : ∀ l, (order l).Perm l)
    (hreg : env.reg = builtins) (hans : Answered D p place oq) (hS : Within S)
    (hform : Forms env toJson form) (cs : List (RespCall (Bytes ⊕ Str))) (c : RespCall (Bytes ⊕ Str)) {z : Int}
    (hz : C28.latest ((cs ++ [c]).map (·.status)) none = some z)
    {ts : List Str} (hi : entryFor (named place c!"responses" oq) z = some ts) {k : Nat}
    (hm : Stands D (urlunparse p) cResponse k ts q) {b : Bool} {hd : List (Str × Str)}
    (hh : c.header = some hd) {x t : Str} (hx : (x, t) ∈ hd) {x' : Str} (hx' : out.text.lower x' = out.text.lower x) :
    ∃ b', ∀ mfuel, b' ≤ mfuel → ∀ rounds, b' ≤ rounds → ∃ table,
      Objects.table o (urlunparse p) R order mfuel ((named place c!"responses" oq).map fun x => (x.1, o.num x.2)) = some table ∧
      ∀ stack rv, rv = Reply.renv out (Objects.env o (urlunparse p) R order mfuel rounds env) stack →
        (applyWith rv table { applyAll rv table Resp.init cs with rawBodyOnly := b } c).2 = none →
        ∃ l y, Utils.CIDict.getitem out.text.lower
            (applyWith rv table { applyAll rv table Resp.init cs with rawBodyOnly := b } c).1.header x' = .ok l ∧ y ∈ l ∧
          (headerAt q x = none → y = .str t) ∧
          ∀ d, headerAt q x = some (.dict d) → S d → ∀ v, C70.jsonOf toJson y = .ok v → Spec.Json.nonfinite v = false →
            (nulls v = true → N) → Conforms (fun _ => none) form N d v := by
  obtain ⟨b1, h1⟩ := C83_responses (o := o) hl hst ho hans
  refine ⟨b1 + bound R, fun mfuel hm' rounds hr => ?_⟩
  obtain ⟨table, e1, e2⟩ := h1 mfuel (by omega)
  refine ⟨table, e1, fun stack rv hrv hok => ?_⟩
  subst hrv
  exact C82.C82_received hl (e2 env rounds) hreg (fun n h => direct (by omega) h) hS ⟨hform.email, hform.object, hform.unknown⟩ cs c hz hi hm hok hh hx hx'

end Props.C83
