import Verif.Proofs.Origin
import Verif.Props.C81World
/-!
# C82: requests and replies follow the one JSON document the application was created from

C77-C81 speak about objects by number and about a resolver of references. Here these are the ones the application makes
of a document `D` at the URL `p`: `parse` (C42) gives `T`, `NormalizeRef` gives `R` (`Loads D p T R`), `App.resolve` finds
objects in `R` (`Loaded.world`). `Spec/Pointed.lean` says what is written where in `D`; no object of the library and no
resolver occurs in what the theorems on requests and replies conclude.
-/

namespace Props.C82
open Py Utils Tree _root_.Doc Prim Spec Spec.Places Spec.Pointed Spec.Described Spec.SchemaDoc Spec.Conform Spec.Wire
open Spec.Reply _root_.Loaded Proofs.Loaded Proofs.Placed Proofs.Simulate Proofs.Origin Proofs.Doc Proofs.Wire Props.C78 Props.C79
open Props.C81 (Present Value Legible Clear inUrl)
open _root_.Effective (attr)

variable {D T R : Tree} {p : Url} {o : Loaded.Outside}

/-! ## loading -/

theorem plain_fixed {t : Tree} (h : Plain t) (f : Str → Str) : mapRefs f t = t :=
  fixed_of_filled (P := fun _ => False) (fun _ h => h.elim) t (plain_filled_all t h _)

theorem place_plain {k k' : Kind} {t u : Tree} {ts : List Str} (h : Place k t ts k' u) : Plain t → Plain u := by
  induction h with
  | here => exact id
  | field _ hd _ _ ih =>
    intro h
    rw [Plain] at h
    exact ih (plainDict_iff.1 h.2 _ (Dict.mem_of_get? hd))
  | item hi _ ih =>
    intro h
    rw [Plain] at h
    exact ih (plainList_iff.1 h _ (List.mem_of_getElem? hi))
  | key hd _ ih =>
    intro h
    rw [Plain] at h
    exact ih (plainDict_iff.1 h.2 _ (Dict.mem_of_get? hd))

/-- **C82, loading.** A document that speaks about itself only is read without exception once it can be parsed: every
object is at the place where it is written, with the values that are written there; a reference is the URL of the
document with the place it names. -/
theorem C82_loads (hc : Canon p) (hf : p.fragment = []) (hD : SelfContained D (urlunparse p))
    (hT : parse v20 cSwagger D = some T) :
    ∃ R, normalizeRefs (urlunparse p) T = some R ∧ ∀ ts c q, Written D ts c q →
      ∃ gs, Tree.resolve ts R = .ok (.obj c gs) ∧
        (∀ n dflt, n ≠ c!"$ref" → Dict.get? (v20 c).fields n = some dflt → Dict.get? (v20 c).child n = none →
          Dict.get? gs n = some ((Dict.get? q n).getD dflt)) ∧
        ∀ r us, Dict.get? (v20 c).fields c!"$ref" ≠ none → Dict.get? q c!"$ref" = some (.atom (.str r)) →
          Names (urlunparse p) r us → Dict.get? gs c!"$ref" = some (.atom (.str (urlunparse p ++ pointer us))) := by
  have hfill := filled_good hD hT
  have hn := normalize_eq (url_facts hc hf).2.2 T hfill
  refine ⟨_, hn, fun ts c q hw => ?_⟩
  have hl : Loads D p T (mapRefs (absolute (urlunparse p)) T) := ⟨hc, hf, hD, hT, hn⟩
  obtain ⟨fs, h1, h2, -⟩ := written_parse hT hw
  have h3 := object_map (f := absolute (urlunparse p)) hfill h2
  obtain ⟨e, he, hfs⟩ := parse_fields h1
  injection hfs with _ hfs
  have hq : Plain (.dict q) := by
    obtain ⟨k, -, hp⟩ := hw
    exact place_plain hp hD.plain
  rw [Plain] at hq
  have hg : ∀ n, Dict.get? (mapFields (absolute (urlunparse p)) fs) n =
      (Dict.get? (v20 c).fields n).map fun dflt => mapField (absolute (urlunparse p)) n (fieldOf v20 (v20 c) q (n, dflt)) := by
    intro n
    rw [get_mapFields, hfs, get_fieldOf, Option.map_map]
    rfl
  have hraw : ∀ n dflt, Dict.get? (v20 c).child n = none → fieldOf v20 (v20 c) q (n, dflt) = (Dict.get? q n).getD dflt := by
    intro n dflt hch
    unfold fieldOf
    dsimp only
    cases Dict.get? q n with
    | none => rw [hch]; rfl
    | some v =>
      rw [Option.bind_some, parseField, hch]
      rfl
  refine ⟨mapFields (absolute (urlunparse p)) fs, h3, fun n dflt hne hfd hch => ?_, 
    fun r us hfd hqr hname => ?_⟩
  · rw [hg, hfd, Option.map_some, mapField, if_neg hne, hraw n dflt hch]
    congr 1
    cases hqn : Dict.get? q n with
    | some v => exact plain_fixed (plainDict_iff.1 hq.2 _ (Dict.mem_of_get? hqn)) _
    | none => exact fixed_of_filled (P := fun _ => False) (fun _ h => h.elim) _ (default_filled hfd)
  · have hno : Dict.get? (v20 c).child c!"$ref" = none := (grammar_refs (f := id) c).2.2
    cases hfd' : Dict.get? (v20 c).fields c!"$ref" with
    | none => exact absurd hfd' hfd
    | some dflt =>
      rw [hg, hfd', Option.map_some, hraw _ _ hno, hqr, Option.getD_some, mapField, if_pos rfl, mapRef,
        absolute_named hc hf hname]

/-- the index of an element from its place -/
theorem index_place (l : List Tree) {i : Int} {v : Tree} (h : pyIndex l i = some v) :
    pyIndex l ((if 0 ≤ i then i.toNat else l.length - (-i).toNat : Nat) : Int) = some v := by
  rw [pyIndex_nat]
  unfold pyIndex at h
  split at h
  · next h0 => rw [if_pos h0]; exact h
  · next h0 =>
    rw [if_neg h0]
    split at h
    · next h1 =>
      rw [← h]
    · cases h

theorem locate_resolve : ∀ (ts : List Str) (t : Tree) {c : Nat} {fs : List (Str × Tree)},
    Tree.resolve ts t = .ok (.obj c fs) → Tree.resolve (locate ts t) t = .ok (.obj c fs)
  | [], t, c, fs, h => by rw [locate]; exact h
  | s :: ts, .atom a, c, fs, h => by rw [resolve_atom] at h; cases h
  | s :: ts, .obj c' gs, c, fs, h => by
    rw [Tree.resolve] at h
    rw [locate]
    cases hg : Dict.get? gs s with
    | none => rw [hg] at h; cases h
    | some v =>
      rw [hg] at h
      dsimp only at h ⊢
      rw [Tree.resolve, hg]
      exact locate_resolve ts v h
  | s :: ts, .dict d, c, fs, h => by
    rw [Tree.resolve] at h
    rw [locate]
    cases hg : Dict.get? d s with
    | none => rw [hg] at h; cases h
    | some v =>
      rw [hg] at h
      dsimp only at h ⊢
      rw [Tree.resolve, hg]
      exact locate_resolve ts v h
  | s :: ts, .list l, c, fs, h => by
    rw [Tree.resolve] at h
    rw [locate]
    cases hi : intOf? s with
    | none => rw [hi] at h; cases h
    | some i =>
      rw [hi] at h
      dsimp only at h ⊢
      cases hv : pyIndex l i with
      | none => rw [hv] at h; cases h
      | some v =>
        rw [hv] at h
        dsimp only at h ⊢
        rw [Tree.resolve, intOf_natStr]
        dsimp only
        rw [index_place l hv]
        exact locate_resolve ts v h

/-- **C82, resolving.** `Loaded.world` is the one of `App.resolve` (C47): with the document in the cache, a reference
into it yields an object if and only if the world resolves it, to a number with the same object. The cache stays as it
is. -/
theorem C82_resolve {a : AppResolve.App} (h1 : a.path2url = o.path2url) (h2 : a.abspath = o.abspath) {url : Str}
    (hu : url ≠ []) {objs : AppResolve.Objs} (hc : Dict.get? objs url = some (.whole R)) {r jp : Str} (hr : r ≠ [])
    (hs : jr_split a.path2url a.abspath r = .ok (url, jp)) (n : Nat) (parser : Option Nat) :
    (∀ c fs, (AppResolve.resolve a (n + 1) objs r parser).1 = .ok (.obj c fs) ↔
      ∃ j, (world o url R).resolve r = .ok j ∧ (world o url R).content j = .obj c fs) ∧
    (AppResolve.resolve a (n + 1) objs r parser).2 = objs := by
  have e : (world o url R).resolve r = find o url R r := rfl
  rw [e]
  unfold find
  rw [if_neg hr, ← h1, ← h2, hs]
  dsimp only
  rw [if_pos rfl, AppResolve.resolve, if_neg hr, hs]
  dsimp only
  rw [hc, AppResolve.lookup]
  cases ht : Tree.resolve (jp_split (some jp)).tail R with
  | error x =>
    refine ⟨fun c fs => ⟨fun h => ?_, ?_⟩, rfl⟩
    · cases h
    · rintro ⟨j, h, -⟩; cases h
  | ok t =>
    have hload : ∀ find', AppResolve.loadRef a find' objs url jp parser = (AppResolve.loadRef a find' objs url jp parser) ∧
        (∀ t, (AppResolve.loadRef a find' objs url jp parser).1 ≠ .ok t) ∧
        (AppResolve.loadRef a find' objs url jp parser).2 = objs := by
      intro find'
      refine ⟨rfl, ?_⟩
      unfold AppResolve.loadRef
      rw [if_pos hu]
      cases a.fresh url jp parser with
      | error x => exact ⟨fun t h => (by cases h), rfl⟩
      | ok obj =>
        have : AppResolve.prepare_obj a find' objs obj url jp = (.error .Exception, objs) := by
          unfold AppResolve.prepare_obj AppResolve.store
          rw [hc]
        dsimp only
        rw [this]
        exact ⟨fun t h => (by cases h), rfl⟩
    cases t with
    | obj c' gs =>
      refine ⟨fun c fs => ?_, rfl⟩
      have hcont : (world o url R).content (o.num (locate (jp_split (some jp)).tail R)) = .obj c' gs := by
        simp only [world, o.left, locate_resolve _ _ ht]
      constructor
      · intro h
        refine ⟨_, rfl, ?_⟩
        rw [hcont]
        exact Except.ok.inj h
      · rintro ⟨j, h, h'⟩
        cases h
        rw [hcont] at h'
        rw [h']
        rfl
    | list l =>
      refine ⟨fun c fs => ⟨fun h => (by cases h), ?_⟩, rfl⟩
      rintro ⟨j, h, -⟩; cases h
    | dict d =>
      refine ⟨fun c fs => ⟨fun h => (by cases h), ?_⟩, rfl⟩
      rintro ⟨j, h, -⟩; cases h
    | atom b =>
      cases b with
      | none =>
        obtain ⟨-, g1, g2⟩ := hload fun objs r => AppResolve.resolve a n objs r (some a.schemaContext)
        refine ⟨fun c fs => ⟨fun h => absurd h (g1 _), ?_⟩, g2⟩
        rintro ⟨j, h, -⟩; cases h
      | _ =>
        refine ⟨fun c fs => ⟨fun h => (by cases h), ?_⟩, rfl⟩
        rintro ⟨j, h, -⟩; cases h

/-! ## requests -/

open Call Io Ask Spec.Server Props.C72

variable {w : World.Outside} {e : Prim.Env World.Atom} {other : Prim World.Atom → Str} {S : Dict Str Tree → Prop}
  {form : Str → Str → Prop} {N : Prop} {order : List Atom → List Atom} {mfuel fuel : Nat} {ref : Nat → Option Nat}
  {place : List Str} {method : Str} {qs us : List (Dict Str Tree)} {ps : List Decl} {δ π : Type}
  {files : FileArg World.Atom → FileVal} {op : Op δ} {k : Dict Str Val} {renv : Io.Env (Prim World.Atom) δ π}
  {sch : SchemeArg} {hf : Bool} {nm : Str} {q iq oq : Dict Str Tree}

/-- the schema of a body parameter is the one its `final` has -/
def BodyShows (env : Prim.Env World.Atom) (ref : Nat → Option Nat) (W : MergeRefs.World) (d : Decl) (t : Tree) : Prop :=
  ∀ m c fs, d.schema = some m → t = .obj c fs → Schemas.Shows env ref W m (attr fs c!"schema")

/-- The operation `oq` written for the method in the path item `iq` at `place` (without reference) has the parameters `ps`:
`qs` are the dicts that declare its own ones, `us` those of the path item, in place or by references, no two in force
with the same name. -/
structure Operation (D : Tree) (p : Url) (R : Tree) (o : Loaded.Outside) (order : List Atom → List Atom) (mfuel : Nat)
    (w : World.Outside) (e : Prim.Env World.Atom) (ref : Nat → Option Nat) (place : List Str) (method : Str)
    (iq oq : Dict Str Tree) (qs us : List (Dict Str Tree)) (ps : List Decl) : Prop where
  item : Written D place cPathItem iq
  inPlace : Dict.get? iq c!"$ref" = none
  operation : Dict.get? iq method = some (.dict oq) ∧ Dict.get? (v20 cPathItem).child method = some (.one cOperation)
  perm : ∀ l, (order l).Perm l
  forOp : List.Forall₂ (fun ts q => ∃ k, Stands D (urlunparse p) cParameter k ts q)
    (elements (place ++ [method]) c!"parameters" oq) qs
  forItem : List.Forall₂ (fun ts q => ∃ k, Stands D (urlunparse p) cParameter k ts q) (elements place c!"parameters" iq) us
  parameters : ∃ ts, _root_.Effective.parameters (world o (urlunparse p) R) order mfuel
      ((elements (place ++ [method]) c!"parameters" oq).map o.num) ((elements place c!"parameters" iq).map o.num) = some ts ∧
    List.Forall₂ (fun d t => _root_.Effective.Declares (World.env w e) d t ∧
      BodyShows (World.env w e) ref (world o (urlunparse p) R) d t) ps ts
  distinct : ((inForce qs us).map nameIn).Nodup
  direct : ∀ n, (e.node n).isSchema = false → e.deref n = .ok n
  sound : C74.Sound w

theorem finals_fixed (hl : Loads D p T R) : ∀ {l : List Nat}, (∀ i ∈ l, Mine D o i) → ∀ {fs},
    _root_.Effective.finals (raw o D (urlunparse p) T) order mfuel l = some fs →
    ∀ x ∈ fs, mapRefs (marked D (urlunparse p)) x.2 = x.2
  | [], _, fs, h, x, hx => by cases h; cases hx
  | i :: l, hi, fs, h, x, hx => by
    rw [_root_.Effective.finals] at h
    split at h
    · next t he =>
      cases hf : _root_.Effective.finals (raw o D (urlunparse p) T) order mfuel l with
      | none => rw [hf] at h; cases h
      | some fs' =>
        rw [hf] at h; cases h
        rcases List.mem_cons.1 hx with rfl | hx
        · exact fixed_effective hl (hi i (List.mem_cons_self ..)) he
        · exact finals_fixed hl (fun j hj => hi j (List.mem_cons_of_mem _ hj)) hf x hx
    · cases h

theorem fresh_mem {seen : List (Option Str)} {up : List (Nat × Tree)} {x : Nat × Tree}
    (h : x ∈ C50.fresh _root_.Effective.nameOf seen up) : x ∈ up := by
  induction up generalizing seen with
  | nil => exact h
  | cons y up ih =>
    rw [C50.fresh] at h
    split at h
    · exact List.mem_cons_of_mem _ (ih h)
    · rcases List.mem_cons.1 h with rfl | h
      · exact List.mem_cons_self ..
      · exact List.mem_cons_of_mem _ (ih h)

theorem patched_mem {own up : List (Nat × Tree)} {x : Nat × Tree}
    (h : x ∈ Patch.parameters _root_.Effective.nameOf ({ parameters := own, parent := some up } : Patch.Op (Nat × Tree) Unit)) :
    x ∈ own ∨ x ∈ up := by
  unfold Patch.parameters at h
  dsimp only at h
  split at h
  · exact .inr h
  · rw [C50.append_eq] at h
    rcases List.mem_append.1 h with h | h
    · exact .inl h
    · exact .inr (fresh_mem h)

theorem declared_raw (hl : Loads D p T R) {l : List Tree} (hfix : ∀ t ∈ l, mapRefs (marked D (urlunparse p)) t = t) :
    ∀ {ps : List Decl}, List.Forall₂ (fun d t => _root_.Effective.Declares (World.env w e) d t ∧
        BodyShows (World.env w e) ref (world o (urlunparse p) R) d t) ps (l.map (mapRefs (absolute (urlunparse p)))) →
      List.Forall₂ (fun d t => _root_.Effective.Declares (World.env w e) d t ∧
        BodyShows (World.env w e) ref (raw o D (urlunparse p) T) d t) ps l := by
  induction l with
  | nil => intro ps h; cases h; exact .nil
  | cons t l ih =>
    intro ps h
    cases h with
    | cons hd htl =>
      refine .cons ⟨declares_map hd.1, ?_⟩ (ih (fun t ht => hfix t (List.mem_cons_of_mem _ ht)) htl)
      rintro m c fs hm rfl
      have := hd.2 m c _ hm (by rw [mapRefs])
      rw [attr_map fs (by decide)] at this
      exact schema_raw hl (fixed_attr (hfix _ (List.mem_cons_self ..)) (by decide)) this

/-- the parameters in the world of references as they are written -/
theorem parameters_raw (hl : Loads D p T R) (ho : Operation D p R o order mfuel w e ref place method iq oq qs us ps) :
    ∃ ts, _root_.Effective.parameters (raw o D (urlunparse p) T) order mfuel
      ((elements (place ++ [method]) c!"parameters" oq).map o.num) ((elements place c!"parameters" iq).map o.num) = some ts ∧
    List.Forall₂ (fun d t => _root_.Effective.Declares (World.env w e) d t ∧
      BodyShows (World.env w e) ref (raw o D (urlunparse p) T) d t) ps ts := by
  obtain ⟨ts, h1, h2⟩ := ho.parameters
  have m1 := forall_mine (o := o) ho.forOp
  have m2 := forall_mine (o := o) ho.forItem
  rw [parameters_map (alike (o := o) hl) order mfuel m1 m2] at h1
  cases hr : _root_.Effective.parameters (raw o D (urlunparse p) T) order mfuel
      ((elements (place ++ [method]) c!"parameters" oq).map o.num) ((elements place c!"parameters" iq).map o.num) with
  | none => rw [hr] at h1; cases h1
  | some us' =>
    rw [hr, Option.map_some] at h1
    injection h1 with h1
    subst h1
    refine ⟨us', rfl, ?_⟩
    have hfix : ∀ t ∈ us', mapRefs (marked D (urlunparse p)) t = t := by
      unfold _root_.Effective.parameters at hr
      split at hr
      · next fo fu e1 e2 =>
        injection hr with hr
        subst hr
        intro t ht
        obtain ⟨x, hx, rfl⟩ := List.mem_map.1 ht
        rcases patched_mem hx with hx | hx
        · exact finals_fixed hl m1 e1 x hx
        · exact finals_fixed hl m2 e2 x hx
      · cases hr
    exact declared_raw hl hfix h2

theorem setting (hl : Loads D p T R) (ho : Operation D p R o order mfuel w e ref place method iq oq qs us ps) :
    C81.Setting (raw o D (urlunparse p) T) order mfuel w e ((elements (place ++ [method]) c!"parameters" oq).map o.num)
      ((elements place c!"parameters" iq).map o.num) qs us ps where
  perm := ho.perm
  forOp := forall_means hl (by decide) ho.forOp
  forItem := forall_means hl (by decide) ho.forItem
  parameters := by
    obtain ⟨ts, h1, h2⟩ := parameters_raw hl ho
    exact ⟨ts, h1, h2.imp fun _ _ h => h.1⟩
  distinct := ho.distinct
  direct := ho.direct
  sound := ho.sound

/-- **C82, parameters.** The parameters of an operation are exactly the declarations the document has in force for it,
wherever they are written. -/
theorem C82_parameters (hl : Loads D p T R) (ho : Operation D p R o order mfuel w e ref place method iq oq qs us ps) :
    List.Forall₂ (Declared (World.env w e)) ps (inForce qs us) := by
  obtain ⟨ts, h1, h2⟩ := (setting hl ho).parameters
  exact C77.C77_parameters ho.perm (setting hl ho).forOp (setting hl ho).forItem h1 h2

end Props.C82
