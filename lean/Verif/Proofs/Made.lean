import Verif.Proofs.Fit
import Verif.Props.C09
/-! # Lemmas for C83: dereferencing, parameters and responses of a prepared document -/

namespace Proofs.Made
open Py Utils Tree _root_.Doc Prim Spec.Doc Spec.Merge Spec.Places Spec.Pointed Spec.Described Spec.SchemaDoc _root_.Loaded
open Proofs.Loaded Proofs.Placed Proofs.Simulate Proofs.Origin Proofs.Schemas Proofs.Fit Call Io
open _root_.Effective (attr listed text?)
open _root_.Schemas (entries resolved One Many Named Further)

/-! ## the places of a tree -/

mutual
/-- all places of a tree -/
def spots : Tree → List (List Str)
  | .atom _ => [[]]
  | .list l => [] :: spotsL 0 l
  | .dict d => [] :: spotsD d
  | .obj _ fs => [] :: spotsD fs
def spotsL (i : Nat) : List Tree → List (List Str)
  | [] => []
  | t :: l => (spots t).map (natStr i :: ·) ++ spotsL (i + 1) l
def spotsD : List (Str × Tree) → List (List Str)
  | [] => []
  | (k, t) :: l => (spots t).map (k :: ·) ++ spotsD l
end

theorem nil_spots (t : Tree) : [] ∈ spots t := by cases t <;> simp [spots]

theorem get_spots {k : Str} {v : Tree} {ts : List Str} : ∀ {d : List (Str × Tree)}, Dict.get? d k = some v → ts ∈ spots v →
    k :: ts ∈ spotsD d
  | [], h, _ => by cases h
  | (k', t) :: d, h, ht => by
    rw [spotsD, List.mem_append]
    unfold Dict.get? at h
    split at h
    · next e => cases h; left; rw [e]; exact List.mem_map_of_mem ht
    · exact .inr (get_spots h ht)

theorem item_spots {v : Tree} {ts : List Str} : ∀ {l : List Tree} {i j : Nat}, l[i]? = some v → ts ∈ spots v →
    natStr (j + i) :: ts ∈ spotsL j l
  | [], i, j, h, _ => by cases h
  | t :: l, 0, j, h, ht => by
    cases h
    rw [spotsL, List.mem_append]
    exact .inl (List.mem_map_of_mem ht)
  | t :: l, i + 1, j, h, ht => by
    rw [spotsL, List.mem_append, show j + (i + 1) = j + 1 + i by omega]
    exact .inr (item_spots h ht)

theorem locate_spots : ∀ (ts : List Str) (t : Tree), locate ts t ∈ spots t
  | [], t => by rw [locate]; exact nil_spots t
  | s :: ts, .atom a => by rw [locate]; exact nil_spots _
  | s :: ts, .obj c fs => by
    rw [locate]
    cases hg : Dict.get? fs s with
    | none => exact nil_spots _
    | some v => rw [spots]; exact List.mem_cons_of_mem _ (get_spots hg (locate_spots ts v))
  | s :: ts, .dict d => by
    rw [locate]
    cases hg : Dict.get? d s with
    | none => exact nil_spots _
    | some v => rw [spots]; exact List.mem_cons_of_mem _ (get_spots hg (locate_spots ts v))
  | s :: ts, .list l => by
    rw [locate]
    cases hi : intOf? s with
    | none => exact nil_spots _
    | some i =>
      dsimp only
      cases hv : pyIndex l i with
      | none => exact nil_spots _
      | some v =>
        have h := Props.C82.index_place l hv
        rw [pyIndex_nat] at h
        rw [spots]
        have := item_spots (j := 0) h (locate_spots ts v)
        rw [Nat.zero_add] at this
        exact List.mem_cons_of_mem _ this

/-! ## dereferencing -/

section
variable {o : Objects.Outside} {url : Str} {R : Tree} {order : List Atom → List Atom} {mfuel : Nat}

theorem find_spots {r : Str} {j : Nat} (h : find o.toOutside url R r = .ok j) : j ∈ (spots R).map o.num := by
  unfold find at h
  split at h
  · cases h
  · split at h
    · cases h
    · split at h
      · split at h
        · cases h
        · split at h
          · cases h
          · cases h; exact List.mem_map_of_mem (locate_spots _ _)
          · cases h
      · exact absurd h (o.alone _ _)

theorem ref_spots {n j : Nat} (h : Objects.ref o url R order mfuel n = some j) : j ∈ (spots R).map o.num := by
  unfold Objects.ref at h
  split at h
  · cases h
  · next f _ =>
    split at h
    · unfold resolved at h
      split at h
      · cases h
      · split at h
        · cases h
        · next i hi =>
          split at h
          · cases h; exact find_spots hi
          · cases h
    · cases h

/-- a bound of the rounds that dereferencing takes -/
def bound (R : Tree) : Nat := (spots R).length + 1

theorem derefs_ends {rounds : Nat} (hr : bound R ≤ rounds) (n : Nat) :
    ∃ r, Utils.deref rounds (Objects.ref o url R order mfuel) n = some r := by
  refine Props.C09.C09_terminates _ (n :: (spots R).map o.num) (fun v _ w h => List.mem_cons_of_mem _ (ref_spots h)) n
    (List.mem_cons_self ..) [] rounds ?_
  rw [List.length_cons, List.length_map]
  exact hr

theorem derefs_of {ω : Type} {env : Env ω} {rounds : Nat} (hr : bound R ≤ rounds)
    (he : ∀ n, env.deref n = Objects.derefs (Objects.ref o url R order mfuel) rounds n) :
    Schemas.Derefs env (Objects.ref o url R order mfuel) := by
  intro n
  obtain ⟨r, h⟩ := derefs_ends (o := o) (url := url) (order := order) (mfuel := mfuel) hr n
  rw [he, Objects.derefs, h]
  cases r with
  | error e => exact ⟨fun m hm => (by cases hm), fun e' h' => (by cases h'; exact ⟨rounds, h⟩)⟩
  | ok x =>
    obtain ⟨m, g⟩ := x
    exact ⟨fun m' hm => (by cases hm; exact ⟨rounds, g, h⟩), fun e' h' => (by cases h')⟩

theorem direct {rounds : Nat} (hr : bound R ≤ rounds) {n : Nat} (h : (Objects.node o url R order mfuel n).isSchema = false) :
    Objects.derefs (Objects.ref o url R order mfuel) rounds n = .ok n := by
  have hn : Objects.ref o url R order mfuel n = none := by
    unfold Objects.node at h
    unfold Objects.ref
    cases hf : Objects.found o url R order mfuel n with
    | none => rfl
    | some f =>
      rw [hf] at h
      dsimp only at h ⊢
      by_cases hc : f.cls = cSchema
      · rw [if_pos hc] at h; cases h
      · rw [if_neg hc]
  obtain ⟨k, rfl⟩ : ∃ k, rounds = k + 1 := ⟨rounds - 1, by unfold bound at hr; omega⟩
  simp [Objects.derefs, Utils.deref, Utils.CycleGuard.update, Utils.derefLoop, hn]

theorem distinct (n : Nat) : Dict.WF (Objects.node o url R order mfuel n).properties := by
  unfold Objects.node
  split
  · exact List.nodup_nil
  · next f _ =>
    split
    · show Dict.WF (Objects.named f c!"properties")
      unfold Objects.named
      split
      · next h =>
        unfold Dict.WF Dict.keys
        rw [List.map_map]
        exact h
      · exact List.nodup_nil
    · exact List.nodup_nil

end

/-! ## what is declared -/

section
variable {D T R : Tree} {p : Url} {o : Objects.Outside} {order : List Atom → List Atom} {mfuel : Nat} {ω : Type} {env : Env ω}

/-- `t` is the `final` of the object `i` of the class `c`, which the dict `q` declares -/
structure Ready (D : Tree) (p : Url) (R : Tree) (o : Objects.Outside) (order : List Atom → List Atom) (mfuel : Nat)
    (c : Nat) (q : Dict Str Tree) (i : Nat) (t : Tree) : Prop where
  cls : cls? ((world o.toOutside (urlunparse p) R).content i) = some c
  final : MergeRefs.effective (world o.toOutside (urlunparse p) R) order c mfuel i = some (.value t)
  fields : ∃ gs us fs, t = .obj c (mapFields (absolute (urlunparse p)) gs) ∧
    mapRefs (marked D (urlunparse p)) (.obj c gs) = .obj c gs ∧ Written D us c q ∧
    parse v20 c (.dict q) = some (.obj c fs) ∧ Effective.Copied c fs gs ∧
    ∀ n dflt k, n ≠ c!"$ref" → Dict.get? (v20 c).fields n = some dflt →
      Dict.get? (v20 c).child n = some k → ∃ v, Outcome q n dflt k v (attr gs n)

theorem ready (hl : Loads D p T R) (hst : Styled D) (ho : ∀ l, (order l).Perm l)
    {c : Nat} (hcl : c = cParameter ∨ c = cResponse) {k : Nat} {ts : List Str} {q : Dict Str Tree}
    (h : Stands D (urlunparse p) c k ts q) (hk : k < mfuel) : ∃ t, Ready D p R o order mfuel c q (o.num ts) t := by
  obtain ⟨gs, he, hfix, us, fs, hw, hp, hcp, hout⟩ := final_raw (o := o.toOutside) hl hst ho hcl h hk
  refine ⟨_, ?_, final_world hl (stands_mine h) he, gs, us, fs, rfl, hfix, hw, hp, hcp, hout⟩
  obtain ⟨q', hw'⟩ : ∃ q', Written D ts c q' := by
    cases h with
    | inline hw _ => exact ⟨_, hw⟩
    | ref hw _ _ => exact ⟨_, hw⟩
  obtain ⟨fs', -, -, e2, -⟩ := content_raw (o := o.toOutside) hl hw'
  rw [e2, mapRefs]
  rfl

/-- a text that is written is the one of the object -/
theorem text_copied {c : Nat} {q : Dict Str Tree} {fs gs : List (Str × Tree)} (hp : parse v20 c (.dict q) = some (.obj c fs))
    (hc : Effective.Copied c fs gs) {n s : Str} (hn : n ≠ c!"$ref") (hf : Dict.get? (v20 c).fields n = some nul)
    (hch : Dict.get? (v20 c).child n = none) (hs : Dict.get? q n = some (.atom (.str s))) {f : Str → Str} :
    attr (mapFields f gs) n = .atom (.str s) := by
  have := Effective.raw hp hc hf hch hn (.inl rfl)
  rw [hs, Option.getD_some] at this
  rw [attr_map gs hn, Effective.plainCopy_atom this, mapRefs]

theorem parameter_shown (hl : Loads D p T R) {q : Dict Str Tree} {i : Nat} {t : Tree}
    (h : Ready D p R o order mfuel cParameter q i t)
    (hnode : ∀ n, env.node n = Objects.node o (urlunparse p) R order mfuel n)
    {nm loc : Str} (hnm : Dict.get? q c!"name" = some (.atom (.str nm))) (hloc : Dict.get? q c!"in" = some (.atom (.str loc))) :
    _root_.Effective.Declares env (Objects.decl o (i, t)) t ∧
    ∀ m c fs, (Objects.decl o (i, t)).schema = some m → t = .obj c fs →
      Schemas.Shows env (Objects.ref o (urlunparse p) R order mfuel) (world o.toOutside (urlunparse p) R) m
        (attr fs c!"schema") := by
  obtain ⟨hcls, hfinal, gs, us, fs, rfl, hfix, hw, hp, hcp, hout⟩ := h
  have hnum := numbered_final hcls hfinal
  have hitems : FitItems (.obj cParameter (mapFields (absolute (urlunparse p)) gs)) := by
    have := fitItems_map (f := absolute (urlunparse p)) (fit_items (c := cParameter) (by decide) q hout)
    rw [mapRefs] at this
    exact this
  have e1 := text_copied (f := absolute (urlunparse p)) hp hcp (n := c!"name") (by decide) rfl rfl hnm
  have e2 := text_copied (f := absolute (urlunparse p)) hp hcp (n := c!"in") (by decide) rfl rfl hloc
  refine ⟨⟨?_, ?_, rfl, items_shown hnode hitems hnum, ?_⟩, ?_⟩
  · rw [e1]; show _ = Tree.atom (.str ((text? (attr _ c!"name")).getD [])); rw [e1]; rfl
  · rw [e2]; show _ = Tree.atom (.str ((text? (attr _ c!"in")).getD [])); rw [e2]; rfl
  · show (if _ then _ else _ : Option Nat).isSome = _
    cases isNull (attr (mapFields (absolute (urlunparse p)) gs) c!"schema") <;> rfl
  · intro m c fs' hm e
    cases e
    have hm : (if isNull (attr (mapFields (absolute (urlunparse p)) gs) c!"schema") then none
      else some (o.spare i [c!"schema"])) = some m := hm
    split at hm
    · cases hm
    · next hn =>
      cases hm
      refine shown hnode (final_schema hl hw hfix rfl rfl hout ?_) (numbered_field hnum c!"schema")
      rw [attr_map gs (by decide), isNull_map] at hn
      simpa using hn

theorem entries_pairs (f : Str → Str) (t : Tree) :
    entries (mapRefs f t) = (entries t).map fun x => (x.1, mapRefs f x.2) := by
  rw [entries_map, mapDict_eq]

theorem response_shown (hl : Loads D p T R) {q : Dict Str Tree} {i : Nat} {t : Tree}
    (h : Ready D p R o order mfuel cResponse q i t)
    (hnode : ∀ n, env.node n = Objects.node o (urlunparse p) R order mfuel n) :
    Reply.Declares env (Objects.ref o (urlunparse p) R order mfuel) (world o.toOutside (urlunparse p) R)
      (Objects.respDecl o i t) t := by
  obtain ⟨hcls, hfinal, gs, us, fs, rfl, hfix, hw, hp, hcp, hout⟩ := h
  have hnum := numbered_final hcls hfinal
  refine ⟨?_, ?_⟩
  · show Named _ ((entries (attr (mapFields (absolute (urlunparse p)) gs) c!"headers")).map fun x =>
      (x.1, o.spare i [c!"headers", x.1])) (entries (attr (mapFields (absolute (urlunparse p)) gs) c!"headers"))
    obtain ⟨v, hoc⟩ := hout c!"headers" (.dict []) (.dict cHeader) (by decide) rfl rfl
    have hplain : ∀ d, Dict.get? q c!"headers" = some (.dict d) → (d.map Prod.fst).Nodup := by
      intro d hd
      obtain ⟨k, -, hpl⟩ := hw
      have := Props.C82.place_plain hpl hl.self.plain
      rw [Plain] at this
      have := plainDict_iff.1 this.2 _ (Dict.mem_of_get? hd)
      rw [Plain] at this
      exact this.1
    have hnd : ((entries (attr (mapFields (absolute (urlunparse p)) gs) c!"headers")).map Prod.fst).Nodup := by
      rw [attr_map gs (by decide), entries_pairs, List.map_map]
      show ((entries (attr gs c!"headers")).map Prod.fst).Nodup
      rcases (outcome_dict hoc).1 with h | ⟨d, hd, h⟩
      · rw [h]; exact List.nodup_nil
      · rw [h]; exact hplain d hd
    have hfn := numbered_field hnum c!"headers"
    refine named_shown (g := fun k => o.spare i [c!"headers", k]) fun x hx => ?_
    have hfit : FitItems x.2 := by
      rw [attr_map gs (by decide), entries_pairs] at hx
      obtain ⟨y, hy, rfl⟩ := List.mem_map.1 hx
      obtain ⟨d, j, u, hd, hj, hpj, hs⟩ := (outcome_dict hoc).2 y hy
      have hpl := written_field hw hd rfl (.key (Dict.get?_of_mem (hplain d hd) hj) .here)
      obtain ⟨d', rfl⟩ := parse_one hpj (by
        cases hn : isNull j with
        | false => rfl
        | true => rw [isNull_iff.1 hn] at hpl; exact absurd hpl (hl.self.whole _ _))
      obtain ⟨fs', rfl⟩ := parse_dict hpj
      obtain ⟨gs', hgs, hall⟩ := outcome_same hpj hs
      dsimp only
      rw [hgs]
      exact fitItems_map (fit_items (c := cHeader) (by decide) d' hall)
    refine items_shown hnode hfit (g := fun us => o.spare i (c!"headers" :: x.1 :: us)) ?_
    revert hfn hnd hx
    cases attr (mapFields (absolute (urlunparse p)) gs) c!"headers" with
    | dict d => intro hnd hfn hx; exact numbered_dict hfn hnd hx
    | _ => intro hnd hfn hx; cases hx
  · show One _ (if isNull (attr (mapFields (absolute (urlunparse p)) gs) c!"schema") then none
      else some (o.spare i [c!"schema"])) (attr (mapFields (absolute (urlunparse p)) gs) c!"schema")
    cases hn : isNull (attr (mapFields (absolute (urlunparse p)) gs) c!"schema") with
    | true => exact .none hn
    | false =>
      refine .some (shown hnode (final_schema hl hw hfix rfl rfl hout ?_) (numbered_field hnum c!"schema"))
      rw [attr_map gs (by decide), isNull_map] at hn
      exact hn

/-- the objects `final` of declared parameters -/
theorem finals_made (hl : Loads D p T R) (hst : Styled D) (ho : ∀ l, (order l).Perm l) {l : List (List Str)}
    {qs : List (Dict Str Tree)} (h : List.Forall₂ (fun ts q => ∃ k, Stands D (urlunparse p) cParameter k ts q) l qs) :
    ∃ B, ∀ mfuel, B ≤ mfuel → ∃ fs,
      _root_.Effective.finals (world o.toOutside (urlunparse p) R) order mfuel (l.map o.num) = some fs ∧
      ∀ x ∈ fs, ∃ q ∈ qs, Ready D p R o order mfuel cParameter q x.1 x.2 := by
  induction h with
  | nil => exact ⟨0, fun _ _ => ⟨[], rfl, fun x hx => (by cases hx)⟩⟩
  | @cons ts q l qs h1 _ ih =>
    obtain ⟨k, h1⟩ := h1
    obtain ⟨B, ih⟩ := ih
    refine ⟨B + k + 1, fun mfuel hm => ?_⟩
    obtain ⟨fs, h2, h3⟩ := ih mfuel (by omega)
    obtain ⟨t, ht⟩ := ready (o := o) (mfuel := mfuel) hl hst ho (.inl rfl) h1 (by omega)
    refine ⟨(o.num ts, t) :: fs, ?_, fun x hx => ?_⟩
    · rw [List.map_cons, _root_.Effective.finals, ht.final]
      dsimp only
      rw [h2]
      rfl
    · rcases List.mem_cons.1 hx with rfl | hx
      · exact ⟨q, List.mem_cons_self .., ht⟩
      · obtain ⟨q', hq', h⟩ := h3 x hx
        exact ⟨q', List.mem_cons_of_mem _ hq', h⟩

theorem table_made (hl : Loads D p T R) (hst : Styled D) (ho : ∀ l, (order l).Perm l) : ∀ (l : Dict Str (List Str)),
    (∀ x ∈ l, ∃ k q, Stands D (urlunparse p) cResponse k x.2 q) →
    ∃ B, ∀ mfuel, B ≤ mfuel → ∃ table,
      Objects.table o (urlunparse p) R order mfuel (l.map fun x => (x.1, o.num x.2)) = some table ∧
      ∀ {ω : Type} (env : Env ω), (∀ n, env.node n = Objects.node o (urlunparse p) R order mfuel n) →
        Reply.Table env (Objects.ref o (urlunparse p) R order mfuel) (world o.toOutside (urlunparse p) R) order mfuel
          (l.map fun x => (x.1, o.num x.2)) table
  | [], _ => ⟨0, fun _ _ => ⟨[], rfl, fun _ _ => .nil⟩⟩
  | (n, ts) :: l, h => by
    obtain ⟨k, q, h1⟩ := h _ (List.mem_cons_self ..)
    obtain ⟨B, ih⟩ := table_made hl hst ho l fun x hx => h x (List.mem_cons_of_mem _ hx)
    refine ⟨B + k + 1, fun mfuel hm => ?_⟩
    obtain ⟨table, h2, h3⟩ := ih mfuel (by omega)
    obtain ⟨t, ht⟩ := ready (o := o) (mfuel := mfuel) hl hst ho (.inr rfl) h1 (by omega)
    refine ⟨(n, Objects.respDecl o (o.num ts) t) :: table, ?_, fun env hnode => ?_⟩
    · rw [List.map_cons, Objects.table, ht.final]
      dsimp only
      rw [h2]
      rfl
    · exact .cons ht.final (response_shown hl ht hnode) (h3 env hnode)

end

end Proofs.Made
