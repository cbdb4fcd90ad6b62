import Verif.Proofs.Create
import Verif.Proofs.Visited
import Verif.Props.C94
import Verif.Props.C88
import Verif.Props.C49
import Verif.Props.C52
/-!
# C92: which documents become applications

`App.create(url, strict)` for the document `D` at the URL `p`. `C92_create`: a strict one raises `ValidationError` if a schema
requires a property that is read-only (`Faulty`); `SchemaError` is raised if two operations have the same name (`Clash`), strict or
not; a strict one raises `CycleDetectionError` if a schema leads back to itself (`Circular`); the first of these counts, and
nothing else is raised: there are tables of operations and of models with what the document says. `C92_version`: other versions are
refused. The faults are said about the document (Spec/Refused.lean), and so are the conditions: references stay within the
document (`Loads`), and values are of the types the standard asks for (`Regular`).

The proof goes through the scanners in the order they run: references resolve (`resolved`), validation (`validated`, by C49), merging
ends (`merged`), nothing is patched in vain (`patched`), names are unique or not (C88_index), and the walks for cycles end
(`classes_end`, `cycles` by C08).
-/

namespace Props.C92
open Py Utils Tree _root_.Doc Spec Spec.Places Spec.Pointed _root_.Loaded Proofs.Loaded Proofs.Origin Proofs.Placed Proofs.Index Proofs.Visited
open Spec.Refused
open _root_.Create _root_.CycleDetector
open _root_.Effective (attr text? listed)
open Props.C08 (RefIn ReachesCycle)

variable {D T R : Tree} {p : Url} {o : Objects.Outside} {sq : Dict Str Tree} {sep : Str}

/-! ## where paths and references lead -/

/-- a path of a walk, or a reference made absolute, for the place `ts` -/
def Way (url x : Str) (ts : List Str) : Prop := x = pointer ts ∨ x = url ++ pointer ts

theorem target_at (hl : Loads D p T R) {ts : List Str} {c : Nat} {q : Dict Str Tree} (h : Written D ts c q) (hne : ts ≠ [])
    {x : Str} (hx : Way (urlunparse p) x ts) : ∃ gs, parse v20 c (.dict q) = some (.obj c gs) ∧
      target o (urlunparse p) R x = some (mapRefs (absolute (urlunparse p)) (.obj c gs)) := by
  obtain ⟨gs, h1, h2⟩ := read_at hl h
  refine ⟨gs, h1, ?_⟩
  obtain ⟨g, hg, hp⟩ := pointer_cons hne
  have e : ∃ u, (u = urlunparse p ∨ u = []) ∧ jr_split o.path2url o.abspath x = .ok (u, pointer ts) := by
    rcases hx with rfl | rfl
    · exact ⟨[], .inr rfl, by rw [hp]; exact C67.split_hash _ _ _ hg⟩
    · refine ⟨_, .inl rfl, ?_⟩
      have := Props.C10.C10_split o.path2url o.abspath hl.canon hl.whole g
      unfold Props.C10.withFrag at this
      simp only [Option.getD_some, if_neg hg] at this
      rw [hp, this]
  obtain ⟨u, hu, e⟩ := e
  unfold target
  rw [e]
  dsimp only
  rw [if_pos hu, Proofs.ScanTree.split_pointer, List.tail_cons, h2]
  rfl

theorem way_inj (hl : Loads D p T R) {x : Str} {us vs : List Str} (hu : us ≠ []) (hv : vs ≠ []) (h : Way (urlunparse p) x us)
    (h' : Way (urlunparse p) x vs) : us = vs := by
  obtain ⟨g, -, hp⟩ := pointer_cons hu
  obtain ⟨g', -, hp'⟩ := pointer_cons hv
  obtain ⟨-, hh, hn⟩ := url_facts hl.canon hl.whole
  have key : ∀ a b : Str, '#' :: a ≠ urlunparse p ++ b := by
    intro a b e
    cases hq : urlunparse p with
    | nil => exact hn hq
    | cons c l =>
      rw [hq] at e hh
      injection e with e1 _
      exact hh (by rw [e1]; exact List.mem_cons_self)
  rcases h with h | h <;> rcases h' with h' | h'
  · exact Proofs.Checked.pointer_inj (h.symm.trans h')
  · rw [h, hp] at h'; exact absurd h' (key _ _)
  · rw [h', hp'] at h; exact absurd h (key _ _)
  · exact Proofs.Checked.pointer_inj (List.append_cancel_left (h.symm.trans h'))

/-! ## the graph of references between schemas -/

/-- the schema found for a path -/
def find (o : Objects.Outside) (p : Url) (R : Tree) (x : Str) : Option Schema := (target o (urlunparse p) R x).map schemaOf

theorem refers_written (hl : Loads D p T R) {ts us : List Str} (h : Refers D (urlunparse p) ts us) :
    us ≠ [] ∧ ∃ q, Written D us cSchema q := by
  obtain ⟨-, vs, d, r, hw, hr, hn⟩ := h
  obtain ⟨r', us', q', e, hn', hw'⟩ := hl.self.refs _ _ _ _ hw (by rw [show Dict.get? (v20 cSchema).fields c!"$ref" = some nul from rfl]; simp) hr
  cases e
  cases names_inj hl hn hn'
  exact ⟨hn.1, q', hw'⟩

theorem edges (hl : Loads D p T R) {ts : List Str} {q : Dict Str Tree} (h : Written D ts cSchema q) {x : Str}
    (hx : Way (urlunparse p) x ts) (w : Str) : w ∈ schemaOut (find o p R) x ↔
      ∃ us, Refers D (urlunparse p) ts us ∧ w = urlunparse p ++ pointer us := by
  obtain ⟨gs, h1, h2⟩ := target_at (o := o) hl h (place_ne h (by decide)) hx
  rw [C08.C08_edges]
  have hf : find o p R x = some (schemaOf (mapRefs (absolute (urlunparse p)) (.obj cSchema gs))) := by
    unfold find; rw [h2]; rfl
  obtain ⟨k, hk, hp⟩ := h
  have h1' : parseAs v20 k (.dict q) = some (.obj cSchema gs) := by rw [parseAs_takes hk]; exact h1
  constructor
  · rintro ⟨s, hs, hr⟩
    rw [hf] at hs; cases hs
    have hpl : Plain (.dict q) := C82.place_plain hp hl.self.plain
    obtain ⟨vs, k', d, r, hp', hk', hd, rfl⟩ := Proofs.Create.place_of_refIn hr hk hpl h1' rfl
    have hw : Written D (ts ++ vs) cSchema d := ⟨k', hk', Proofs.Fit.place_append hp hp'⟩
    obtain ⟨r', us, q', e, hn, hw'⟩ := hl.self.refs _ _ _ _ hw (by rw [show Dict.get? (v20 cSchema).fields c!"$ref" = some nul from rfl]; simp) hd
    cases e
    exact ⟨us, ⟨⟨q, k, hk, hp⟩, vs, d, r, hw, hd, hn⟩, absolute_named hl.canon hl.whole hn⟩
  · rintro ⟨us, ⟨-, vs, d, r, ⟨k', hk', hw⟩, hd, hn⟩, rfl⟩
    refine ⟨_, hf, ?_⟩
    have := Proofs.Create.gets_of_place (f := absolute (urlunparse p)) (place_split hp hw) rfl hk' hd (by
      rw [absolute_named hl.canon hl.whole hn]; simp [(url_facts hl.canon hl.whole).2.2]) h1'
    rw [← absolute_named hl.canon hl.whole hn]
    rcases hk with rfl | rfl <;> exact this rfl

theorem reach_of (hl : Loads D p T R) {x y : Str} (h : Reach (schemaOut (find o p R)) x y) {ts : List Str} {q : Dict Str Tree}
    (hw : Written D ts cSchema q) (hx : Way (urlunparse p) x ts) :
    ∃ us q', Written D us cSchema q' ∧ Way (urlunparse p) y us ∧ Relation.ReflTransGen (Refers D (urlunparse p)) ts us := by
  induction h with
  | refl => exact ⟨ts, q, hw, hx, .refl⟩
  | step _ he ih =>
    obtain ⟨us, q', h1, h2, h3⟩ := ih
    obtain ⟨vs, h4, rfl⟩ := (edges hl h1 h2 _).1 he
    obtain ⟨-, q'', h5⟩ := refers_written hl h4
    exact ⟨vs, q'', h5, .inr rfl, h3.tail h4⟩

theorem to_reach (hl : Loads D p T R) {ts us : List Str} (h : Relation.ReflTransGen (Refers D (urlunparse p)) ts us) {x : Str}
    {q : Dict Str Tree} (hw : Written D ts cSchema q) (hx : x = urlunparse p ++ pointer ts) :
    Reach (schemaOut (find o p R)) x (urlunparse p ++ pointer us) ∧ ∃ q', Written D us cSchema q' := by
  induction h with
  | refl => exact ⟨by rw [hx]; exact .refl _, q, hw⟩
  | tail _ he ih =>
    obtain ⟨h1, q', h2⟩ := ih
    exact ⟨.step h1 ((edges hl h2 (.inr rfl) _).2 ⟨_, he, rfl⟩), (refers_written hl he).2⟩

theorem circular_iff (hl : Loads D p T R) (hD : D = .dict sq) :
    (∃ x ∈ (visited R cSchema).map Prod.fst, ReachesCycle (schemaOut (find o p R)) x) ↔ Circular D (urlunparse p) := by
  constructor
  · rintro ⟨x, hx, v, w, h1, h2, h3⟩
    obtain ⟨⟨x', t⟩, hm, rfl⟩ := List.mem_map.1 hx
    obtain ⟨ts, q, gs, hw, -, e⟩ := (visited_iff hl hD).1 hm
    cases e
    obtain ⟨us, q', h4, h5, -⟩ := reach_of hl h1 hw (.inl rfl)
    obtain ⟨ws, h6, rfl⟩ := (edges hl h4 h5 _).1 h2
    obtain ⟨hne, q'', h7⟩ := refers_written hl h6
    obtain ⟨us', q3, h8, h9, h10⟩ := reach_of hl h3 h7 (.inr rfl)
    cases way_inj hl (place_ne h4 (by decide)) (place_ne h8 (by decide)) h5 h9
    exact ⟨us, .head' h6 h10⟩
  · rintro ⟨ts, h⟩
    obtain ⟨us, h1, h2⟩ := Relation.TransGen.head'_iff.1 h
    obtain ⟨q, hw⟩ := h1.1
    obtain ⟨gs, h3, -⟩ := read_at hl hw
    refine ⟨pointer ts, List.mem_map.2 ⟨_, (visited_iff hl hD).2 ⟨ts, q, gs, hw, h3, rfl⟩, rfl⟩, urlunparse p ++ pointer ts,
      urlunparse p ++ pointer us, ?_, (edges hl hw (.inr rfl) _).2 ⟨us, h1, rfl⟩, ?_⟩
    · obtain ⟨-, q', h4⟩ := refers_written hl h1
      have key : ∀ {a b}, Reach (schemaOut (find o p R)) a b → ∀ c, a ∈ schemaOut (find o p R) c → Reach (schemaOut (find o p R)) c b := by
        intro a b h
        induction h with
        | refl => exact fun c hc => .step (.refl _) hc
        | step _ he ih => exact fun c hc => .step (ih c hc) he
      exact key (to_reach hl h2 h4 rfl).1 _ ((edges hl hw (.inl rfl) _).2 ⟨us, h1, rfl⟩)
    · obtain ⟨-, q', h4⟩ := refers_written hl h1
      exact (to_reach hl h2 h4 rfl).1

/-- the check for cycles -/
theorem cycles [LinearOrder Str] (hl : Loads D p T R) (hD : D = .dict sq) : ∃ f0, ∀ n ≥ f0,
    (Circular D (urlunparse p) → prepareCycleCheck n (find o p R) ((visited R cSchema).map Prod.fst) true =
      some (.error .CycleDetectionError)) ∧
    (¬ Circular D (urlunparse p) → prepareCycleCheck n (find o p R) ((visited R cSchema).map Prod.fst) true = some (.ok ())) ∧
    prepareCycleCheck n (find o p R) ((visited R cSchema).map Prod.fst) false = some (.ok ()) := by
  rw [← circular_iff (o := o) hl hD]
  refine C08.C08_strict_cycle_check (find o p R) ((visited R cSchema).map Prod.fst ++
    (visited R cSchema).map fun v => urlunparse p ++ v.1) ?_ _ fun x hx => List.mem_append_left _ hx
  have hm : ∀ {ts : List Str} {q : Dict Str Tree}, Written D ts cSchema q → ∃ t, (pointer ts, t) ∈ visited R cSchema := by
    intro ts q hw
    obtain ⟨gs, h3, -⟩ := read_at hl hw
    exact ⟨_, (visited_iff hl hD).2 ⟨ts, q, gs, hw, h3, rfl⟩⟩
  intro v hv w hw
  have : ∃ ts q, Written D ts cSchema q ∧ Way (urlunparse p) v ts := by
    rcases List.mem_append.1 hv with hv | hv <;> obtain ⟨⟨x', t⟩, hm, rfl⟩ := List.mem_map.1 hv <;>
      obtain ⟨ts, q, gs, hw', -, e⟩ := (visited_iff hl hD).1 hm <;> cases e
    · exact ⟨ts, q, hw', .inl rfl⟩
    · exact ⟨ts, q, hw', .inr rfl⟩
  obtain ⟨ts, q, h1, h2⟩ := this
  obtain ⟨us, h3, rfl⟩ := (edges hl h1 h2 _).1 hw
  obtain ⟨-, q', h4⟩ := refers_written hl h3
  obtain ⟨t, h5⟩ := hm h4
  exact List.mem_append_right _ (List.mem_map.2 ⟨_, h5, rfl⟩)

/-! ## references are resolved -/

theorem resolved (hl : Loads D p T R) (hD : D = .dict sq) :
    resolveAll (world o.toOutside (urlunparse p) R) (visited R cSchema) = .ok () := by
  have key : ∀ vs : List (Str × Tree), (∀ v ∈ vs, v ∈ visited R cSchema) →
      resolveAll (world o.toOutside (urlunparse p) R) vs = .ok () := by
    intro vs
    induction vs with
    | nil => intro _; rfl
    | cons v vs ih =>
      intro h
      obtain ⟨ts, q, gs, hw, hp, rfl⟩ := (visited_iff hl hD).1 (h v (by simp))
      have ih := ih fun v hv => h v (List.mem_cons_of_mem _ hv)
      rw [resolveAll]
      split
      · exact ih
      · next r hr =>
        obtain ⟨fs, h1, h2, h3, h4⟩ := content_raw (o := o.toOutside) hl hw
        rw [hp] at h1; cases h1
        rw [refText_map (alike (o := o.toOutside) hl).keeps] at hr
        cases hr' : MergeRefs.refText (.obj cSchema gs) with
        | none => rw [hr'] at hr; cases hr
        | some r' =>
          rw [hr'] at hr; cases hr
          have hd := ref_read (by decide) hp hr'
          obtain ⟨r2, us, q', e, hn, hw'⟩ := hl.self.refs _ _ _ _ hw (by rw [show Dict.get? (v20 cSchema).fields c!"$ref" = some nul from rfl]; simp) hd
          cases e
          have hg : Good D (urlunparse p) r' := ⟨us, cSchema, q', hn, hw'⟩
          have := (resolve_good (o := o.toOutside) hl hg).1
          rw [resolve_raw hl hn hw'] at this
          rw [this]
          dsimp only
          obtain ⟨fs', -, -, h3', -⟩ := content_raw (o := o.toOutside) hl hw'
          rw [h3', mapRefs, if_pos (by rfl)]
          exact ih
  exact key _ fun _ h => h

/-! ## objects are merged -/

theorem shaped_of (hl : Loads D p T R) (hst : Styled D) {ts : List Str} {c : Nat} {q : Dict Str Tree} (hw : Written D ts c q)
    {t : Tree} (ht : parse v20 c (.dict q) = some t) : Spec.Merge.Shaped v20 (.one c) t := by
  have hplain : Plain (.dict q) := by
    obtain ⟨k, -, hp⟩ := hw
    exact Props.C82.place_plain hp hl.self.plain
  exact Proofs.Shape.shaped_parse (.dict q) (.one c) t hplain (Proofs.Fit.styles_of hst hw) ht

theorem traversal_iff (hl : Loads D p T R) (hD : D = .dict sq) {v : Str × Tree} :
    v ∈ Scan.traversal R [] ↔ ∃ c, v ∈ visited R c := by
  obtain ⟨rs, hR⟩ := C88.root_obj hl hD
  obtain ⟨s, t⟩ := v
  constructor
  · intro h
    have := ((C03.C03_visited R [] (C88.root_wf hl) (by rw [hR]; rfl) s t).1 h).1
    cases t with
    | obj c gs => exact ⟨c, List.mem_filter.2 ⟨h, by simp [cls?]⟩⟩
    | _ => cases this
  · rintro ⟨c, h⟩
    exact (List.mem_filter.1 h).1

/-- the numbers of the objects that are visited -/
theorem numbers (hl : Loads D p T R) (hD : D = .dict sq) {ts : List Str} {c : Nat} {q : Dict Str Tree} (hw : Written D ts c q) :
    o.num ts ∈ (Scan.traversal R []).map fun v => numAt o v.1 := by
  obtain ⟨gs, h3, -⟩ := read_at hl hw
  refine List.mem_map.2 ⟨_, (traversal_iff hl hD).2 ⟨c, (visited_iff hl hD).2 ⟨ts, q, gs, hw, h3, rfl⟩⟩, ?_⟩
  unfold numAt
  rw [Proofs.ScanTree.split_pointer, List.tail_cons]

theorem blank_ref {c : Nat} (hcl : c = cParameter ∨ c = cResponse) {fs : List (Str × Tree)} {order : List Atom → List Atom}
    (hb : Proofs.Prepared.Blank c fs) {r : Str} {x : Tree} (hx : x = .obj c (assemble (v20 c) [(c!"$ref", .atom (.str r))])) :
    ∃ gs, merge v20 order [] (.obj c fs) x = some (.obj c gs) ∧ Proofs.Prepared.Blank c gs :=
  Proofs.Prepared.merge_blank hcl hb ⟨r, hx⟩

/-- what is written for a parameter or a response: in place, or a reference to another one -/
theorem standing (hl : Loads D p T R) (hr : Refused.Sound D (urlunparse p) sq) {c : Nat} (hcl : c = cParameter ∨ c = cResponse) {ts : List Str}
    {q : Dict Str Tree} (hw : Written D ts c q) :
    (∃ os, (raw o.toOutside D (urlunparse p) T).content (o.num ts) = .obj c os ∧ Spec.Merge.Shaped v20 (.one c) (.obj c os) ∧
      Dict.get? os c!"$ref" = some nul) ∨
    ∃ r us q', r ≠ [] ∧ (raw o.toOutside D (urlunparse p) T).content (o.num ts) =
        .obj c (assemble (v20 c) [(c!"$ref", .atom (.str r))]) ∧
      (raw o.toOutside D (urlunparse p) T).resolve r = .ok (o.num us) ∧ Written D us c q' := by
  have hc : c ∈ refClasses := by rcases hcl with rfl | rfl <;> decide
  rcases hr.inPlace ts c q hw hcl with h | ⟨v, rfl⟩
  · left
    obtain ⟨fs, h1, h2, -⟩ := content_raw (o := o.toOutside) hl hw
    obtain ⟨os, e, h3⟩ := Proofs.Prepared.noRef hcl h h1
    cases e
    exact ⟨fs, h2, shaped_of hl hr.styled hw h1, h3⟩
  · right
    obtain ⟨r, us, q', rfl, hn, hw'⟩ := hl.self.refs _ _ _ _ hw (by rw [(ref_table hc).1]; simp) (by rfl)
    exact ⟨r, us, q', names_ne hn, written_ref (o := o.toOutside) hl hc hw, resolve_raw hl hn hw', hw'⟩

/-- the merge of a parameter or a response raises nothing, whatever the references lead to -/
theorem follow_ends (hl : Loads D p T R) (hr : Refused.Sound D (urlunparse p) sq) {order : List Atom → List Atom} {c : Nat}
    (hcl : c = cParameter ∨ c = cResponse) : ∀ (n : Nat) (vis : List Nat) {ts : List Str} {q : Dict Str Tree} (fs : List (Str × Tree)),
    Written D ts c q → (MergeRefs.refText ((raw o.toOutside D (urlunparse p) T).content (o.num ts)) ≠ none →
      Proofs.Prepared.Blank c fs) → ∀ out,
    MergeRefs.follow (raw o.toOutside D (urlunparse p) T) order c n vis (o.num ts) (.obj c fs) = some out → ∃ t, out = .value t := by
  intro n
  induction n with
  | zero => intro vis ts q fs _ _ out h; cases h
  | succ n ih =>
    intro vis ts q fs hw hb out h
    rw [MergeRefs.follow] at h
    cases hx : MergeRefs.refText ((raw o.toOutside D (urlunparse p) T).content (o.num ts)) with
    | none => rw [hx] at h; exact ⟨_, (Option.some.inj h).symm⟩
    | some r =>
      rw [hx] at h
      have hb := hb (by rw [hx]; simp)
      rcases standing (o := o) hl hr hcl hw with ⟨os, h1, -, h3⟩ | ⟨r', us, q', hne, h1, h2, h3⟩
      · rw [h1] at hx
        unfold MergeRefs.refText MergeRefs.refOf at hx
        dsimp only at hx
        rw [h3] at hx; cases hx
      · have := Proofs.MergeRefs.refText_some.2 (⟨hne, by rw [h1]; exact Proofs.Effective.ref_only hcl r'⟩ :
          Spec.MergeRefs.RefTo ((raw o.toOutside D (urlunparse p) T).content (o.num ts)) r')
        rw [hx] at this; cases this
        dsimp only at h
        rw [h2] at h
        dsimp only at h
        have hcls : cls? ((raw o.toOutside D (urlunparse p) T).content (o.num us)) = some c := by
          rcases standing (o := o) hl hr hcl h3 with ⟨os, h1, -⟩ | ⟨r', us, q', -, h1, -⟩ <;> rw [h1] <;> rfl
        rw [if_neg (by simp [hcls])] at h
        split at h
        · exact ⟨_, (Option.some.inj h).symm⟩
        · rcases standing (o := o) hl hr hcl h3 with ⟨os, g1, g2, g3⟩ | ⟨r', us', q'', hne, g1, g2, g3⟩
          · obtain ⟨gs, hgs⟩ := Proofs.Prepared.merge_last (order := order) hcl hb g2 g3
            rw [g1, hgs] at h
            refine ih _ gs h3 (fun hne => ?_) _ h
            exfalso
            apply hne
            rw [g1]
            unfold MergeRefs.refText MergeRefs.refOf
            dsimp only
            rw [g3]; rfl
          · obtain ⟨gs, hgs, hb'⟩ := blank_ref (order := order) hcl hb g1
            rw [hgs] at h
            exact ih _ gs h3 (fun _ => hb') _ h

theorem effective_ends (hl : Loads D p T R) (hD : D = .dict sq) (hr : Refused.Sound D (urlunparse p) sq) {order : List Atom → List Atom} {c : Nat}
    (hcl : c = cParameter ∨ c = cResponse) {ts : List Str} {q : Dict Str Tree} (hw : Written D ts c q) {fuel : Nat}
    (hf : (Scan.traversal R []).length < fuel) :
    ended (MergeRefs.effective (world o.toOutside (urlunparse p) R) order c fuel (o.num ts)) = some (.ok ()) := by
  have hmine : Mine D o.toOutside (o.num ts) := ⟨ts, c, q, rfl, hw⟩
  rw [effective_map (alike (o := o.toOutside) hl) order c fuel hmine]
  obtain ⟨out, ho⟩ := C52.C52_terminates (W := raw o.toOutside D (urlunparse p) T) (order := order) (c := c) (i := o.num ts)
    (fuel := fuel) ((Scan.traversal R []).map fun v => numAt o v.1) (by
      intro r j h
      by_cases hg : Good D (urlunparse p) r
      · obtain ⟨us, c', q', hn, hw'⟩ := hg
        rw [resolve_raw hl hn hw'] at h
        rw [← Except.ok.inj h]
        exact numbers hl hD hw'
      · rw [raw_bad hg] at h; cases h) (by rw [List.length_map]; exact hf)
  rw [ho]
  have : ∃ t, out = .value t := by
    unfold MergeRefs.effective at ho
    rcases standing (o := o) hl hr hcl hw with ⟨os, g1, g2, g3⟩ | ⟨r', us', q'', hne, g1, g2, g3⟩
    · obtain ⟨gs, hgs⟩ := Proofs.Prepared.merge_last (order := order) hcl Proofs.Prepared.blank_fresh g2 g3
      rw [g1, fresh, hgs] at ho
      dsimp only at ho
      refine follow_ends hl hr hcl fuel _ gs hw (fun hne => ?_) _ ho
      exfalso
      apply hne
      rw [g1]
      unfold MergeRefs.refText MergeRefs.refOf
      dsimp only
      rw [g3]; rfl
    · obtain ⟨gs, hgs, hb'⟩ := blank_ref (order := order) hcl Proofs.Prepared.blank_fresh g1
      rw [fresh, hgs] at ho
      exact follow_ends hl hr hcl fuel _ gs hw (fun _ => hb') _ ho
  obtain ⟨t, rfl⟩ := this
  rfl

theorem merge_item {order : List Atom → List Atom} {os : List (Str × Tree)}
    (hs : Spec.Merge.Shaped v20 (.one cPathItem) (.obj cPathItem os)) (hr : Dict.get? os c!"$ref" = some nul) :
    ∃ gs, merge v20 order [] (fresh v20 cPathItem) (.obj cPathItem os) = some (.obj cPathItem gs) := by
  simp only [Spec.Merge.Shaped] at hs
  refine Proofs.Prepared.merge_some (order := order) rfl fun n dflt own hf hown => ?_
  rw [hf] at hown; cases hown
  obtain ⟨v, hv⟩ := Option.isSome_iff_exists.1 ((Dict.get?_isSome_iff os n).2 (by
      rw [hs.2.1]; exact (Dict.get?_isSome_iff _ _).1 (by rw [hf]; rfl)))
  have hsh := Proofs.Merge.shapedFields_mem hs.2.2 (Dict.mem_of_get? hv)
  unfold copyOf
  cases hc : Dict.get? (v20 cPathItem).child n with
  | none =>
    rw [hc] at hsh
    dsimp only at hsh
    rw [Proofs.Merge.defaultOf_eq hf] at hsh
    obtain ⟨w, hw⟩ := Proofs.Merge.mergeField_total (order := order) (dflt := dflt) hsh
    exact ⟨v, w, hv, hw⟩
  | some k =>
    rw [hc] at hsh
    obtain ⟨w, hw⟩ := Proofs.Merge.copyAs_total (order := order) v k hsh
    have : ∃ x, mergeField order dflt true dflt v (some w) = some x := by
      unfold mergeField
      split
      · exact ⟨_, rfl⟩
      · rw [if_pos rfl]; split <;> exact ⟨_, rfl⟩
    obtain ⟨x, hx⟩ := this
    refine ⟨v, x, hv, ?_⟩
    show mergeField order dflt true dflt v (copyAs v20 order k v) = some x
    rw [hw]; exact hx

/-- merging a path item with its copy -/
theorem merge_again {order : List Atom → List Atom} {fs gs : List (Str × Tree)} (hk : Dict.keys fs = Dict.keys (v20 cPathItem).fields)
    (href : Dict.get? fs c!"$ref" = some nul)
    (hm : merge v20 order [] (fresh v20 cPathItem) (.obj cPathItem fs) = some (.obj cPathItem gs)) :
    ∃ r, merge v20 order [] (.obj cPathItem fs) (.obj cPathItem gs) = some (.obj cPathItem r) := by
  have table : ∀ x ∈ (v20 cPathItem).fields, (x.1 = c!"$ref" ∨ (Dict.get? (v20 cPathItem).child x.1).isSome = true) ∧
      isDefault x.2 x.2 = true := by decide +kernel
  refine Proofs.Prepared.merge_some (order := order) hk fun n dflt own hf hown => ?_
  obtain ⟨v, hv⟩ := Option.isSome_iff_exists.1 ((C43.C43_present hm n).2 (by rw [hf]; rfl))
  obtain ⟨h1, h2⟩ := table _ (Dict.mem_of_get? hf)
  dsimp only at h1 h2
  refine ⟨v, own, hv, ?_⟩
  cases hd : isDefault dflt own with
  | true =>
    have := C43.C43_untouched hm (n := n) (own := dflt) hf (.inr ⟨dflt, own, hf, hown, hd⟩)
    rw [hv] at this; cases this
    unfold mergeField
    rw [if_pos h2]
  | false =>
    rcases h1 with rfl | h1
    · rw [href] at hown; cases hown
      have : Dict.get? (v20 cPathItem).fields c!"$ref" = some nul := by rfl
      rw [hf] at this; cases this
      cases hd
    · unfold mergeField
      rw [h1]
      split
      · rfl
      · rw [if_pos rfl, hd]; rfl

theorem item_ends (hl : Loads D p T R) (hr : Refused.Sound D (urlunparse p) sq) {order : List Atom → List Atom} {ts : List Str} {q : Dict Str Tree}
    (hw : Written D ts cPathItem q) (n : Nat) :
    ended (MergeRefs.pathItem (world o.toOutside (urlunparse p) R) order (n + 1) (o.num ts)) = some (.ok ()) := by
  obtain ⟨fs, h1, -, h3, -⟩ := content_raw (o := o.toOutside) hl hw
  have hsh := shaped_of hl hr.styled hw h1
  obtain ⟨fs', e, -, hf⟩ := C42.C42_fields _ q _ h1
  cases e
  have href := hf c!"$ref" nul (by rfl) (by decide)
  rw [hr.items ts q hw] at href
  obtain ⟨gs, hgs⟩ := merge_item (order := order) hsh href
  have hfr : mapRefs (absolute (urlunparse p)) (fresh v20 cPathItem) = fresh v20 cPathItem := by rfl
  have hm := merge_map (alike (o := o.toOutside) hl).keeps order (c := cPathItem) (t := fresh v20 cPathItem) ⟨rfl, rfl⟩ (.obj cPathItem fs)
  rw [hfr, hgs, Option.map_some, mapRefs, mapRefs] at hm
  rw [mapRefs] at h3
  have href' : Dict.get? (mapFields (absolute (urlunparse p)) fs) c!"$ref" = some nul := by
    rw [get_mapFields, href]; rfl
  have hk : Dict.keys (mapFields (absolute (urlunparse p)) fs) = Dict.keys (v20 cPathItem).fields := by
    simp only [Spec.Merge.Shaped] at hsh
    rw [← hsh.2.1, mapFields_eq]
    unfold Dict.keys
    rw [List.map_map]; rfl
  obtain ⟨r, hr'⟩ := merge_again hk href' hm
  have hno : MergeRefs.refText (.obj cPathItem (mapFields (absolute (urlunparse p)) fs)) = none := by
    unfold MergeRefs.refText MergeRefs.refOf
    dsimp only
    rw [href']; rfl
  unfold MergeRefs.pathItem MergeRefs.effective
  rw [h3, hm]
  dsimp only
  rw [MergeRefs.follow, h3, hno]
  dsimp only
  rw [hr']
  rfl

theorem merged (hl : Loads D p T R) (hD : D = .dict sq) (hr : Refused.Sound D (urlunparse p) sq) (order : List Atom → List Atom) {fuel : Nat}
    (hf : (Scan.traversal R []).length < fuel) :
    mergeAll o (world o.toOutside (urlunparse p) R) order fuel (Scan.traversal R []) = some (.ok ()) := by
  have key : ∀ vs : List (Str × Tree), (∀ v ∈ vs, v ∈ Scan.traversal R []) →
      mergeAll o (world o.toOutside (urlunparse p) R) order fuel vs = some (.ok ()) := by
    intro vs
    induction vs with
    | nil => intro _; rfl
    | cons v vs ih =>
      intro h
      have ih := ih fun v hv => h v (List.mem_cons_of_mem _ hv)
      obtain ⟨c, hv⟩ := (traversal_iff hl hD).1 (h v (by simp))
      obtain ⟨ts, q, gs, hw, hp, rfl⟩ := (visited_iff hl hD).1 hv
      rw [mergeAll]
      have hn : numAt o (pointer ts) = o.num ts := by
        unfold numAt
        rw [Proofs.ScanTree.split_pointer, List.tail_cons]
      have : mergeOne (world o.toOutside (urlunparse p) R) order fuel (o.num ts) (mapRefs (absolute (urlunparse p)) (.obj c gs)) =
          some (.ok ()) := by
        unfold mergeOne
        rw [mapRefs, show cls? (.obj c (mapFields (absolute (urlunparse p)) gs)) = some c from rfl]
        split
        · next e =>
          cases e
          cases fuel with
          | zero => omega
          | succ n => exact item_ends hl hr hw n
        · split
          · next e => cases e; exact effective_ends hl hD hr (.inl rfl) hw hf
          · split
            · next e => cases e; exact effective_ends hl hD hr (.inr rfl) hw hf
            · rfl
      dsimp only
      rw [hn, this]
      exact ih
  exact key _ fun _ h => h

/-! ## objects are patched -/

theorem at_iff {k m : Str} {q : Dict Str Tree} : C86.At sq k m q ↔ Operation sq k m q :=
  ⟨fun h => ⟨h.method, h.written⟩, fun h => ⟨h.1, h.2⟩⟩

theorem sized_list {gs : List (Str × Tree)} {q : Dict Str Tree} {n : Str} {f : Str → Str}
    (h : attr gs n = mapRefs f ((Dict.get? q n).getD (.list []))) (hq : ListAt q n) : sized (attr gs n) = true := by
  rw [h]
  rcases hq with hq | ⟨l, hq⟩ <;> rw [hq]
  · rw [Option.getD_none, mapRefs]; rfl
  · rw [Option.getD_some, mapRefs]; rfl

theorem textual_of {gs : List (Str × Tree)} {q : Dict Str Tree} {n : Str} {f : Str → Str}
    (h : attr gs n = mapRefs f ((Dict.get? q n).getD nul)) (hq : ∃ s, Spec.Service.Maybe q n s) : textual (attr gs n) = true := by
  obtain ⟨s, hq⟩ := hq
  rw [h]
  cases s with
  | none =>
    rcases hq with hq | hq <;> rw [hq] <;> rfl
  | some s =>
    have hq : Dict.get? q n = some (.atom (.str s)) := hq
    rw [hq]
    unfold textual
    rw [Option.getD_some, mapRefs]
    simp [text?]

theorem patched (hl : Loads D p T R) (hD : D = .dict sq) (hr : Refused.Sound D (urlunparse p) sq) : patchAll R (Scan.traversal R []) = .ok () := by
  have key : ∀ vs : List (Str × Tree), (∀ v ∈ vs, v ∈ Scan.traversal R []) → patchAll R vs = .ok () := by
    intro vs
    induction vs with
    | nil => intro _; rfl
    | cons v vs ih =>
      intro h
      have ih := ih fun v hv => h v (List.mem_cons_of_mem _ hv)
      obtain ⟨c, hv⟩ := (traversal_iff hl hD).1 (h v (by simp))
      obtain ⟨ts, q, gs, hw, hp, rfl⟩ := (visited_iff hl hD).1 hv
      rw [patchAll]
      have : patchOne R (mapRefs (absolute (urlunparse p)) (.obj c gs)) = .ok () := by
        rw [mapRefs]
        unfold patchOne
        dsimp only
        split
        · next e =>
          subst e
          obtain ⟨gs', h1, h2⟩ := C86.fields_written hl hw
          obtain ⟨gs2, h3, h4⟩ := read_at hl hw
          rw [hp] at h3; cases h3
          rw [h1, mapRefs] at h4
          cases h4
          obtain ⟨k, m, -, hat⟩ := (C88.operation_at hD).1 hw
          obtain ⟨l1, l2, l3⟩ := hr.lists k m q (at_iff.1 hat)
          rw [sized_list (h2 c!"produces" (.list []) (by decide) (by rfl) (by decide)) l1,
            sized_list (h2 c!"consumes" (.list []) (by decide) (by rfl) (by decide)) l2,
            sized_list (h2 c!"schemes" (.list []) (by decide) (by rfl) (by decide)) l3]
          rfl
        · split
          · obtain ⟨rs, hR⟩ := C88.root_obj hl hD
            subst hD
            obtain ⟨gs', h1, h2⟩ := C86.fields_written hl (C86.root_written sq)
            rw [Tree.resolve] at h1
            cases h1
            dsimp only
            rw [textual_of (h2 c!"host" nul (by decide) (by rfl) (by decide)) hr.host,
              textual_of (h2 c!"basePath" nul (by decide) (by rfl) (by decide)) hr.basePath]
            rfl
          · rfl
      dsimp only
      rw [this]
      exact ih
  exact key _ fun _ h => h

theorem schemes_ok (hl : Loads D p T R) (hD : D = .dict sq) (hr : Refused.Sound D (urlunparse p) sq) : schemesOf R = .ok () := by
  subst hD
  obtain ⟨gs', h1, h2⟩ := C86.fields_written hl (C86.root_written sq)
  rw [Tree.resolve] at h1
  cases h1
  unfold schemesOf
  dsimp only
  rw [sized_list (h2 c!"schemes" (.list []) (by decide) (by rfl) (by decide)) hr.schemes, Bool.or_true]
  rfl

/-! ## the other walks of the detector of cycles -/

theorem refs_end [LinearOrder Str] (out : Str → List Str) (V : List Str) (hV : ∀ v ∈ V, ∀ w ∈ out v, w ∈ V) : ∀ (ps : List Str),
    (∀ x ∈ ps, x ∈ V) → ∀ cyc, ∃ f0 res, ∀ n ≥ f0, scanRefs n out ps cyc = some (.ok res) := by
  intro ps
  induction ps with
  | nil => exact fun _ cyc => ⟨0, cyc, fun n _ => rfl⟩
  | cons x ps ih =>
    intro h cyc
    obtain ⟨f1, r1, h1, -⟩ := C07.C07_walk out V hV x (h x (by simp)) cyc
    obtain ⟨f2, r2, h2⟩ := ih (fun y hy => h y (List.mem_cons_of_mem _ hy)) r1
    refine ⟨max f1 f2, r2, fun n hn => ?_⟩
    rw [scanRefs, h1 n (by omega)]
    exact h2 n (by omega)

theorem refOut_closed (hl : Loads D p T R) (hD : D = .dict sq) {c : Nat} (hc : c ∈ refClasses) :
    ∀ v ∈ (visited R c).map Prod.fst ++ (visited R c).map (fun v => urlunparse p ++ v.1), ∀ w ∈ refOut o (urlunparse p) R v,
      w ∈ (visited R c).map Prod.fst ++ (visited R c).map (fun v => urlunparse p ++ v.1) := by
  intro v hv w hw
  have : ∃ ts q, Written D ts c q ∧ Way (urlunparse p) v ts := by
    rcases List.mem_append.1 hv with hv | hv <;> obtain ⟨⟨x', t⟩, hm, rfl⟩ := List.mem_map.1 hv <;>
      obtain ⟨ts, q, gs, hw', -, e⟩ := (visited_iff hl hD).1 hm <;> cases e
    · exact ⟨ts, q, hw', .inl rfl⟩
    · exact ⟨ts, q, hw', .inr rfl⟩
  obtain ⟨ts, q, h1, h2⟩ := this
  have hsw : c ≠ cSwagger := by rintro rfl; revert hc; decide
  obtain ⟨gs, h3, h4⟩ := target_at (o := o) hl h1 (place_ne h1 hsw) h2
  unfold refOut at hw
  rw [h4, Option.bind_some, refText_map (alike (o := o.toOutside) hl).keeps] at hw
  cases hr : MergeRefs.refText (.obj c gs) with
  | none => rw [hr] at hw; cases hw
  | some r =>
    rw [hr] at hw
    have hd := ref_read hc h3 hr
    obtain ⟨r', us, q', e, hn, hw'⟩ := hl.self.refs _ _ _ _ h1 (by rw [(ref_table hc).1]; simp) hd
    cases e
    obtain ⟨gs', h5, -⟩ := read_at hl hw'
    simp only [Option.map_some, List.mem_singleton] at hw
    rw [hw, absolute_named hl.canon hl.whole hn]
    exact List.mem_append_right _ (List.mem_map.2 ⟨_, (visited_iff hl hD).2 ⟨us, q', gs', hw', h5, rfl⟩, rfl⟩)

theorem classes_end [LinearOrder Str] (hl : Loads D p T R) (hD : D = .dict sq) : ∀ cs : List Nat, (∀ c ∈ cs, c ∈ refClasses) →
    ∃ f0, ∀ n ≥ f0, scanClasses n o (urlunparse p) R cs = some (.ok ()) := by
  intro cs
  induction cs with
  | nil => exact fun _ => ⟨0, fun n _ => rfl⟩
  | cons c cs ih =>
    intro h
    obtain ⟨f1, h1⟩ := ih fun x hx => h x (List.mem_cons_of_mem _ hx)
    obtain ⟨f2, res, h2⟩ := refs_end (refOut o (urlunparse p) R) _ (refOut_closed hl hD (h c (by simp)))
      ((visited R c).map Prod.fst) (fun x hx => List.mem_append_left _ hx) []
    refine ⟨max f1 f2, fun n hn => ?_⟩
    rw [scanClasses, h2 n (by omega)]
    exact h1 n (by omega)

/-! ## the document is validated -/

/-- the properties of a schema that was read -/
theorem properties_read {q : Dict Str Tree} {gs : List (Str × Tree)} (h : parse v20 cSchema (.dict q) = some (.obj cSchema gs))
    (hp : Plain (.dict q)) :
    (∃ d d', Dict.get? q c!"properties" = some (.dict d) ∧ parseDict v20 cSchema d = some d' ∧
      Dict.get? gs c!"properties" = some (.dict d')) ∨
    (¬ ∃ d, Dict.get? q c!"properties" = some (.dict d)) ∧ Dict.get? gs c!"properties" = some (.dict []) := by
  obtain ⟨e, he, h2⟩ := parse_fields h
  cases h2
  have hk : Dict.get? (v20 cSchema).child c!"properties" = some (.dict cSchema) := by rfl
  obtain ⟨dflt, hf⟩ := child_field hk
  rw [get_fieldOf, hf, Option.map_some]
  cases hq : Dict.get? q c!"properties" with
  | none =>
    right
    refine ⟨(by rintro ⟨d, hd⟩; cases hd), ?_⟩
    unfold Proofs.Doc.fieldOf
    dsimp only
    rw [hq, hk]; rfl
  | some v =>
    cases hn : isNull v with
    | true =>
      right
      have : v = .atom .none := by
        cases v with
        | atom a => cases a <;> simp [isNull] at hn ⊢
        | _ => simp [isNull] at hn
      subst this
      refine ⟨(by rintro ⟨d, hd⟩; cases hd), ?_⟩
      unfold Proofs.Doc.fieldOf Proofs.Doc.parseField
      dsimp only
      rw [hq, Option.bind_some, hk]; rfl
    | false =>
      left
      obtain ⟨w, h1, h2⟩ := fieldOf_child he hq hk hn dflt
      rw [h2]
      cases v with
      | dict d =>
        rw [parseAs] at h1
        cases hd : parseDict v20 cSchema d with
        | none => rw [hd] at h1; cases h1
        | some d' => rw [hd] at h1; cases h1; exact ⟨d, d', rfl, hd, rfl⟩
      | atom a =>
        rw [parseAs] at h1
        unfold parseAtom at h1
        split at h1 <;> first | cases h1 | simp [isNull] at hn
        all_goals simp_all
      | list l => rw [parseAs.eq_def] at h1; cases h1
      | obj => rw [parseAs.eq_def] at h1; cases h1

theorem readOnly_read {q : Dict Str Tree} {gs : List (Str × Tree)} {f : Str → Str}
    (h : parse v20 cSchema (.dict q) = some (.obj cSchema gs))
    (hq : Dict.get? q c!"readOnly" = none ∨ Dict.get? q c!"readOnly" = some (.atom .none) ∨
      ∃ b, Dict.get? q c!"readOnly" = some (.atom (.bool b))) :
    Dict.get? (mapFields f gs) c!"readOnly" = some ((Dict.get? q c!"readOnly").getD nul) := by
  obtain ⟨fs', e, -, hf⟩ := C42.C42_fields _ q _ h
  cases e
  have := hf c!"readOnly" nul (by rfl) (by decide)
  rw [get_mapFields, this]
  rcases hq with hq | hq | ⟨b, hq⟩ <;> rw [hq] <;> rfl

/-- what validation sees of a schema is what the document says -/
theorem schema_facts (hl : Loads D p T R) (hr : Refused.Regular D (urlunparse p) sq) {ts : List Str} {q : Dict Str Tree} (hw : Written D ts cSchema q)
    {fs : List (Str × Tree)} (hp : parse v20 cSchema (.dict q) = some (.obj cSchema fs)) :
    C49.Regular (mapRefs (absolute (urlunparse p)) (.obj cSchema fs)) ∧
    ∃ ks, Spec.Service.Texts q c!"required" ks ∧ C49.Requires (mapRefs (absolute (urlunparse p)) (.obj cSchema fs)) ks ∧
    ∀ k, C49.ReadOnly (mapRefs (absolute (urlunparse p)) (.obj cSchema fs)) k ↔ ∃ ps d,
      Dict.get? q c!"properties" = some (.dict ps) ∧ Dict.get? ps k = some (.dict d) ∧
      Dict.get? d c!"readOnly" = some (.atom (.bool true)) := by
  have hplain : Plain (.dict q) := by
    obtain ⟨k, -, hp⟩ := hw
    exact Props.C82.place_plain hp hl.self.plain
  obtain ⟨ks, hks⟩ := hr.required ts q hw
  have hreq : C49.Requires (mapRefs (absolute (urlunparse p)) (.obj cSchema fs)) ks := by
    rw [mapRefs]
    refine ⟨_, _, rfl, ?_⟩
    obtain ⟨fs', e, -, hf⟩ := C42.C42_fields _ q _ hp
    cases e
    have := hf c!"required" (.list []) (by rfl) (by decide)
    rw [get_mapFields, this, Option.map_some]
    have hm : ∀ l : List Str, mapList (absolute (urlunparse p)) (l.map Spec.Service.text) = l.map Spec.Service.text := by
      intro l
      induction l with
      | nil => rfl
      | cons x l ih => rw [List.map_cons, mapList, ih]; rfl
    rcases hks with h | ⟨h, rfl⟩
    · rw [h, Option.getD_some]
      simp only [mapField, if_neg (show c!"required" ≠ c!"$ref" by decide), mapRefs, hm]
      rfl
    · rw [h]; rfl
  -- the schemas of properties
  have hsub : ∀ {d : Dict Str Tree}, Dict.get? q c!"properties" = some (.dict d) → ∀ {n : Str} {v : Tree}, Dict.get? d n = some v →
      ∃ d', v = .dict d' ∧ Written D (ts ++ [c!"properties", n]) cSchema d' := by
    intro d hd n v hv
    have hpl := Proofs.Fit.written_field hw hd (by rfl : Dict.get? (v20 cSchema).child c!"properties" = some (.dict cSchema)) (.key hv .here)
    have hpar : ∃ w, parseAs v20 (.one cSchema) v = some w := by
      rcases properties_read hp hplain with ⟨d1, d2, h1, h2, -⟩ | ⟨h1, -⟩
      · rw [hd] at h1; cases h1
        obtain ⟨w, h3, -⟩ := (parseDict_get h2 n).2 v hv
        exact ⟨w, h3⟩
      · exact absurd ⟨d, hd⟩ h1
    obtain ⟨w, hw'⟩ := hpar
    cases v with
    | dict d' => exact ⟨d', rfl, _, .inl rfl, hpl⟩
    | atom a =>
      rw [parseAs] at hw'
      unfold parseAtom at hw'
      split at hw'
      · exact absurd hpl (hl.self.whole _ _)
      all_goals first | (simp_all; done) | cases hw'
    | list l => rw [parseAs.eq_def] at hw'; cases hw'
    | obj => rw [parseAs.eq_def] at hw'; cases hw'
  refine ⟨?_, ks, hks, hreq, ?_⟩
  · rw [mapRefs] at hreq ⊢
    rcases properties_read hp hplain with ⟨d, d', h1, h2, h3⟩ | ⟨h1, h3⟩
    · refine ⟨ks, _, _, mapDict (absolute (urlunparse p)) d', hreq, rfl, by rw [get_mapFields, h3]; rfl, ?_⟩
      intro k t ht
      rw [get_mapDict] at ht
      cases hk : Dict.get? d' k with
      | none => rw [hk] at ht; cases ht
      | some w =>
        rw [hk] at ht; cases ht
        cases hv : Dict.get? d k with
        | none => rw [(parseDict_get h2 k).1 hv] at hk; cases hk
        | some v =>
          obtain ⟨w', h4, h5⟩ := (parseDict_get h2 k).2 v hv
          rw [hk] at h5; cases h5
          obtain ⟨q', rfl, hw'⟩ := hsub h1 hv
          obtain ⟨fs', h6, -⟩ := read_at hl hw'
          have h6' : parseAs v20 (.one cSchema) (.dict q') = some (.obj cSchema fs') := h6
          rw [h4] at h6'; cases h6'
          refine ⟨_, _, by rw [mapRefs], ?_⟩
          have hro := hr.readOnly _ _ hw'
          rw [readOnly_read h6 hro]
          rcases hro with h | h | ⟨b, h⟩ <;> rw [h]
          · exact .inl rfl
          · exact .inl rfl
          · exact .inr ⟨b, rfl⟩
    · refine ⟨ks, _, _, [], hreq, rfl, by rw [get_mapFields, h3]; rfl, ?_⟩
      intro k t ht; cases ht
  · intro k
    rw [mapRefs]
    constructor
    · rintro ⟨c, gs, ps, c', ps', e, h1, h2, h3⟩
      cases e
      rw [get_mapFields] at h1
      rcases properties_read hp hplain with ⟨d, d', g1, g2, g3⟩ | ⟨-, g3⟩
      · rw [g3] at h1
        have h1 : some (Tree.dict (mapDict (absolute (urlunparse p)) d')) = some (.dict ps) := h1
        cases h1
        rw [get_mapDict] at h2
        cases hk : Dict.get? d' k with
        | none => rw [hk] at h2; cases h2
        | some w =>
          rw [hk] at h2
          cases hv : Dict.get? d k with
          | none => rw [(parseDict_get g2 k).1 hv] at hk; cases hk
          | some v =>
            obtain ⟨w', h4, h5⟩ := (parseDict_get g2 k).2 v hv
            rw [hk] at h5; cases h5
            obtain ⟨q', rfl, hw'⟩ := hsub g1 hv
            obtain ⟨fs', h6, -⟩ := read_at hl hw'
            have h6' : parseAs v20 (.one cSchema) (.dict q') = some (.obj cSchema fs') := h6
            rw [h4] at h6'; cases h6'
            rw [Option.map_some, mapRefs] at h2
            cases h2
            have hro := hr.readOnly _ _ hw'
            rw [readOnly_read h6 hro] at h3
            refine ⟨d, q', g1, hv, ?_⟩
            rcases hro with h | h | ⟨b, h⟩ <;> rw [h] at h3 ⊢
            · cases h3
            · cases h3
            · exact h3
      · rw [g3] at h1
        have h1 : some (Tree.dict []) = some (.dict ps) := h1
        cases h1
        cases h2
    · rintro ⟨ps, d, h1, h2, h3⟩
      rcases properties_read hp hplain with ⟨d1, d', g1, g2, g3⟩ | ⟨g1, -⟩
      · rw [h1] at g1; cases g1
        obtain ⟨w, h4, h5⟩ := (parseDict_get g2 k).2 _ h2
        obtain ⟨q', e, hw'⟩ := hsub h1 h2
        cases e
        obtain ⟨fs', h6, -⟩ := read_at hl hw'
        have h6' : parseAs v20 (.one cSchema) (.dict d) = some (.obj cSchema fs') := h6
        rw [h4] at h6'; cases h6'
        refine ⟨_, _, mapDict (absolute (urlunparse p)) d', cSchema, mapFields (absolute (urlunparse p)) fs', rfl,
          by rw [get_mapFields, g3]; rfl, by rw [get_mapDict, h5, Option.map_some, mapRefs], ?_⟩
        rw [readOnly_read h6 (hr.readOnly _ _ hw'), h3]; rfl
      · exact absurd ⟨ps, h1⟩ g1

theorem validated (hl : Loads D p T R) (hD : D = .dict sq) (hr : Refused.Regular D (urlunparse p) sq) (names : Nat → Str) (strict : Bool) :
    (strict = true → Faulty D → Validate.validate mro names cSchema (some R) strict = .error .ValidationError) ∧
    (¬ (strict = true ∧ Faulty D) → ∃ es, Validate.validate mro names cSchema (some R) strict = .ok es) := by
  obtain ⟨rs, hR⟩ := C88.root_obj hl hD
  have hat : ∀ {ts : List Str} {t : Tree}, Places.At [] R ts t → cls? t = some cSchema → ∃ q fs, Written D ts cSchema q ∧
      parse v20 cSchema (.dict q) = some (.obj cSchema fs) ∧ t = mapRefs (absolute (urlunparse p)) (.obj cSchema fs) := by
    intro ts t h hc
    cases t with
    | obj c gs =>
      cases hc
      obtain ⟨q, hw⟩ := C88.written_of hl h
      obtain ⟨fs, h1, h2⟩ := read_at hl hw
      rw [Proofs.ScanTree.resolve_at h (C88.root_wf hl)] at h2
      exact ⟨q, fs, hw, h1, Except.ok.inj h2⟩
    | _ => cases hc
  obtain ⟨errs, h1, h2, h3⟩ := C49.C49_errors mro names cSchema R (by
      intro c; unfold mro; by_cases h : c = cSchema <;> simp [h]) (C88.root_wf hl) (by rw [hR]; rfl) (by
      intro ts t h hc
      obtain ⟨q, fs, hw, hp, rfl⟩ := hat h hc
      exact (schema_facts hl hr hw hp).1)
  have hiff : errs ≠ [] ↔ Faulty D := by
    constructor
    · intro hne
      obtain ⟨e, he⟩ := List.exists_mem_of_ne_nil _ hne
      obtain ⟨ts, t, ks, k, g1, g2, g3, g4, g5, -⟩ := h3 e he
      obtain ⟨q, fs, hw, hp, rfl⟩ := hat g1 g2
      obtain ⟨-, ks', f1, f2, f3⟩ := schema_facts hl hr hw hp
      obtain ⟨ps, d, e1, e2, e3⟩ := (f3 k).1 g5
      have : ks = ks' := by
        obtain ⟨_, _, e, g⟩ := g3
        obtain ⟨_, _, e', g'⟩ := f2
        rw [e] at e'
        cases e'
        rw [g] at g'
        have := Option.some.inj g'
        injection this with this
        exact List.map_injective_iff.2 (fun a b h => by injection h with h; injection h) this
      subst this
      rcases f1 with f1 | ⟨-, rfl⟩
      · exact ⟨ts, q, _, k, ps, d, hw, f1, List.mem_map.2 ⟨k, g4, rfl⟩, e1, e2, e3⟩
      · cases g4
    · rintro ⟨ts, q, l, k, ps, d, hw, e0, e4, e1, e2, e3⟩ he
      obtain ⟨fs, hp, hres⟩ := read_at hl hw
      obtain ⟨gs, ha⟩ := C88.at_of hl hw
      rw [Proofs.ScanTree.resolve_at ha (C88.root_wf hl)] at hres
      have hres := Except.ok.inj hres
      obtain ⟨-, ks, f1, f2, f3⟩ := schema_facts hl hr hw hp
      rw [← hres] at f2 f3
      have := (h2 ts _ ks k ha rfl f2).1 ((f3 k).2 ⟨ps, d, e1, e2, e3⟩)
      rw [he] at this
      rcases f1 with f1 | ⟨f1, -⟩
      · rw [f1] at e0; cases e0
        obtain ⟨k', hk', e⟩ := List.mem_map.1 e4
        have : k' = k := by injection e with e; injection e
        subst this
        have hc := List.count_pos_iff.2 hk'
        rw [List.count_nil] at this
        omega
      · rw [f1] at e0; cases e0
  rw [C49.C49_strict mro names cSchema _ strict errs h1]
  exact ⟨fun h1 h2 => if_pos ⟨h1, hiff.2 h2⟩, fun h => ⟨errs, if_neg fun g => h ⟨g.1, hiff.1 g.2⟩⟩⟩

/-! ## the version -/

theorem toPairs_get (d : Dict Str Tree) (n : Str) : Dict.get? (_root_.Effective.toPairs d) n = (Dict.get? d n).map _root_.Effective.toVal := by
  induction d with
  | nil => rfl
  | cons x d ih =>
    obtain ⟨m, t⟩ := x
    rw [_root_.Effective.toPairs, Dict.get?, Dict.get?]
    split
    · rfl
    · exact ih

theorem version (sq : Dict Str Tree) : AppResolve.get_swagger_version (_root_.Effective.toVal (.dict sq)) =
    .ok (match Dict.get? sq c!"swaggerVersion" with
      | some t => _root_.Effective.toVal t
      | none => match Dict.get? sq c!"swagger" with
        | some t => _root_.Effective.toVal t
        | none => .none) := by
  rw [_root_.Effective.toVal, AppResolve.get_swagger_version, toPairs_get, toPairs_get]
  cases Dict.get? sq c!"swaggerVersion" with
  | some t => rfl
  | none => cases Dict.get? sq c!"swagger" <;> rfl

/-- the document says that it is of this version -/
inductive Says (sq : Dict Str Tree) : Tree → Prop
  | old {t : Tree} (h : Dict.get? sq c!"swaggerVersion" = some t) : Says sq t
  | new {t : Tree} (h : Dict.get? sq c!"swaggerVersion" = none) (h' : Dict.get? sq c!"swagger" = some t) : Says sq t

/-- **C92, other versions.** Any document that does not say that it is of version 1.2 or 2.0 is refused. -/
theorem C92_version [LinearOrder Str] (url : Str) (sq : Dict Str Tree) (h1 : ¬ Says sq (Spec.Service.text c!"1.2"))
    (h2 : ¬ Says sq (Spec.Service.text c!"2.0")) (names : Nat → Str) (order : List Atom → List Atom) (fuel : Nat) (sep : Str) (strict : Bool) :
    create o url (.dict sq) names order fuel sep strict = some (.error .NotImplementedError) := by
  have key : ∀ v : Str, ∀ t : Tree, _root_.Effective.toVal t = .str v → t = Spec.Service.text v := by
    intro v t h
    cases t with
    | atom a => cases a <;> rw [_root_.Effective.toVal] at h <;> cases h; rfl
    | _ => rw [_root_.Effective.toVal] at h; cases h
  have no : ∀ v : Str, ¬ Says sq (Spec.Service.text v) → (match Dict.get? sq c!"swaggerVersion" with
      | some t => _root_.Effective.toVal t
      | none => match Dict.get? sq c!"swagger" with
        | some t => _root_.Effective.toVal t
        | none => Val.none) ≠ .str v := by
    intro v hv h
    cases e : Dict.get? sq c!"swaggerVersion" with
    | some t =>
      rw [e] at h
      exact hv (.old (key v t h ▸ e))
    | none =>
      rw [e] at h
      cases e' : Dict.get? sq c!"swagger" with
      | some t =>
        rw [e'] at h
        exact hv (.new e (key v t h ▸ e'))
      | none => rw [e'] at h; cases h
  unfold create
  rw [version]
  dsimp only
  rw [if_neg (no _ h1), if_neg (no _ h2)]

/-! ## making an application -/

theorem item_written (hD : D = .dict sq) {paths : Dict Str Tree} {k : Str} {iq : Dict Str Tree}
    (h1 : Dict.get? sq c!"paths" = some (.dict paths)) (h2 : Dict.get? paths k = some (.dict iq)) :
    Written D [c!"paths", k] cPathItem iq := by
  refine ⟨.one cPathItem, .inl rfl, ?_⟩
  rw [hD]
  exact Proofs.Fit.written_field (C86.root_written sq) h1
    (by rfl : Dict.get? (v20 cSwagger).child c!"paths" = some (.dict cPathItem)) (.key h2 .here)

/-- its schemas are composed -/
theorem composed (hl : Loads D p T R) (hD : D = .dict sq) (hr : Refused.Sound D (urlunparse p) sq) : aggregated o (urlunparse p) R = true := by
  obtain ⟨h', hc⟩ := C94.C94_terminates (o := o.toOutside) hl hD
  unfold aggregated
  rw [hc]
  dsimp only
  rw [List.all_eq_true]
  intro x hx
  obtain ⟨i, hi, rfl⟩ := List.getElem_of_mem hx
  have hl' : _root_.Aggregate.look h' i = h'[i] := by
    unfold _root_.Aggregate.look
    rw [List.getElem?_eq_getElem hi]
    rfl
  rw [List.all_eq_true]
  intro e he
  have hwf := C53.wellformed (Proofs.Composed.loaded (o := o.toOutside) hl hD) C94.order hc hi
  obtain ⟨t, ht⟩ := C94.C94_whole hl hD hc hr.parts hi (Dict.get?_of_mem hwf (hl' ▸ he))
  rw [ht]
  rfl

/-- a document that holds what the scanners need is prepared: what the validation and the last walk say is what becomes of it -/
theorem prepared [LinearOrder Str] (hl : Loads D p T R) (hD : D = .dict sq) (hr : Refused.Sound D (urlunparse p) sq) (order : List Atom → List Atom)
    (sep : Str) : ∃ f0, ∀ fuel ≥ f0, ∀ (strict : Bool) (checked : Except Exc Unit),
      (∀ e, checked = .error e → prepare o (urlunparse p) R checked order fuel sep strict = some (.error e)) ∧
      (checked = .ok () → Clash sep sq → prepare o (urlunparse p) R checked order fuel sep strict = some (.error .SchemaError)) ∧
      (checked = .ok () → ¬ Clash sep sq → strict = true → Circular D (urlunparse p) →
        prepare o (urlunparse p) R checked order fuel sep strict = some (.error .CycleDetectionError)) ∧
      (checked = .ok () → ¬ Clash sep sq → ¬ (strict = true ∧ Circular D (urlunparse p)) → ∃ op m,
        prepare o (urlunparse p) R checked order fuel sep strict = some (.ok (op, m)) ∧ Dict.WF op ∧
        (∀ n i, Dict.get? op n = some i ↔ ∃ k m q, Operation sq k m q ∧ Spec.Index.Calls sep q n ∧ i = o.num [c!"paths", k, m]) ∧
        (∀ n q, Written D [c!"definitions", n] cSchema q → ScopeDict.getitem sep m (.plain n) = .ok (o.num [c!"definitions", n])) ∧
        ∀ key i, ScopeDict.getitem sep m key = .ok i → ∃ n q, Written D [c!"definitions", n] cSchema q ∧ i = o.num [c!"definitions", n]) := by
  obtain ⟨f1, hcyc⟩ := cycles (o := o) hl hD
  obtain ⟨f2, hcls⟩ := classes_end (o := o) hl hD [cParameter, cResponse, cPathItem] (by decide)
  refine ⟨f1 + f2 + (Scan.traversal R []).length + 1, fun fuel hf strict checked => ?_⟩
  obtain ⟨r, hix, hcase⟩ := C88.C88_index (o := o) hl hD (fun k m q h => hr.labels k m q (at_iff.1 h))
    (fun paths k iq h1 h2 => hr.items _ _ (item_written hD h1 h2)) sep
  obtain ⟨hin, hix⟩ : Index.inPlace R = true ∧ TypeReduce.run sep (Index.ops o R) = r := by
    unfold Index.index at hix
    split at hix
    · next h => exact ⟨h, Option.some.inj hix⟩
    · cases hix
  have hc : prepare o (urlunparse p) R checked order fuel sep strict =
      match checked with
      | .error e => some (.error e)
      | .ok _ => finish o (urlunparse p) R fuel sep strict := by
    unfold prepare
    rw [resolved hl hD]
    dsimp only
    cases checked with
    | error e => rfl
    | ok es =>
      dsimp only
      rw [schemes_ok hl hD hr]
      dsimp only
      rw [merged hl hD hr order (by omega)]
      dsimp only
      unfold spread
      rw [if_pos hin]
      dsimp only
      rw [patched hl hD hr]
      dsimp only
      rw [if_pos (composed hl hD hr)]
  have hcl : (∃ k m oq k' m' oq' n, (k, m) ≠ (k', m') ∧ C86.At sq k m oq ∧ C86.At sq k' m' oq' ∧
      Spec.Index.Calls sep oq n ∧ Spec.Index.Calls sep oq' n) ↔ Clash sep sq := by
    simp only [at_iff]; rfl
  rw [hc]
  refine ⟨fun e h => by rw [h], fun h1 h2 => ?_, fun h1 h2 h3 h4 => ?_, fun h1 h2 h3 => ?_⟩ <;> subst h1
  · dsimp only
    unfold finish
    rw [hix]
    rcases hcase with ⟨rfl, -⟩ | ⟨d, -, -, -, h⟩
    · rfl
    · obtain ⟨k, m, q, k', m', q', n, hne, a, b, c, d⟩ := hcl.2 h2
      exact absurd (h _ _ _ _ _ _ _ a b c d) hne
  · dsimp only
    unfold finish
    rw [hix]
    rcases hcase with ⟨-, h⟩ | ⟨d, rfl, -⟩
    · exact absurd (hcl.1 h) h2
    · dsimp only
      rw [hcls fuel (by omega)]
      dsimp only
      have := (hcyc fuel (by omega)).1 h4
      rw [h3]
      unfold find at this
      rw [this]
  · rcases hcase with ⟨-, h⟩ | ⟨d, rfl, hwf, hget, -⟩
    · exact absurd (hcl.1 h) h2
    · refine ⟨d, Index.models o R, ?_, hwf, fun n i => by rw [hget]; simp only [at_iff], C88.C88_models hl hD sep⟩
      dsimp only
      unfold finish
      rw [hix]
      dsimp only
      rw [hcls fuel (by omega)]
      dsimp only
      have : prepareCycleCheck fuel (find o p R) ((visited R cSchema).map Prod.fst) strict = some (.ok ()) := by
        cases strict with
        | false => exact (hcyc fuel (by omega)).2.2
        | true => exact (hcyc fuel (by omega)).2.1 fun h => h3 ⟨rfl, h⟩
      unfold find at this
      rw [this]

/-- **C92.** What becomes of a document of Swagger 2.0: which exception, or which tables of operations and of models. -/
theorem C92_create [LinearOrder Str] (hl : Loads D p T R) (hD : D = .dict sq) (hv : Says sq (Spec.Service.text c!"2.0"))
    (hr : Refused.Regular D (urlunparse p) sq) (names : Nat → Str) (order : List Atom → List Atom) (sep : Str) :
    ∃ f0, ∀ fuel ≥ f0, ∀ strict : Bool,
      (strict = true → Faulty D → create o (urlunparse p) D names order fuel sep strict = some (.error .ValidationError)) ∧
      (¬ (strict = true ∧ Faulty D) → Clash sep sq →
        create o (urlunparse p) D names order fuel sep strict = some (.error .SchemaError)) ∧
      (¬ Faulty D → ¬ Clash sep sq → strict = true → Circular D (urlunparse p) →
        create o (urlunparse p) D names order fuel sep strict = some (.error .CycleDetectionError)) ∧
      (¬ (strict = true ∧ (Faulty D ∨ Circular D (urlunparse p))) → ¬ Clash sep sq → ∃ op m,
        create o (urlunparse p) D names order fuel sep strict = some (.ok (op, m)) ∧ Dict.WF op ∧
        (∀ n i, Dict.get? op n = some i ↔ ∃ k m q, Operation sq k m q ∧ Spec.Index.Calls sep q n ∧ i = o.num [c!"paths", k, m]) ∧
        (∀ n q, Written D [c!"definitions", n] cSchema q → ScopeDict.getitem sep m (.plain n) = .ok (o.num [c!"definitions", n])) ∧
        ∀ key i, ScopeDict.getitem sep m key = .ok i → ∃ n q, Written D [c!"definitions", n] cSchema q ∧ i = o.num [c!"definitions", n]) := by
  obtain ⟨f0, hp⟩ := prepared (o := o) hl hD hr.toSound order sep
  refine ⟨f0, fun fuel hf strict => ?_⟩
  have hc : create o (urlunparse p) D names order fuel sep strict = prepare o (urlunparse p) R
      ((Validate.validate mro names cSchema (some R) strict).map fun _ => ()) order fuel sep strict := by
    unfold create
    rw [hD, version]
    have : (match Dict.get? sq c!"swaggerVersion" with
      | some t => _root_.Effective.toVal t
      | none => match Dict.get? sq c!"swagger" with
        | some t => _root_.Effective.toVal t
        | none => .none) = Val.str c!"2.0" := by
      rcases hv with h | ⟨h, h'⟩
      · rw [h]; rfl
      · rw [h]; dsimp only; rw [h']; rfl
    dsimp only
    rw [this, if_neg (by decide), if_pos rfl, ← hD, hl.read]
    dsimp only
    rw [hl.normalized]
  obtain ⟨hval, hok⟩ := validated hl hD hr names strict
  obtain ⟨g1, g2, g3, g4⟩ := hp fuel hf strict ((Validate.validate mro names cSchema (some R) strict).map fun _ => ())
  rw [hc]
  refine ⟨fun h1 h2 => g1 _ (by rw [hval h1 h2]; rfl), fun h1 h2 => ?_, fun h1 h2 h3 h4 => ?_, fun h1 h2 => ?_⟩
  · obtain ⟨es, he⟩ := hok h1
    exact g2 (by rw [he]; rfl) h2
  · obtain ⟨es, he⟩ := hok fun h => h1 h.2
    exact g3 (by rw [he]; rfl) h2 h3 h4
  · obtain ⟨es, he⟩ := hok fun h => h1 ⟨h.1, .inl h.2⟩
    exact g4 (by rw [he]; rfl) h2 fun h => h1 ⟨h.1, .inr h.2⟩

end Props.C92
