import Verif.Proofs.Simulate
import Verif.Spec.Described
import Verif.Props.C78
/-! # Lemmas for C82: the objects of a document before its references are made absolute -/

namespace Proofs.Origin
open Py Utils Tree _root_.Doc Spec.Places Spec.Pointed Spec.Described _root_.Loaded Proofs.Loaded Proofs.Placed Proofs.Simulate

/-- a reference to a place of the document -/
def Good (D : Tree) (url r : Str) : Prop := ∃ ts c q, Names url r ts ∧ Written D ts c q

open Classical in
/-- the references of the document kept, all others changed -/
noncomputable def marked (D : Tree) (url r : Str) : Str := if r = [] ∨ Good D url r then r else r ++ ['#']

/-- the objects written in the document -/
def Mine (D : Tree) (o : Outside) (i : Nat) : Prop := ∃ ts c q, i = o.num ts ∧ Written D ts c q

open Classical in
/-- the objects as they are read, with the references as they are written -/
noncomputable def raw (o : Outside) (D : Tree) (url : Str) (T : Tree) : MergeRefs.World where
  content := (world o url T).content
  resolve r := if Good D url r then find o url T (absolute url r) else .error .ValueError

theorem raw_good {o : Outside} {D T : Tree} {url r : Str} (h : Good D url r) :
    (raw o D url T).resolve r = find o url T (absolute url r) := by
  unfold raw
  dsimp only
  rw [if_pos h]

theorem raw_bad {o : Outside} {D T : Tree} {url r : Str} (h : ¬ Good D url r) :
    (raw o D url T).resolve r = .error .ValueError := by
  unfold raw
  dsimp only
  rw [if_neg h]

/-- A document at a URL, read, and its references made absolute. -/
structure Loads (D : Tree) (p : Url) (T R : Tree) : Prop where
  canon : Canon p
  whole : p.fragment = []
  self : SelfContained D (urlunparse p)
  read : parse v20 cSwagger D = some T
  normalized : normalizeRefs (urlunparse p) T = some R

theorem names_ne {url r : Str} {ts : List Str} (h : Names url r ts) : r ≠ [] := by
  obtain ⟨g, -, hp⟩ := pointer_cons h.1
  rcases h.2 with rfl | rfl <;> rw [hp] <;> simp

theorem good_ne {D : Tree} {url r : Str} (h : Good D url r) : r ≠ [] := by
  obtain ⟨ts, c, q, hn, -⟩ := h
  exact names_ne hn

theorem marked_good {D : Tree} {url r : Str} : marked D url r = r ↔ r = [] ∨ Good D url r := by
  unfold marked
  split
  · next h => exact ⟨fun _ => h, fun _ => rfl⟩
  · next h => exact ⟨fun e => absurd (congrArg List.length e) (by simp), fun e => absurd e h⟩

theorem marked_keeps (D : Tree) (url : Str) : Keeps (marked D url) := by
  intro r
  unfold marked
  split
  · exact Iff.rfl
  · next h => exact ⟨fun e => absurd e (by simp), fun e => absurd (.inl e) h⟩

theorem filled_good {D T : Tree} {url : Str} (hD : SelfContained D url) (hT : parse v20 cSwagger D = some T) :
    Filled (Good D url) T := by
  refine filled_parse D (.one cSwagger) T hD.plain ?_ hT
  intro ts k' c q v hp hk hf hr
  obtain ⟨r, us, q', rfl, hn, hw⟩ := hD.refs ts c q v ⟨k', hk, hp⟩ hf hr
  exact ⟨r, names_ne hn, ⟨us, c, q', hn, hw⟩, rfl⟩

section
variable {D T R : Tree} {p : Url} {o : Outside} (hl : Loads D p T R)
include hl

theorem filled : Filled (Good D (urlunparse p)) T := filled_good hl.self hl.read

theorem normal_form : R = mapRefs (absolute (urlunparse p)) T := by
  have := normalize_eq (url_facts hl.canon hl.whole).2.2 T (filled hl)
  rw [hl.normalized] at this
  exact Option.some.inj this

theorem content_raw {ts : List Str} {c : Nat} {q : Dict Str Tree} (hw : Written D ts c q) :
    ∃ fs, parse v20 c (.dict q) = some (.obj c fs) ∧ (raw o D (urlunparse p) T).content (o.num ts) = .obj c fs ∧
      (world o (urlunparse p) R).content (o.num ts) = mapRefs (absolute (urlunparse p)) (.obj c fs) ∧
      mapRefs (marked D (urlunparse p)) (.obj c fs) = .obj c fs := by
  obtain ⟨fs, h1, h2, -⟩ := written_parse hl.read hw
  refine ⟨fs, h1, ?_, ?_, ?_⟩
  · simp only [raw, world, o.left, h2]
  · have := object_map (f := absolute (urlunparse p)) (filled hl) h2
    rw [← normal_form hl, mapRefs] at this
    simp only [world, o.left, this, mapRefs]
  · have := object_map (f := marked D (urlunparse p)) (filled hl) h2
    rw [fixed_of_filled (fun r h => marked_good.2 (.inr h)) T (filled hl), h2] at this
    exact (Except.ok.inj this).symm

theorem resolve_raw {r : Str} {ts : List Str} {c : Nat} {q : Dict Str Tree} (hn : Names (urlunparse p) r ts)
    (hw : Written D ts c q) : (raw o D (urlunparse p) T).resolve r = .ok (o.num ts) := by
  rw [raw_good ⟨ts, c, q, hn, hw⟩, find_named hl.canon hl.whole o hl.read hn hw]

theorem resolve_good {r : Str} (h : Good D (urlunparse p) r) :
    (world o (urlunparse p) R).resolve (absolute (urlunparse p) r) = (raw o D (urlunparse p) T).resolve r ∧
    ∀ j, (raw o D (urlunparse p) T).resolve r = .ok j → Mine D o j := by
  have h' := h
  obtain ⟨ts, c, q, hn, hw⟩ := h
  rw [resolve_raw hl hn hw]
  refine ⟨?_, fun j hj => by cases hj; exact ⟨ts, c, q, rfl, hw⟩⟩
  show find o (urlunparse p) R _ = _
  rw [normal_form hl, find_map (filled hl), find_named hl.canon hl.whole o hl.read hn hw]

theorem resolve_marked {r : Str} (h : marked D (urlunparse p) r = r) :
    (world o (urlunparse p) R).resolve (absolute (urlunparse p) r) = (raw o D (urlunparse p) T).resolve r ∧
    ∀ j, (raw o D (urlunparse p) T).resolve r = .ok j →
      cls? ((world o (urlunparse p) R).content j) = cls? ((raw o D (urlunparse p) T).content j) := by
  rcases marked_good.1 h with rfl | h
  · have hng : ¬ Good D (urlunparse p) [] := fun h => good_ne h rfl
    have e : (raw o D (urlunparse p) T).resolve [] = .error .ValueError := raw_bad hng
    rw [e]
    refine ⟨?_, fun j hj => by cases hj⟩
    show find o (urlunparse p) R (absolute (urlunparse p) []) = .error .ValueError
    rw [((absolute_keeps (url_facts hl.canon hl.whole).1 (url_facts hl.canon hl.whole).2.1) []).2 rfl]
    unfold find
    rw [if_pos rfl]
  · obtain ⟨h1, h2⟩ := resolve_good (o := o) hl h
    refine ⟨h1, fun j hj => ?_⟩
    obtain ⟨ts, c, q, rfl, hw⟩ := h2 j hj
    obtain ⟨fs, -, e1, e2, -⟩ := content_raw (o := o) hl hw
    rw [e1, e2, cls_map]

theorem ref_good {i : Nat} (hi : Mine D o i) {r : Str}
    (h : MergeRefs.refText ((raw o D (urlunparse p) T).content i) = some r) :
    marked D (urlunparse p) r = r ∧ Good D (urlunparse p) r := by
  obtain ⟨ts, c, q, rfl, hw⟩ := hi
  obtain ⟨fs, -, e1, -, e3⟩ := content_raw (o := o) hl hw
  have := refText_map (marked_keeps D (urlunparse p)) (.obj c fs)
  rw [e3, ← e1, h, Option.map_some] at this
  have hm := (Option.some.inj this).symm
  refine ⟨hm, (marked_good.1 hm).resolve_left ?_⟩
  rintro rfl
  unfold MergeRefs.refText at h
  split at h
  · cases h
  · cases h

theorem alike : Alike (absolute (urlunparse p)) (Mine D o) (raw o D (urlunparse p) T) (world o (urlunparse p) R) where
  keeps := absolute_keeps (url_facts hl.canon hl.whole).1 (url_facts hl.canon hl.whole).2.1
  content := by
    rintro i ⟨ts, c, q, rfl, hw⟩
    obtain ⟨fs, -, e1, e2, -⟩ := content_raw (o := o) hl hw
    rw [e1, e2]
  resolve i r hi h := resolve_good hl (ref_good hl hi h).2

theorem marks : Alike (marked D (urlunparse p)) (Mine D o) (raw o D (urlunparse p) T) (raw o D (urlunparse p) T) where
  keeps := marked_keeps D _
  content := by
    rintro i ⟨ts, c, q, rfl, hw⟩
    obtain ⟨fs, -, e1, -, e3⟩ := content_raw (o := o) hl hw
    rw [e1, e3]
  resolve i r hi h := by
    obtain ⟨h1, h2⟩ := ref_good hl hi h
    rw [h1]
    exact ⟨rfl, (resolve_good hl h2).2⟩

/-- what `Merge` makes of an object of the document has references of the document only -/
theorem fixed_effective {order : List Atom → List Atom} {c fuel i : Nat} (hi : Mine D o i) {t : Tree}
    (h : MergeRefs.effective (raw o D (urlunparse p) T) order c fuel i = some (.value t)) :
    mapRefs (marked D (urlunparse p)) t = t := by
  have := effective_map (marks (o := o) hl) order c fuel hi
  rw [h, Option.map_some, mapOutcome] at this
  injection this with this
  injection this with this
  exact this.symm

theorem written_ref {c : Nat} (hc : c ∈ refClasses) {r : Str} {ts : List Str}
    (hw : Written D ts c [(c!"$ref", .atom (.str r))]) :
    (raw o D (urlunparse p) T).content (o.num ts) = .obj c (assemble (v20 c) [(c!"$ref", .atom (.str r))]) := by
  obtain ⟨fs, h1, h2, -⟩ := content_raw (o := o) hl hw
  rw [h2]
  have key : ∀ c ∈ refClasses, parse v20 c (.dict [(c!"$ref", .atom (.str r))]) =
      some (.obj c (assemble (v20 c) [(c!"$ref", .atom (.str r))])) := by
    intro c hc
    simp only [refClasses, List.mem_cons, List.not_mem_nil, or_false] at hc
    rcases hc with rfl | rfl | rfl | rfl <;> rfl
  rw [key c hc] at h1
  exact (Option.some.inj h1).symm

/-- what stands somewhere in the document is what the object there means -/
theorem means {c : Nat} (hc : c ∈ refClasses) {k : Nat} {ts : List Str} {q : Dict Str Tree}
    (h : Stands D (urlunparse p) c k ts q) : MeansAs (raw o D (urlunparse p) T) c k (o.num ts) q := by
  induction h with
  | inline hw hr =>
    obtain ⟨fs, h1, h2, -⟩ := content_raw (o := o) hl hw
    exact .inline hr (by rw [h2, h1])
  | ref hw hn hs ih =>
    refine .ref (names_ne hn) (written_ref hl hc hw) ?_ ih
    cases hs with
    | inline hw' _ => exact resolve_raw hl hn hw'
    | ref hw' _ _ => exact resolve_raw hl hn hw'

omit hl in
theorem stands_mine {c k : Nat} {ts : List Str} {q : Dict Str Tree} (h : Stands D (urlunparse p) c k ts q) :
    Mine D o (o.num ts) := by
  cases h with
  | inline hw _ => exact ⟨_, _, _, rfl, hw⟩
  | ref hw _ _ => exact ⟨_, _, _, rfl, hw⟩

omit hl in
theorem forall_mine {c : Nat} {l : List (List Str)} {qs : List (Dict Str Tree)}
    (h : List.Forall₂ (fun ts q => ∃ k, Stands D (urlunparse p) c k ts q) l qs) : ∀ i ∈ l.map o.num, Mine D o i := by
  induction h with
  | nil => intro i hi; cases hi
  | cons h1 _ ih =>
    obtain ⟨k, h1⟩ := h1
    intro i hi
    rcases List.mem_cons.1 hi with rfl | hi
    · exact stands_mine h1
    · exact ih i hi

theorem forall_means {c : Nat} (hc : c ∈ refClasses) {l : List (List Str)} {qs : List (Dict Str Tree)}
    (h : List.Forall₂ (fun ts q => ∃ k, Stands D (urlunparse p) c k ts q) l qs) :
    List.Forall₂ (fun i q => ∃ k, MeansAs (raw o D (urlunparse p) T) c k i q) (l.map o.num) qs := by
  induction h with
  | nil => exact .nil
  | cons h1 _ ih =>
    obtain ⟨k, h1⟩ := h1
    exact .cons ⟨k, means hl hc h1⟩ ih

variable {ω : Type} {env : Prim.Env ω} {ref : Nat → Option Nat}

theorem schema_raw {n : Nat} {t : Tree} (hfix : mapRefs (marked D (urlunparse p)) t = t)
    (h : Schemas.Shows env ref (world o (urlunparse p) R) n (mapRefs (absolute (urlunparse p)) t)) :
    Schemas.Shows env ref (raw o D (urlunparse p) T) n t :=
  schemaShows_map (alike (o := o) hl).keeps (marked_keeps D _) (fun _ h => resolve_marked hl h) h t rfl hfix

/-- the schemas a document writes are known by their references -/
theorem known {look : Str → Option (Dict Str Tree)}
    (hlook : ∀ r ts q, Names (urlunparse p) r ts → Written D ts cSchema q → look r = some q)
    (hs : ∀ ts q, Written D ts cSchema q → Schemas.Shows env ref (world o (urlunparse p) R) (o.num ts)
      ((world o (urlunparse p) R).content (o.num ts))) : Props.C78.Known env ref (raw o D (urlunparse p) T) look := by
  intro r j hr hc
  by_cases hg : Good D (urlunparse p) r
  · obtain ⟨ts, c, q, hn, hw⟩ := hg
    rw [resolve_raw hl hn hw] at hr
    cases hr
    obtain ⟨fs, h1, h2, h3, h4⟩ := content_raw (o := o) hl hw
    rw [h2] at hc ⊢
    have hc' : c = cSchema := by simpa [cls?] using hc
    subst hc'
    refine ⟨schema_raw hl h4 ?_, q, hlook r ts q hn hw, h1⟩
    rw [← h3]
    exact hs ts q hw
  · have : (raw o D (urlunparse p) T).resolve r = .error .ValueError := raw_bad hg
    rw [this] at hr; cases hr

/-- a reference leads to a place of the document -/
theorem resolved_at {r : Str} {j : Nat} (hr : (raw o D (urlunparse p) T).resolve r = .ok j)
    (hc : cls? ((raw o D (urlunparse p) T).content j) = some cSchema) :
    ∃ ts q, j = o.num ts ∧ Names (urlunparse p) r ts ∧ Written D ts cSchema q := by
  by_cases hg : Good D (urlunparse p) r
  · obtain ⟨ts, c, q, hn, hw⟩ := hg
    rw [resolve_raw hl hn hw] at hr
    cases hr
    obtain ⟨fs, -, h2, -⟩ := content_raw (o := o) hl hw
    rw [h2] at hc
    have hc' : c = cSchema := by simpa [cls?] using hc
    subst hc'
    exact ⟨ts, q, rfl, hn, hw⟩
  · have : (raw o D (urlunparse p) T).resolve r = .error .ValueError := raw_bad hg
    rw [this] at hr; cases hr

theorem table_raw {order : List Atom → List Atom} {fuel : Nat} {ids : Dict Str Nat}
    {table : Dict Str (Io.RespDecl Nat Nat)} (h : Reply.Table env ref (world o (urlunparse p) R) order fuel ids table) :
    (∀ x ∈ ids, Mine D o x.2) → Reply.Table env ref (raw o D (urlunparse p) T) order fuel ids table := by
  induction h with
  | nil => intro _; exact .nil
  | @cons k i t r l m he hd _ ih =>
    intro hi
    have hmine := hi (k, i) (List.mem_cons_self ..)
    have := effective_map (alike (o := o) hl) order cResponse fuel hmine
    rw [he] at this
    cases hr : MergeRefs.effective (raw o D (urlunparse p) T) order cResponse fuel i with
    | none => rw [hr] at this; cases this
    | some out =>
      rw [hr, Option.map_some] at this
      cases out with
      | value t' =>
        rw [mapOutcome] at this
        injection this with this
        injection this with this
        subst this
        exact .cons hr (replyDeclares_map (alike (o := o) hl).keeps (marked_keeps D _) (fun _ h => resolve_marked hl h)
          (fixed_effective hl hmine hr) hd) (ih fun x hx => hi x (List.mem_cons_of_mem _ hx))
      | raised e => cases this
      | failed => cases this

end

end Proofs.Origin
