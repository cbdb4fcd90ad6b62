import Verif.Proofs.Shape12
import Verif.Props.C60
/-!
# C60 for documents as they are read

`C60.lean` assumes a tree of 1.2 objects of a certain shape. Here: every document that is read has
this shape, if `consumes` of an operation is a list where it is given. And some of the requirements
are never violated by a document that was read: the parser has filled in what is missing, or has
thrown away the object.
-/

namespace Props.C60
open Py Tree _root_.Doc12 Spec.Swagger12 Spec.Pointed Props.C85 Spec.Places Proofs.Shape12
open Spec.Rules12 (Owner Shaped Missing Has UnknownAuth FileUnconsumed Breaks declared classes)
open Validate12 (className)

/-- `consumes` of all operations in an API declaration is a list, null or not given -/
def ConsumesOk (j : Tree) : Prop :=
  ∀ q v, Within .declaration j .operation (.dict q) → Dict.get? q c!"consumes" = some v →
    v = .atom .none ∨ ∃ l, v = .list l

/-- What was read from the resource listing `d` and the API declarations `js`: an object for each
declaration under its name, and the listing that has them as its `apis`. -/
def ReadFrom (d : Dict Str Tree) (js : List (Str × Tree)) (x : Tree) : Prop :=
  ∃ rs, List.Forall₂ (fun j r => r.1 = j.1 ∧ Reads .declaration j.2 r.2) js rs ∧ readList (.dict d) rs = some x

theorem built_list {d : Dict Str Tree} {js : List (Str × Tree)} {x : Tree} (hp : Plain (.dict d))
    (hps : ∀ k j, (k, j) ∈ js → Plain j ∧ ConsumesOk j) (hn : (js.map Prod.fst).Nodup) (hx : ReadFrom d js x) :
    ∃ fs, x = .obj (number .listing) fs ∧ Built .listing fs ∧
      (∃ e, Dict.get? fs c!"apis" = some (.dict e)) ∧
      ∃ e, Dict.get? fs c!"authorizations" = some (.dict e) ∧ ∀ k a, (k, a) ∈ e →
        ∃ f, a = .obj (number .authorization) f ∧ Built .authorization f := by
  obtain ⟨rs, hrs, hx⟩ := hx
  obtain ⟨fs, rfl, hnd, hkeys, hapis, hfields⟩ := C85_listing d rs x hx
  have hauth : ∃ e, Dict.get? fs c!"authorizations" = some (.dict e) ∧ ∀ k a, (k, a) ∈ e →
      ∃ f, a = .obj (number .authorization) f ∧ Built .authorization f := by
    obtain ⟨y, hy, hr⟩ := hfields c!"authorizations" (.byName .authorization) (Dict.mem_of_get? (by rfl)) (by decide)
    generalize hd : Dict.get? d c!"authorizations" = ov at hr
    cases hr with
    | noNames => exact ⟨[], hy, nofun⟩
    | nullNames => exact ⟨[], hy, nofun⟩
    | @names _ e xs h =>
      refine ⟨xs, hy, fun k a hm => ?_⟩
      obtain ⟨⟨k', v⟩, hv, _, hr⟩ := forall₂_left h _ hm
      have hpe : Plain (.dict e) := by rw [Plain] at hp; exact plain_entry hp.2 (Dict.mem_of_get? hd)
      rw [Plain] at hpe
      obtain ⟨f, rfl, hb, _⟩ := built _ v (Nat.lt_succ_self _) .authorization a (by decide) nofun
        (plain_entry hpe.2 hv) (fun q hq => by
          exfalso
          revert hq
          generalize hu : Tree.dict q = u
          intro hq
          cases hq with
          | one hm _ hq =>
            simp [fields, plain] at hm
            obtain ⟨rfl, rfl⟩ := hm
            cases hq with
            | one hm _ hq =>
              simp [fields, plain] at hm
              rcases hm with ⟨rfl, rfl⟩ | ⟨rfl, rfl⟩
              · cases hq with
                | one hm _ hq =>
                  simp [fields, plain] at hm
                  obtain ⟨rfl, rfl⟩ := hm
                  cases hq with
                  | one hm => simp [fields, plain] at hm
                  | many hm => simp [fields, plain] at hm
                  | byName hm => simp [fields, plain] at hm
                | many hm => simp [fields, plain] at hm
                | byName hm => simp [fields, plain] at hm
              · cases hq with
                | one hm _ hq =>
                  simp [fields, plain] at hm
                  rcases hm with ⟨rfl, rfl⟩ | ⟨rfl, rfl⟩ <;> cases hq with
                  | one hm => simp [fields, plain] at hm
                  | many hm => simp [fields, plain] at hm
                  | byName hm => simp [fields, plain] at hm
                | many hm => simp [fields, plain] at hm
                | byName hm => simp [fields, plain] at hm
            | many hm => simp [fields, plain] at hm
            | byName hm => simp [fields, plain] at hm
          | many hm _ _ hq =>
            simp [fields, plain] at hm
            obtain ⟨rfl, rfl⟩ := hm
            cases hq with
            | one hm => simp [fields, plain] at hm
            | many hm => simp [fields, plain] at hm
            | byName hm => simp [fields, plain] at hm
          | byName hm => simp [fields, plain] at hm) hr
      exact ⟨f, rfl, hb⟩
  refine ⟨fs, rfl, ⟨hnd, ?_, ⟨fun n => ?_, nofun, nofun, nofun, fun _ v hv => ?_, nofun⟩, fun n v hm => ?_⟩, ⟨_, hapis⟩, hauth⟩
  · rw [hkeys]; exact (table_facts .listing).1
  · rw [hkeys]
    constructor
    · exact Or.inl
    · rintro (h | ⟨h, _⟩ | ⟨h, _⟩)
      · exact h
      · cases h
      · cases h
  · rw [hapis] at hv
    cases hv
    nofun
  · have hg := Dict.get?_of_mem hnd hm
    by_cases ha : n = c!"apis"
    · subst ha
      rw [hapis] at hg
      cases hg
      have hk : Dict.keys rs = js.map Prod.fst := by
        clear hx hapis hm hps hn
        induction hrs with
        | nil => rfl
        | cons h _ ih => simp only [Dict.keys, List.map_cons] at ih ⊢; rw [ih, h.1]
      refine slot_dict (o' := .info) (by rw [hk]; exact hn) (fun k r hm => ?_) (by decide)
      obtain ⟨⟨k', j⟩, hj, _, hr⟩ := forall₂_left hrs _ hm
      obtain ⟨hpj, hc⟩ := hps _ _ hj
      dsimp only at hr
      obtain ⟨f, rfl, hb, _⟩ := built _ j (Nat.lt_succ_self _) .declaration r (by decide) nofun hpj
        (fun q hq v hv => hc q v hq hv) hr
      exact slot_made hb.made (by decide)
    · by_cases hau : n = c!"authorizations"
      · subst hau
        obtain ⟨e, he, hall⟩ := hauth
        rw [hg] at he
        cases he
        obtain ⟨y, hy, hr⟩ := hfields c!"authorizations" (.byName .authorization) (Dict.mem_of_get? (by rfl)) (by decide)
        rw [hg] at hy
        cases hy
        have hke : (Dict.keys e).Nodup := by
          generalize hd : Dict.get? d c!"authorizations" = ov at hr
          cases hr with
          | noNames => exact List.nodup_nil
          | nullNames => exact List.nodup_nil
          | @names _ e' xs h =>
            have hpe : Plain (.dict e') := by rw [Plain] at hp; exact plain_entry hp.2 (Dict.mem_of_get? hd)
            rw [Plain] at hpe
            have hk : Dict.keys e = e'.map Prod.fst := by
              clear hd hpe hall hg hm
              induction h with
              | nil => rfl
              | cons h _ ih => simp only [Dict.keys, List.map_cons] at ih ⊢; rw [ih, h.1]
            rw [hk]; exact hpe.1
        refine slot_dict (o' := .info) hke (fun k a hm => ?_) (by decide)
        obtain ⟨f, rfl, hb⟩ := hall k a hm
        exact slot_made hb.made (by decide)
      · have hmf : ∃ h, (n, h) ∈ fields .listing := by
          obtain ⟨⟨_, g⟩, hm', rfl⟩ := List.mem_map.1 ((hkeys n).1 (List.mem_map.2 ⟨_, hm, rfl⟩))
          exact ⟨g, hm'⟩
        obtain ⟨h, hmf⟩ := hmf
        obtain ⟨y, hy, hr⟩ := hfields n h hmf ha
        rw [hg] at hy
        cases hy
        refine slot_of_reads hmf hp hr (table_parts .listing (by decide) _ hmf nofun) fun u o' x hne hsu hpu hin hru => ?_
        have hwu : ∀ q, Within o' u .operation (.dict q) → Consumes q := by
          intro q hq
          exfalso
          rcases hin with ⟨o1, h1, rfl, h2⟩ | ⟨l, h1, h2, h3⟩ | ⟨e, k, h1, h2, h3⟩ | h1
          · simp [fields, plain] at h1
            obtain ⟨rfl, rfl⟩ := h1
            cases hq with
            | one hm => simp [fields, plain] at hm
            | many hm => simp [fields, plain] at hm
            | byName hm => simp [fields, plain] at hm
          · simp [fields, plain] at h1
          · simp [fields, plain, hau] at h1
          · exact no_operation h1 hq
        obtain ⟨f, rfl, hb, _⟩ := built _ u (Nat.lt_succ_self _) o' x hne.1 (fun h => absurd h hne.2) hpu hwu hru
        exact hb.made

theorem names (o : Ob) : className (number o) ∈ classes := by cases o <;> decide

theorem name_inj (o o' : Ob) (h : className (number o) = className (number o')) : o = o' := by
  cases o <;> cases o' <;> first | rfl | exact absurd h (by decide)

/-- the fields the rules speak about are fields of the standard -/
theorem declared_fields (o : Ob) : ∀ p ∈ declared, p.1 = className (number o) → ∀ x ∈ p.2, x ∈ Dict.keys (fields o) := by
  cases o <;> decide +kernel

theorem params_operation (o : Ob) : c!"parameters" ∈ Dict.keys (fields o) → o = .operation := by
  cases o <;> decide +kernel

/-- Every document that was read has the shape that the other theorems assume. -/
theorem C60_shaped {d : Dict Str Tree} {js : List (Str × Tree)} {x : Tree} (hp : Plain (.dict d))
    (hps : ∀ k j, (k, j) ∈ js → Plain j ∧ ConsumesOk j) (hn : (js.map Prod.fst).Nodup) (hx : ReadFrom d js x) :
    Shaped className x := by
  obtain ⟨fs, rfl, hb, _, e, he, hall⟩ := built_list hp hps hn hx
  obtain ⟨hwf, hat⟩ := hb.made
  have hgot : ∀ ts c f n, At [] (Tree.obj (number .listing) fs) ts (.obj c f) → ∀ o, c = number o →
      n ∈ Dict.keys (fields o) → (Dict.get? f n).isSome = true := by
    intro ts c f n h o hc hm
    obtain ⟨o', rfl, hf, _⟩ := hat ts c f h
    have := C85_classes _ _ hc
    subst this
    exact (Dict.get?_isSome_iff _ _).2 ((hf.keys n).2 (Or.inl hm))
  refine ⟨hwf, ⟨_, _, rfl, rfl⟩, ?_, ?_, ?_, ?_, ?_, e, ⟨_, _, rfl, he⟩, ?_⟩
  · intro ts c f h
    obtain ⟨o, rfl, _⟩ := hat ts c f h
    exact names o
  · intro ts c f xs n h hd hm
    obtain ⟨o, rfl, hf, _⟩ := hat ts c f h
    exact hgot ts _ f n h o rfl (declared_fields o _ hd rfl n hm)
  · intro ts c f h hc
    obtain ⟨o, rfl, hf, hpar⟩ := hat ts c f h
    rcases hpar (name_inj o .parameter hc) with h | ⟨_, h⟩
    · exact h
    · cases h
  · rintro ts op ⟨us, i, l, rfl, h, c, f, rfl, hl⟩
    obtain ⟨o, rfl, hf, hpar⟩ := hat us c f h
    have ho : o = .operation := by
      rcases (hf.keys c!"parameters").1 ((Dict.get?_isSome_iff _ _).1 (by rw [hl]; rfl)) with h | ⟨_, h⟩ | ⟨_, h, _⟩
      · exact params_operation o h
      · cases h
      · cases h
    obtain ⟨v, hv⟩ := Option.isSome_iff_exists.1 (hgot us _ f c!"consumes" h o rfl (by subst ho; decide +kernel))
    exact ⟨v, ⟨_, _, rfl, hv⟩, hf.consumes ho v hv⟩
  · intro ts c f v h hc hv
    obtain ⟨o, rfl, hf, hpar⟩ := hat ts c f h
    exact hf.auths (name_inj o .operation hc) v hv
  · intro k a hm
    obtain ⟨f, rfl, hb⟩ := hall k a hm
    have := (Dict.get?_isSome_iff f c!"type").2 ((hb.fine.keys _).2 (Or.inl (by decide +kernel)))
    obtain ⟨v, hv⟩ := Option.isSome_iff_exists.1 this
    exact ⟨v, _, _, rfl, hv⟩

variable {str : Tree → Str} {d : Dict Str Tree} {js : List (Str × Tree)} {x : Tree}

/-- C60 for documents as they are read: validation fails exactly for an authorisation that the list
does not have and for a file parameter of an operation without `consumes`; otherwise it lists every
violation once and nothing else. -/
theorem C60_read (hp : Plain (.dict d)) (hps : ∀ k j, (k, j) ∈ js → Plain j ∧ ConsumesOk j)
    (hn : (js.map Prod.fst).Nodup) (hx : ReadFrom d js x) :
    ((∃ e, Validate12.errors str x = .error e) ↔ UnknownAuth className x ∨ FileUnconsumed className x) ∧
    ∀ errs, Validate12.errors str x = .ok errs → errs.Nodup ∧
      ∀ e, e ∈ errs ↔ ∃ ts c fs m, At [] x ts (.obj c fs) ∧
        Breaks str x (Owner x ts) (className c) (.obj c fs) m ∧ e = ((pointer ts, className c), m) := by
  have S := C60_shaped hp hps hn hx
  refine ⟨C60_raises S, fun errs he => ?_⟩
  have hno : ¬ (UnknownAuth className x ∨ FileUnconsumed className x) := by
    intro h
    obtain ⟨e, h⟩ := (C60_raises (str := str) S).2 h
    rw [he] at h
    cases h
  rw [not_or] at hno
  obtain ⟨errs', h1, h2, h3⟩ := C60_errors (str := str) S hno.1 hno.2
  rw [he] at h1
  cases h1
  exact ⟨h2, h3⟩

/-- A missing `parameters` of an operation and missing `apis` of a resource or of the listing are
never reported for a document that was read; nothing is reported about an api. -/
theorem C60_unreported (hp : Plain (.dict d)) (hps : ∀ k j, (k, j) ∈ js → Plain j ∧ ConsumesOk j)
    (hn : (js.map Prod.fst).Nodup) (hx : ReadFrom d js x) {errs} (he : Validate12.errors str x = .ok errs)
    (p m : Str) :
    ((p, c!"Operation"), c!"requirement parameters not meet.") ∉ errs ∧
    ((p, c!"Resource"), c!"requirement apis not meet.") ∉ errs ∧
    ((p, c!"ResourceList"), c!"requirement apis not meet.") ∉ errs ∧
    ((p, c!"Api"), m) ∉ errs := by
  obtain ⟨fs, rfl, hb, -, -⟩ := built_list hp hps hn hx
  obtain ⟨_, hat⟩ := hb.made
  obtain ⟨_, herr⟩ := (C60_read hp hps hn hx).2 errs he
  have hreq : ∀ p c f, ((p, c), c!"requirement " ++ f ++ c!" not meet.") ∈ errs →
      ∃ ts o g, At [] (Tree.obj (number .listing) fs) ts (.obj (number o) g) ∧ c = className (number o) ∧ Fine o g ∧
        Dict.get? g f = some (.atom .none) := by
    intro p c f h
    obtain ⟨ts, n, g, m, h1, h2, h3⟩ := (herr _).1 h
    obtain ⟨o, rfl, hf, _⟩ := hat ts n g h1
    cases h3
    refine ⟨ts, o, g, h1, rfl, hf, ?_⟩
    generalize hmm : c!"requirement " ++ f ++ c!" not meet." = m at h2
    cases h2 with
    | required xs f' _ _ hmiss =>
      have : f = f' := by simpa using hmm
      subst this
      obtain ⟨_, _, e, h⟩ := hmiss
      cases e
      exact h
    | _ => simp at hmm
  refine ⟨fun h => ?_, fun h => ?_, fun h => ?_, fun h => ?_⟩
  · obtain ⟨_, o, g, _, hc, hf, hg⟩ := hreq p _ c!"parameters" h
    exact hf.params (name_inj o .operation hc.symm) _ hg rfl
  · obtain ⟨_, o, g, _, hc, hf, hg⟩ := hreq p _ c!"apis" h
    exact hf.apis (Or.inl (name_inj o .declaration hc.symm)) _ hg rfl
  · obtain ⟨_, o, g, _, hc, hf, hg⟩ := hreq p _ c!"apis" h
    exact hf.apis (Or.inr (name_inj o .listing hc.symm)) _ hg rfl
  · obtain ⟨ts, n, g, m', h1, h2, h3⟩ := (herr _).1 h
    obtain ⟨o, rfl, hf, _⟩ := hat ts n g h1
    have hc : className (number .api) = className (number o) := by
      have := congrArg (fun e => e.1.2) h3
      exact this
    exact hf.notApi (name_inj o .api hc.symm)

/-! ## Cases -/

/-- a listing with an authorisation -/
def listing : Dict Str Tree :=
  [(c!"swaggerVersion", .atom (.str c!"1.2")),
    (c!"authorizations", .dict [(c!"key", .dict [(c!"type", .atom (.str c!"apiKey"))])])]

/-- The api key says nothing about where it is sent, and the operation has no `method`. The operation
has no parameters either, and its api has no path. -/
def declaration : Tree :=
  .dict [(c!"swaggerVersion", .atom (.str c!"1.2")), (c!"basePath", .atom (.str c!"http://h")),
    (c!"apis", .list [.dict [(c!"operations", .list [.dict [(c!"nickname", .atom (.str c!"getPet")),
      (c!"type", .atom (.str c!"void")), (c!"authorizations", .dict [(c!"key", .list [])])]])]])]

/-- what is read -/
def read : Option Tree :=
  (parse (number .declaration) declaration).bind fun r => readList (.dict listing) [(c!"pet", r)]

theorem read_from {x : Tree} (h : read = some x) : ReadFrom listing [(c!"pet", declaration)] x := by
  unfold read at h
  cases hr : parse (number .declaration) declaration with
  | none => rw [hr] at h; cases h
  | some r =>
    rw [hr] at h
    exact ⟨[(c!"pet", r)], .cons ⟨rfl, hr⟩ .nil, h⟩

/-- The standard requires the path of an api and the parameters of an operation; a document without
either is read, and neither is reported. -/
theorem C60_missing_false : ∃ x, ReadFrom listing [(c!"pet", declaration)] x ∧
    Validate12.errors (fun _ => []) x = .ok
      [((c!"#/authorizations/key", c!"Authorization"), c!"need \"passAs\" for apiKey"),
       ((c!"#/authorizations/key", c!"Authorization"), c!"need \"keyname\" for apiKey"),
       ((c!"#/apis/pet/apis/getPet", c!"Operation"), c!"requirement method not meet.")] := by
  have h : read.map (Validate12.errors (fun _ => [])) = some (.ok
      [((c!"#/authorizations/key", c!"Authorization"), c!"need \"passAs\" for apiKey"),
       ((c!"#/authorizations/key", c!"Authorization"), c!"need \"keyname\" for apiKey"),
       ((c!"#/apis/pet/apis/getPet", c!"Operation"), c!"requirement method not meet.")]) := by decide +kernel
  cases hr : read with
  | none => rw [hr] at h; cases h
  | some x =>
    rw [hr] at h
    exact ⟨x, read_from hr, Option.some.inj h⟩

theorem sample_plain : Plain (.dict listing) ∧
    ∀ k j, (k, j) ∈ [(c!"pet", declaration)] → Plain j ∧ ConsumesOk j := by
  refine ⟨by simp [listing, Plain, PlainDict, PlainList], fun k j hm => ?_⟩
  rw [List.mem_singleton] at hm
  cases hm
  refine ⟨by simp [declaration, Plain, PlainDict, PlainList], fun q v hw hv => ?_⟩
  unfold declaration at hw
  generalize hq : Tree.dict q = u at hw
  cases hw with
  | @one _ _ n o' w _ _ hm hg hw => simp [fields, plain] at hm
  | @many _ _ n o' l w _ _ hm hg hl hw =>
    simp [fields, plain] at hm
    obtain ⟨rfl, rfl⟩ := hm
    simp [Dict.get?] at hg
    subst hg
    rw [List.mem_singleton] at hl
    subst hl
    cases hw with
    | one hm => simp [fields, plain] at hm
    | @many _ _ n o' l w _ _ hm hg hl hw =>
      simp [fields, plain] at hm
      obtain ⟨rfl, rfl⟩ := hm
      simp [Dict.get?] at hg
      subst hg
      rw [List.mem_singleton] at hl
      subst hl
      cases hw with
      | here =>
        cases hq
        simp [Dict.get?] at hv
      | one hm => simp [fields, plain, Spec.Swagger12.dataType] at hm
      | @many _ _ n o' l w _ _ hm hg hl hw =>
        simp [fields, plain, Spec.Swagger12.dataType] at hm
        rcases hm with ⟨rfl, rfl⟩ | ⟨rfl, rfl⟩ <;> simp [Dict.get?] at hg
      | byName hm => simp [fields, plain, Spec.Swagger12.dataType] at hm
    | byName hm => simp [fields, plain] at hm
  | @byName _ _ n o' e k w _ _ hm hg hl hw =>
    simp [fields, plain] at hm
    obtain ⟨rfl, rfl⟩ := hm
    simp [Dict.get?] at hg

/-- the hypotheses hold of the sample -/
example : ∃ x, ReadFrom listing [(c!"pet", declaration)] x ∧ Shaped className x := by
  obtain ⟨x, hx, _⟩ := C60_missing_false
  exact ⟨x, hx, C60_shaped sample_plain.1 sample_plain.2 (by simp) hx⟩

end Props.C60
