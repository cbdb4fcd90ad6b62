import Verif.Proofs.Schemas
import Verif.Props.C77
/-!
# C78: a conversion follows the schemas as the document writes them

`Belongs env ref W n q` says that the object `n` of a conversion was read from the dict `q` of the document, or is a
copy of such an object (`final` of a parameter, C77). `Says` is what `q` says. `Known` is the link between references and
the document: the object a reference leads to was read from the dict it leads to (C13, C31, C42).
-/

namespace Props.C78
open Py Tree _root_.Doc Prim Spec.Doc Spec.Merge Spec.Described Spec.SchemaDoc Proofs.Schemas
open _root_.Effective (attr listed)
open _root_.Schemas (Derefs Many Named entries nodeOf)

variable {ω : Type} {W : MergeRefs.World} {env : Env ω} {ref : Nat → Option Nat}

/-- the object `n` was read from `q`, or is a copy of an object read from it -/
def Belongs (env : Env ω) (ref : Nat → Option Nat) (W : MergeRefs.World) (n : Nat) (q : Dict Str Tree) : Prop :=
  ∃ o t, Schemas.Shows env ref W n t ∧ parse v20 cSchema (.dict q) = some o ∧ (t = o ∨ Copy v20 (.one cSchema) o t)

/-- the object a reference leads to was read from the dict it leads to -/
def Known (env : Env ω) (ref : Nat → Option Nat) (W : MergeRefs.World) (look : Str → Option (Dict Str Tree)) : Prop :=
  ∀ r j, W.resolve r = .ok j → cls? (W.content j) = some cSchema →
    Schemas.Shows env ref W j (W.content j) ∧ ∃ d, look r = some d ∧ parse v20 cSchema (.dict d) = some (W.content j)

theorem shows_obj {n : Nat} {t : Tree} (h : Schemas.Shows env ref W n t) : ∃ fs, t = .obj cSchema fs := by
  cases h; exact ⟨_, rfl⟩

theorem isNull_obj {c : Nat} {fs : List (Str × Tree)} : isNull (.obj c fs) = false := rfl

theorem belongs {m : Nat} {d : Dict Str Tree} {v t : Tree} (hs : Schemas.Shows env ref W m t)
    (hp : parseAs v20 (.one cSchema) (.dict d) = some v) (h : Twin v t) : Belongs env ref W m d :=
  ⟨v, t, hs, hp, h⟩

theorem copy_null {k : Kind} {w : Tree} (h : Copy v20 k (.atom .none) w) : w = .atom .none := by
  cases h; rfl

/-- the object a reference leads to -/
theorem referred (hd : Derefs env ref) {look : Str → Option (Dict Str Tree)} (hw : Known env ref W look) {n : Nat}
    {q : Dict Str Tree} (h : Belongs env ref W n q) {r : Str} (hr : refAt q = some r) :
    ∃ j d, W.resolve r = .ok j ∧ cls? (W.content j) = some cSchema ∧ look r = some d ∧ Belongs env ref W j d ∧
      ∀ i, env.deref n = .ok i ↔ env.deref j = .ok i := by
  obtain ⟨o, t, hs, hp, ht⟩ := h
  obtain ⟨fs, rfl⟩ := parse_dict hp
  obtain ⟨gs, rfl, hk⟩ := kin_of_twin ht rfl
  cases hs with
  | @intro _ _ name it al ps ad hnode hit hal hps had hres =>
  unfold Schemas.resolved at hres
  rw [ref_of hp hk, hr] at hres
  dsimp only at hres
  cases hwr : W.resolve r with
  | error e => rw [hwr] at hres; cases hres
  | ok j =>
    rw [hwr] at hres
    dsimp only at hres
    by_cases hc : cls? (W.content j) = some cSchema
    · rw [if_pos hc] at hres
      obtain ⟨h1, d, h2, h3⟩ := hw r j hwr hc
      exact ⟨j, d, rfl, hc, h2, ⟨_, _, h1, h3, .inl rfl⟩, deref_next hd (Option.some.inj hres).symm⟩
    · rw [if_neg hc] at hres; cases hres

/-- **C78.** An object of a conversion that belongs to a dict of the document is what the dict says: its attributes, its
items, properties, parts and `additionalProperties`, each belonging to the dict written there, and a reference leads to
where the reference in the document leads, however many there are in a row. -/
theorem C78_schema (hd : Derefs env ref) {look : Str → Option (Dict Str Tree)} (hw : Known env ref W look) {n : Nat}
    {q : Dict Str Tree} (h : Belongs env ref W n q) : Says env look (Belongs env ref W) n q := by
  have hbel := h
  obtain ⟨o, t, hs, hp, ht⟩ := h
  obtain ⟨fs, rfl⟩ := parse_dict hp
  obtain ⟨gs, rfl, hk⟩ := kin_of_twin ht rfl
  cases hs with
  | @intro _ _ name it al ps ad hnode hit hal hps had hres =>
  have hitems := child hp hk (n := c!"items") (dflt := nul) (k := .one cSchema) rfl rfl
  have hprops := child hp hk (n := c!"properties") (dflt := .dict []) (k := .dict cSchema) rfl rfl
  have hparts := child hp hk (n := c!"allOf") (dflt := .list []) (k := .list cSchema) rfl rfl
  have hadd := child hp hk (n := c!"additionalProperties") (dflt := .atom (.bool true)) (k := .boolOr cSchema) rfl rfl
  -- properties
  have hpr : ∀ k, (propertyAt q k = none → Dict.get? ps k = none) ∧
      ∀ d, propertyAt q k = some (.dict d) → ∃ m, Dict.get? ps k = some m ∧ Belongs env ref W m d := by
    intro k
    obtain ⟨v, ⟨-, hv⟩, h1, h2, h3⟩ := hprops
    have hnm := named_get hps k
    have empty : v = .dict [] → Dict.get? ps k = none := by
      rintro rfl
      apply hnm.1
      rcases hv with hv | hv | hv
      · rw [hv]; rfl
      · rw [hv.2]; rfl
      · generalize attr gs c!"properties" = w at hv
        cases hv with
        | dict c d e hk h => exact (get_of_index hk h k).1 rfl
    unfold propertyAt
    cases hq : Dict.get? q c!"properties" with
    | none => exact ⟨fun _ => empty (h1 hq), fun d h => by cases h⟩
    | some j =>
      by_cases hj : isNull j = true
      · have : j = .atom .none := by
          cases j with
          | atom a => cases a <;> simp_all [isNull]
          | _ => simp [isNull] at hj
        subst this
        exact ⟨fun _ => empty (h2 hq), fun d h => by cases h⟩
      · have hv' := h3 j hq (by simpa using hj)
        cases j with
        | atom a => rw [parseAs] at hv'; cases a <;> cases hv'
        | list l => simp only [parseAs] at hv'; cases hv'
        | obj c d => rw [parseAs] at hv'; cases hv'
        | dict d =>
          rw [parseAs] at hv'
          dsimp only at hv' ⊢
          cases hpd : parseDict v20 cSchema d with
          | none => rw [hpd] at hv'; cases hv'
          | some e =>
            rw [hpd] at hv'; cases hv'
            have hg := (parseDict_get hpd k).1
            have hg' := (parseDict_get hpd k).2
            have hat : ∃ e', attr gs c!"properties" = .dict e' ∧ (Dict.get? e k = none → Dict.get? e' k = none) ∧
                ∀ v, Dict.get? e k = some v → ∃ w, Dict.get? e' k = some w ∧ Twin v w := by
              rcases hv with hv | hv | hv
              · exact ⟨e, hv, id, fun v hv => ⟨v, hv, .inl rfl⟩⟩
              · refine ⟨[], hv.2, fun _ => rfl, fun v he => ?_⟩
                cases e with
                | nil => cases he
                | cons x e => exact absurd hv.1 (by simp [isDefault])
              · generalize attr gs c!"properties" = w at hv
                cases hv with
                | dict c d e hk h =>
                  exact ⟨_, rfl, (get_of_index hk h k).1, fun v hv =>
                    ((get_of_index hk h k).2 v hv).imp fun _ h => ⟨h.1, .inr h.2⟩⟩
            obtain ⟨e', he', h4, h5⟩ := hat
            rw [he'] at hnm
            constructor
            · intro hno
              apply hnm.1
              exact h4 (by rw [hg, hno]; rfl)
            · intro s hsm
              cases he : Dict.get? e k with
              | none => exact absurd he (hg' (by rw [hsm]; simp))
              | some v =>
                rw [hsm, Option.bind_some, he] at hg
                obtain ⟨w, hw1, hw2⟩ := h5 v he
                obtain ⟨m, hm1, hm2⟩ := hnm.2 w hw1
                exact ⟨m, hm1, belongs hm2 hg.symm hw2⟩
  -- parts
  have hpa : al.length = (listAt q c!"allOf").length ∧
      ∀ (i : Nat) d, (listAt q c!"allOf")[i]? = some (.dict d) → ∃ m, al[i]? = some m ∧ Belongs env ref W m d := by
    obtain ⟨v, ⟨-, hv⟩, h1, h2, h3⟩ := hparts
    have hmn := many_get hal
    have empty : v = .list [] → al.length = 0 := by
      rintro rfl
      rw [hmn.1]
      rcases hv with hv | hv | hv
      · rw [hv]; rfl
      · rw [hv.2]; rfl
      · generalize attr gs c!"allOf" = w at hv
        cases hv with
        | list c l m hl h => exact hl.symm
    unfold listAt
    cases hq : Dict.get? q c!"allOf" with
    | none => exact ⟨empty (h1 hq), fun i d h => by simp at h⟩
    | some j =>
      by_cases hj : isNull j = true
      · have : j = .atom .none := by
          cases j with
          | atom a => cases a <;> simp_all [isNull]
          | _ => simp [isNull] at hj
        subst this
        exact ⟨empty (h2 hq), fun i d h => by simp at h⟩
      · have hv' := h3 j hq (by simpa using hj)
        cases j with
        | atom a =>
          rw [parseAs] at hv'
          refine ⟨empty ?_, fun i d h => by simp at h⟩
          cases a with
          | str s => cases s <;> cases hv'; rfl
          | _ => cases hv'
        | dict d =>
          simp only [parseAs] at hv'
          refine ⟨empty ?_, fun i d h => by simp at h⟩
          split at hv' <;> cases hv'; rfl
        | obj c d => rw [parseAs] at hv'; cases hv'
        | list l =>
          rw [parseAs] at hv'
          dsimp only at hv' ⊢
          cases hpl : parseList v20 cSchema l with
          | none => rw [hpl] at hv'; cases hv'
          | some e =>
            rw [hpl] at hv'; cases hv'
            obtain ⟨g1, g2⟩ := parseList_get hpl
            have hat : ∃ e', attr gs c!"allOf" = .list e' ∧ e'.length = e.length ∧
                ∀ (i : Nat) v, e[i]? = some v → ∃ w, e'[i]? = some w ∧ Twin v w := by
              rcases hv with hv | hv | hv
              · exact ⟨e, hv, rfl, fun i v hv => ⟨v, hv, .inl rfl⟩⟩
              · cases e with
                | nil => exact ⟨[], hv.2, rfl, fun i v he => by simp at he⟩
                | cons x e => exact absurd hv.1 (by simp [isDefault])
              · generalize attr gs c!"allOf" = w at hv
                cases hv with
                | list c l m hl h =>
                  refine ⟨_, rfl, hl.symm, fun i v hv => ?_⟩
                  have hi : i < m.length := by
                    rw [← hl]; exact (List.getElem?_eq_some_iff.1 hv).1
                  exact ⟨m[i], List.getElem?_eq_getElem hi, .inr (h i v _ hv (List.getElem?_eq_getElem hi))⟩
            obtain ⟨e', he', h4, h5⟩ := hat
            rw [he'] at hmn
            refine ⟨by rw [hmn.1]; exact h4.trans g1, fun i d hi => ?_⟩
            obtain ⟨v, hv1, hv2⟩ := g2 i _ hi
            obtain ⟨w, hw1, hw2⟩ := h5 i v hv1
            obtain ⟨m, hm1, hm2⟩ := hmn.2 i w hw1
            exact ⟨m, hm1, belongs hm2 hv2 hw2⟩
  -- references
  have href : (refAt q = none → env.deref n = .ok n) ∧
      ∀ r, refAt q = some r → ∃ m d, look r = some d ∧ Belongs env ref W m d ∧
        ∀ i, env.deref n = .ok i ↔ env.deref m = .ok i := by
    unfold Schemas.resolved at hres
    rw [ref_of hp hk] at hres
    constructor
    · intro hr
      rw [hr] at hres
      exact deref_self hd (Option.some.inj hres).symm
    · intro r hr
      obtain ⟨j, d, -, -, h3⟩ := referred hd hw hbel hr
      exact ⟨j, d, h3⟩
  refine ⟨?_, ?_, ?_, ?_, ?_, ?_, ?_, ?_, ?_, ?_, ?_, ?_, href.1, href.2⟩
  · rw [hnode]; exact facts hp hk _ _ _ _ _
  · rw [hnode]; simp [nodeOf]
  · intro hq
    rw [hnode]
    show it = none
    obtain ⟨v, ⟨-, hv⟩, h1, h2, h3⟩ := hitems
    have hv' : v = .atom .none := by
      rcases hq with hq | hq
      · exact h1 hq
      · exact h2 hq
    subst hv'
    have ha : attr gs c!"items" = .atom .none := by
      rcases hv with hv | hv | hv
      · exact hv
      · exact hv.2
      · exact copy_null hv
    rw [ha] at hit
    cases hit with
    | none _ => rfl
    | some h => obtain ⟨_, h⟩ := shows_obj h; cases h
  · intro d hq
    rw [hnode]
    obtain ⟨v, ⟨-, hv⟩, h1, h2, h3⟩ := hitems
    have hv' := h3 _ hq rfl
    obtain ⟨us, rfl⟩ := parse_dict hv'
    have ht : Twin (.obj cSchema us) (attr gs c!"items") := by
      rcases hv with hv | hv | hv
      · exact .inl hv
      · exact absurd hv.1 (by simp [isDefault, nul])
      · exact .inr hv
    generalize attr gs c!"items" = w at hit ht
    cases hit with
    | none hn =>
      obtain ⟨_, rfl, -⟩ := kin_of_twin ht rfl
      cases hn
    | @some m _ h => exact ⟨m, rfl, belongs h hv' ht⟩
  · intro k hk'; rw [hnode]; exact (hpr k).1 hk'
  · intro k d hk'; rw [hnode]; exact (hpr k).2 d hk'
  · rw [hnode]; exact hpa.1
  · intro i d hi; rw [hnode]; exact hpa.2 i d hi
  · intro hq
    rw [hnode]
    show ad = .yes
    obtain ⟨v, ⟨-, hv⟩, h1, h2, h3⟩ := hadd
    have hv' := h1 hq
    subst hv'
    have ha : attr gs c!"additionalProperties" = .atom (.bool true) := by
      rcases hv with hv | hv | hv
      · exact hv
      · exact hv.2
      · generalize attr gs c!"additionalProperties" = w at hv
        cases hv; rfl
    rw [ha] at had
    cases had with
    | none h => cases h
    | bool => rfl
    | schema h => obtain ⟨_, h⟩ := shows_obj h; cases h
  · intro hq
    rw [hnode]
    show ad = .no
    obtain ⟨v, ⟨-, hv⟩, h1, h2, h3⟩ := hadd
    have hv' := h2 hq
    subst hv'
    have ha : attr gs c!"additionalProperties" = .atom .none := by
      rcases hv with hv | hv | hv
      · exact hv
      · exact absurd hv.1 (by decide)
      · exact copy_null hv
    rw [ha] at had
    cases had with
    | none h => rfl
    | schema h => obtain ⟨_, h⟩ := shows_obj h; cases h
  · intro b hq
    rw [hnode]
    show ad = _
    obtain ⟨v, ⟨-, hv⟩, h1, h2, h3⟩ := hadd
    have hv' := h3 _ hq rfl
    rw [parseAs] at hv'
    cases hv'
    have ha : attr gs c!"additionalProperties" = .atom (.bool b) := by
      rcases hv with hv | hv | hv
      · exact hv
      · cases b with
        | true => exact hv.2
        | false => exact absurd hv.1 (by decide)
      · generalize attr gs c!"additionalProperties" = w at hv
        cases hv; rfl
    rw [ha] at had
    cases had with
    | none h => cases h
    | bool => rfl
    | schema h => obtain ⟨_, h⟩ := shows_obj h; cases h
  · intro d hq
    rw [hnode]
    obtain ⟨v, ⟨-, hv⟩, h1, h2, h3⟩ := hadd
    have hv' := h3 _ hq rfl
    have hv'' : parseAs v20 (.one cSchema) (.dict d) = some v := by
      simp only [parseAs] at hv' ⊢; exact hv'
    obtain ⟨us, rfl⟩ := parse_dict hv''
    have ht : Twin (.obj cSchema us) (attr gs c!"additionalProperties") := by
      rcases hv with hv | hv | hv
      · exact .inl hv
      · exact absurd hv.1 (by simp [isDefault])
      · right
        generalize attr gs c!"additionalProperties" = w at hv
        cases hv with
        | obj k c c' fs' gs' hk hg hall hdef hplain hchild =>
          have : cSchema = c := by rcases hk with hk | hk <;> cases hk; rfl
          subst this
          exact .obj _ _ _ _ _ (.inl rfl) hg hall hdef hplain hchild
    obtain ⟨ws, hws, -⟩ := kin_of_twin ht rfl
    rw [hws] at had ht
    cases had with
    | none h => cases h
    | @schema m _ h => exact ⟨m, rfl, belongs h hv'' ht⟩

/-- **C78, references.** Where a conversion arrives from an object is where the document leads from its dict, and it
arrives whenever the references of the document come to an end. -/
theorem C78_references (hd : Derefs env ref) {look : Str → Option (Dict Str Tree)} (hw : Known env ref W look) {n : Nat}
    {q : Dict Str Tree} (h : Belongs env ref W n q) :
    (∀ i, env.deref n = .ok i → ∃ d, Leads look q d ∧ Belongs env ref W i d) ∧
    ∀ d, Leads look q d → ∃ i, env.deref n = .ok i ∧ Belongs env ref W i d := by
  constructor
  · intro i hi
    obtain ⟨k, hk⟩ := (deref_iff hd).1 hi
    induction k generalizing n q with
    | zero =>
      have hs := C78_schema hd hw h
      cases hr : refAt q with
      | none =>
        have := hs.noRef hr
        rw [hi] at this; cases this
        exact ⟨q, .stop hr, h⟩
      | some r =>
        obtain ⟨m, d, h1, h2, h3⟩ := hs.ref r hr
        obtain ⟨h4, h5⟩ := hk
        cases h4
        -- the object has no reference, so the dict has none
        obtain ⟨o, t, hsh, hp, ht⟩ := h
        obtain ⟨fs, rfl⟩ := parse_dict hp
        obtain ⟨gs, rfl, hk'⟩ := kin_of_twin ht rfl
        cases hsh with
        | intro _ _ _ _ _ hres =>
          unfold Schemas.resolved at hres
          rw [ref_of hp hk', hr, h5] at hres
          dsimp only at hres
          split at hres
          · cases hres
          · split at hres <;> cases hres
    | succ k ih =>
      have hs := C78_schema hd hw h
      cases hr : refAt q with
      | none =>
        have := hs.noRef hr
        rw [hi] at this; cases this
        exact ⟨q, .stop hr, h⟩
      | some r =>
        obtain ⟨o, t, hsh, hp, ht⟩ := h
        obtain ⟨fs, rfl⟩ := parse_dict hp
        obtain ⟨gs, rfl, hk'⟩ := kin_of_twin ht rfl
        cases hsh with
        | intro _ _ _ _ _ hres =>
          unfold Schemas.resolved at hres
          rw [ref_of hp hk', hr] at hres
          dsimp only at hres
          cases hwr : W.resolve r with
          | error e => rw [hwr] at hres; cases hres
          | ok j =>
            rw [hwr] at hres
            dsimp only at hres
            by_cases hc : cls? (W.content j) = some cSchema
            · rw [if_pos hc] at hres
              have hnj := (Option.some.inj hres).symm
              obtain ⟨h1, d, h2, h3⟩ := hw r j hwr hc
              have hk2 : C09.EndsAt ref j i k := ⟨by simpa [C09.chain, hnj] using hk.1, hk.2⟩
              obtain ⟨e, he1, he2⟩ := ih ⟨_, _, h1, h3, .inl rfl⟩ ((deref_next hd hnj i).1 hi) hk2
              exact ⟨e, .go hr h2 he1, he2⟩
            · rw [if_neg hc] at hres; cases hres
  · intro d hl
    induction hl generalizing n with
    | stop hr => exact ⟨n, (C78_schema hd hw h).noRef hr, h⟩
    | @go q r d e hr hlk _ ih =>
      obtain ⟨m, d', h1, h2, h3⟩ := (C78_schema hd hw h).ref r hr
      rw [hlk] at h1
      cases h1
      obtain ⟨i, hi, hb⟩ := ih h2
      exact ⟨i, (h3 i).2 hi, hb⟩

/-- **C78, bodies.** The schema a body parameter is converted with belongs to the schema written in the dict that
declares the parameter, in place or by reference. -/
theorem C78_body {order : List Atom → List Atom} {fuel : Nat} (ho : ∀ l, (order l).Perm l) {k i : Nat}
    {q : Dict Str Tree} (hm : Means W k i q) {gs : List (Str × Tree)}
    (he : MergeRefs.effective W order cParameter fuel i = some (.value (.obj cParameter gs))) {s : Dict Str Tree}
    (hs : Dict.get? q c!"schema" = some (.dict s)) {m : Nat} (hsh : Schemas.Shows env ref W m (attr gs c!"schema")) :
    Belongs env ref W m s := by
  obtain ⟨gs', o, w, h1, h2, h3, h4⟩ := C77.C77_schema ho hm he hs
  cases h1
  subst h3
  exact ⟨o, _, hsh, h2, .inr h4⟩

/-! ## a concrete case: a list of integers, linked -/

def txt (s : Str) : Tree := .atom (.str s)

/-- `#/definitions/List` -/
def listQ : Dict Str Tree := [(c!"type", txt c!"object"), (c!"required", .list [txt c!"v"]),
  (c!"properties", .dict [(c!"v", .dict [(c!"type", txt c!"integer"), (c!"maximum", .atom (.int 9))]),
    (c!"next", .dict [(c!"$ref", txt c!"u#/definitions/List")])]), (c!"additionalProperties", .atom (.bool false))]

def valueFs : List (Str × Tree) := assemble schemaCls
  [(c!"type", txt c!"integer"), (c!"maximum", .atom (.int 9))]
def nextFs : List (Str × Tree) := assemble schemaCls [(c!"$ref", txt c!"u#/definitions/List")]
def listFs : List (Str × Tree) := assemble schemaCls [(c!"type", txt c!"object"), (c!"required", .list [txt c!"v"]),
  (c!"properties", .dict [(c!"v", .obj cSchema valueFs), (c!"next", .obj cSchema nextFs)]),
  (c!"additionalProperties", .atom (.bool false))]

def docs : MergeRefs.World where
  content _ := .obj cSchema listFs
  resolve r := if r = c!"u#/definitions/List" then .ok 0 else .error .KeyError

def look (r : Str) : Option (Dict Str Tree) := if r = c!"u#/definitions/List" then some listQ else none

/-- `List`, `v`, `next` -/
def objs : Nat → Node
  | 0 => Schemas.nodeOf listFs (some c!"List") none [] [(c!"v", 1), (c!"next", 2)] .no
  | 1 => Schemas.nodeOf valueFs none none [] [] .yes
  | _ => Schemas.nodeOf nextFs none none [] [] .yes

def refs : Nat → Option Nat
  | 2 => some 0
  | _ => none

theorem objs_shown (env : Env ω) (h : env.node = objs) : Schemas.Shows env refs docs 0 (.obj cSchema listFs) := by
  have hv : Schemas.Shows env refs docs 1 (.obj cSchema valueFs) :=
    .intro (by rw [h]; rfl) (.none rfl) .nil .nil (.bool (b := true)) rfl
  have hn : Schemas.Shows env refs docs 2 (.obj cSchema nextFs) :=
    .intro (by rw [h]; rfl) (.none rfl) .nil .nil (.bool (b := true)) rfl
  exact .intro (by rw [h]; rfl) (.none rfl) .nil (.cons hv (.cons hn .nil)) (.bool (b := false)) rfl

/-- the hypotheses hold for a recursive schema -/
example (env : Env ω) (h : env.node = objs) : Known env refs docs look ∧ Belongs env refs docs 0 listQ := by
  have hp : parse v20 cSchema (.dict listQ) = some (.obj cSchema listFs) := rfl
  refine ⟨fun r j hr _ => ⟨?_, ?_⟩, _, _, objs_shown env h, hp, .inl rfl⟩
  · have : j = 0 := by
      unfold docs at hr
      dsimp only at hr
      split at hr <;> cases hr; rfl
    subst this
    exact objs_shown env h
  · refine ⟨listQ, ?_, hp⟩
    unfold docs at hr
    dsimp only at hr
    unfold look
    split at hr
    · next h => rw [if_pos h]
    · cases hr

example (env : Env ω) (h : env.deref = fun n => if n = 2 then .ok 0 else .ok n) : Derefs env refs := by
  intro n
  rw [h]
  refine ⟨fun m hm => ?_, fun e he => by dsimp only at he; split at he <;> cases he⟩
  by_cases hn : n = 2
  · subst hn; cases hm; exact ⟨3, _, rfl⟩
  · simp only [if_neg hn, Except.ok.injEq] at hm
    subst hm
    have : refs n = none := by
      unfold refs; split
      · exact absurd rfl hn
      · rfl
    exact ⟨1, [n], by simp [Utils.deref, Utils.derefLoop, Utils.CycleGuard.update, this]⟩

/-- the reference to the list leads to the list itself -/
example : Leads look [(c!"$ref", txt c!"u#/definitions/List")] listQ :=
  .go (r := c!"u#/definitions/List") (by rfl) (by rfl) (.stop (by rfl))

end Props.C78
