import Verif.Model.Create
import Verif.Spec.Refused
import Verif.Proofs.Index
import Verif.Proofs.Fit
import Verif.Proofs.Under
import Verif.Proofs.Checked
import Verif.Props.C08
/-! # Lemmas for C92: the references inside of a schema -/

namespace Proofs.Create
open Py Utils Tree _root_.Doc Spec.Places Spec.Pointed _root_.Loaded Proofs.Loaded Proofs.Doc Proofs.Placed Proofs.Index
open _root_.Create _root_.CycleDetector
open _root_.Effective (attr text? listed)
open Props.C08 (RefIn)

/-! ## the fields of a Schema object -/

theorem schemasIn_eq (d : List (Str × Tree)) : schemasIn d = d.map fun x => (x.1, schemaOf x.2) := by
  induction d with
  | nil => rw [schemasIn]; rfl
  | cons x d ih => obtain ⟨n, t⟩ := x; rw [schemasIn, ih]; rfl

theorem schemaList_eq (l : List Tree) : schemaList l = l.map schemaOf := by
  induction l with
  | nil => rw [schemaList]; rfl
  | cons x d ih => rw [schemaList, ih]; rfl

theorem propertiesIn_eq (fs : List (Str × Tree)) : propertiesIn fs = (match Dict.get? fs c!"properties" with
    | some (.dict d) => d.map fun x => (x.1, schemaOf x.2)
    | _ => []) := by
  induction fs with
  | nil => rw [propertiesIn]; rfl
  | cons x fs ih =>
    obtain ⟨n, t⟩ := x
    by_cases h : n = c!"properties" <;> cases t <;> simp only [propertiesIn, Dict.get?, h, if_true, if_false, ih, schemasIn_eq]

theorem allOfIn_eq (fs : List (Str × Tree)) : allOfIn fs = (match Dict.get? fs c!"allOf" with
    | some (.list l) => l.map schemaOf
    | _ => []) := by
  induction fs with
  | nil => rw [allOfIn]; rfl
  | cons x fs ih =>
    obtain ⟨n, t⟩ := x
    by_cases h : n = c!"allOf" <;> cases t <;> simp only [allOfIn, Dict.get?, h, if_true, if_false, ih, schemaList_eq]

theorem oneIn_eq (m : Str) (fs : List (Str × Tree)) : oneIn m fs = (match Dict.get? fs m with
    | some (.obj c gs) => some (schemaOf (.obj c gs))
    | _ => none) := by
  induction fs with
  | nil => rw [oneIn]; rfl
  | cons x fs ih =>
    obtain ⟨n, t⟩ := x
    by_cases h : n = m <;> cases t <;> simp only [oneIn, Dict.get?, h, if_true, if_false, ih]

/-! ## references inside, by places -/

/-- in the place of a value read as `k`, from which `t` was read: a reference `w` inside -/
def Gets (k : Kind) (t : Tree) (w : Str) : Prop :=
  match k with
  | .one c => c = cSchema → RefIn (schemaOf t) w
  | .boolOr c => c = cSchema → RefIn (schemaOf t) w
  | .dict c => c = cSchema → ∃ d, t = .dict d ∧ ∃ x ∈ d, RefIn (schemaOf x.2) w
  | .list c => c = cSchema → ∃ l, t = .list l ∧ ∃ x ∈ l, RefIn (schemaOf x) w

theorem place_leaf {k k' : Kind} {c : Nat} {v u : Tree} {ts : List Str} (hk : k = .one c) (h : Place k v ts k' u)
    (hc : (v20 c).child = []) : k' = .one c := by
  cases h with
  | here => exact hk
  | field ht _ hch _ =>
    subst hk
    rw [takes_class ht] at hch
    change Dict.get? (v20 c).child _ = _ at hch
    rw [hc] at hch; cases hch
  | item => cases hk
  | key => cases hk

/-- the children of a schema -/
theorem schema_child {n : Str} {k : Kind} (h : Dict.get? (v20 cSchema).child n = some k) :
    n = c!"items" ∧ k = .one cSchema ∨ n = c!"properties" ∧ k = .dict cSchema ∨
    n = c!"additionalProperties" ∧ k = .boolOr cSchema ∨ n = c!"allOf" ∧ k = .list cSchema ∨
    k = .one cXML ∨ k = .one cExternalDocs := by
  have := Dict.mem_of_get? h
  simp only [v20, classes, schemaCls, cSchema, List.getD_cons_succ, List.getD_cons_zero, List.mem_cons, Prod.mk.injEq,
    List.not_mem_nil, or_false] at this
  rcases this with ⟨rfl, rfl⟩ | ⟨rfl, rfl⟩ | ⟨rfl, rfl⟩ | ⟨rfl, rfl⟩ | ⟨rfl, rfl⟩ | ⟨rfl, rfl⟩ <;> simp [cSchema]

section
variable {f : Str → Str}

theorem schemaOf_obj (c : Nat) (fs : List (Str × Tree)) : schemaOf (.obj c fs) = .mk (refOf fs) (propertiesIn fs) (allOfIn fs)
    (oneIn c!"additionalProperties" fs) (oneIn c!"items" fs) := by rw [schemaOf]

/-- the reference of a schema that is written -/
theorem refOf_read {q : Dict Str Tree} {fs : List (Str × Tree)} (h : parse v20 cSchema (.dict q) = some (.obj cSchema fs)) :
    refOf (mapFields f fs) = text? (mapRef f ((Dict.get? q c!"$ref").getD nul)) := by
  obtain ⟨fs', e, -, hf⟩ := Props.C42.C42_fields _ q _ h
  cases e
  have := hf c!"$ref" nul (by rfl) (by decide)
  unfold refOf attr
  rw [get_mapFields, this]
  rfl

theorem gets_of_place {k k' : Kind} {v u : Tree} {ts : List Str} (h : Place k v ts k' u) {d : Dict Str Tree} {r : Str}
    (hu : u = .dict d) (hk' : Takes k' cSchema) (hr : Dict.get? d c!"$ref" = some (.atom (.str r))) (hne : f r ≠ []) {T : Tree}
    (hT : parseAs v20 k v = some T) : Gets k (mapRefs f T) (f r) := by
  induction h generalizing T with
  | @here k u =>
    subst hu
    rw [parseAs_takes hk'] at hT
    have hT' := hT
    obtain ⟨e, -, rfl⟩ := parse_fields hT
    have : RefIn (schemaOf (mapRefs f (.obj cSchema ((v20 cSchema).fields.map fun x => (x.1, fieldOf v20 (v20 cSchema) d x))))) (f r) := by
      rw [mapRefs, schemaOf_obj, refOf_read (f := f) hT', hr]
      exact .here hne
    rcases hk' with rfl | rfl <;> exact fun _ => this
  | @field k c q n v k1 ts k'' u htk hd hk hp ih =>
    have key : c = cSchema → RefIn (schemaOf (mapRefs f T)) (f r) := by
      rintro rfl
      rw [parseAs_takes htk] at hT
      obtain ⟨e, he, rfl⟩ := parse_fields hT
      obtain ⟨dflt, hdf⟩ := child_field hk
      obtain ⟨w, h1, h2⟩ := fieldOf_child he hd hk (place_not_null hp (by rw [hu]; rfl)) dflt
      have hg := ih hu hk' h1
      have hne' : n ≠ c!"$ref" := by rintro rfl; exact child_ref hk
      have hget : Dict.get? (mapFields f ((v20 cSchema).fields.map fun x => (x.1, fieldOf v20 (v20 cSchema) q x))) n =
          some (mapRefs f w) := by
        rw [get_mapFields, get_fieldOf, hdf, Option.map_some, Option.map_some, h2]
        simp [mapField, hne']
      rw [mapRefs, schemaOf_obj]
      rcases schema_child hk with ⟨rfl, rfl⟩ | ⟨rfl, rfl⟩ | ⟨rfl, rfl⟩ | ⟨rfl, rfl⟩ | rfl | rfl
      · have := hg rfl
        rw [oneIn_eq c!"items", hget]
        cases hw : mapRefs f w with
        | obj c gs => rw [hw] at this; exact .items _ this
        | _ => rw [hw] at this; simp only [schemaOf] at this; cases this <;> simp_all
      · obtain ⟨d', hd', x, hx, hg⟩ := hg rfl
        rw [propertiesIn_eq, hget, hd']
        exact .prop x.1 _ (List.mem_map.2 ⟨x, hx, rfl⟩) hg
      · have := hg rfl
        rw [oneIn_eq c!"additionalProperties", hget]
        cases hw : mapRefs f w with
        | obj c gs => rw [hw] at this; exact .addl _ this
        | _ => rw [hw] at this; simp only [schemaOf] at this; cases this <;> simp_all
      · obtain ⟨l, hl, x, hx, hg⟩ := hg rfl
        rw [allOfIn_eq, hget, hl]
        exact .allOf _ (List.mem_map.2 ⟨x, hx, rfl⟩) hg
      · have := place_leaf rfl hp (by rfl)
        rw [this] at hk'
        exact absurd (takes_class hk') (by decide)
      · have := place_leaf rfl hp (by rfl)
        rw [this] at hk'
        exact absurd (takes_class hk') (by decide)
    rcases htk with rfl | rfl <;> exact key
  | @item c l i v ts k' u hi hp ih =>
    intro hc
    subst hc
    rw [parseAs] at hT
    cases hl : parseList v20 cSchema l with
    | none => rw [hl] at hT; cases hT
    | some l' =>
      rw [hl] at hT; cases hT
      obtain ⟨w, h1, h2⟩ := (parseList_get hl).2 i v hi
      refine ⟨_, by rw [mapRefs], mapRefs f w, ?_, ih hu hk' h1 rfl⟩
      rw [mapList_eq]
      exact List.mem_map.2 ⟨w, List.mem_of_getElem? h2, rfl⟩
  | @key c dd n v ts k' u hn hp ih =>
    intro hc
    subst hc
    rw [parseAs] at hT
    cases hl : parseDict v20 cSchema dd with
    | none => rw [hl] at hT; cases hT
    | some l' =>
      rw [hl] at hT; cases hT
      obtain ⟨w, h1, h2⟩ := (parseDict_get hl n).2 v hn
      refine ⟨_, by rw [mapRefs], (n, mapRefs f w), ?_, ih hu hk' h1 rfl⟩
      rw [mapDict_eq]
      exact List.mem_map.2 ⟨(n, w), Dict.mem_of_get? h2, rfl⟩

theorem plain_no_ref {t : Tree} (h : Plain t) {w : Str} : ¬ RefIn (schemaOf t) w := by
  intro hr
  cases t with
  | obj => exact absurd h (by simp [Plain])
  | _ => simp only [schemaOf] at hr; cases hr <;> simp_all

/-- a field of a schema that was read -/
theorem schema_field {q e : List (Str × Tree)} (he : parseEntries v20 (v20 cSchema) q = some e) (hp : PlainDict q) {n : Str}
    {x : Tree} {k : Kind} (hk : Dict.get? (v20 cSchema).child n = some k)
    (hg : Dict.get? (mapFields f ((v20 cSchema).fields.map fun x => (x.1, fieldOf v20 (v20 cSchema) q x))) n = some x) :
    Plain x ∨ ∃ v w, Dict.get? q n = some v ∧ Plain v ∧ parseAs v20 k v = some w ∧ x = mapRefs f w := by
  have hne : n ≠ c!"$ref" := by rintro rfl; exact child_ref hk
  rw [get_mapFields, get_fieldOf] at hg
  cases hf : Dict.get? (v20 cSchema).fields n with
  | none => rw [hf] at hg; cases hg
  | some dflt =>
    rw [hf, Option.map_some, Option.map_some] at hg
    cases hg
    rcases field_cases he hp hf with hpl | ⟨v1, k', w, h1, h2, h3, h4⟩
    · exact .inl (plain_mapField f n hpl)
    · rw [hk] at h2; cases h2
      refine .inr ⟨v1, w, h1, plainDict_iff.1 hp _ (Dict.mem_of_get? h1), h3, ?_⟩
      rw [mapField, if_neg hne, h4]

theorem null_no_ref {w : Str} : ¬ RefIn (schemaOf (mapRefs f (.obj cSchema (v20 cSchema).fields))) w := by
  rw [mapRefs, schemaOf_obj, propertiesIn_eq, allOfIn_eq, oneIn_eq, oneIn_eq]
  simp only [refOf, attr, get_mapFields]
  intro h
  generalize hS : Schema.mk _ _ _ _ _ = S at h
  have : S = .mk none [] [] none none := by rw [← hS]; rfl
  rw [this] at h
  cases h <;> simp_all

/-- a reference inside of the schema that was read is written inside of the dict -/
theorem place_of_refIn {S : Schema} {w : Str} (h : RefIn S w) : ∀ {k : Kind} {v T : Tree}, Takes k cSchema → Plain v →
    parseAs v20 k v = some T → S = schemaOf (mapRefs f T) → ∃ vs k' d r, Place k v vs k' (.dict d) ∧ Takes k' cSchema ∧
      Dict.get? d c!"$ref" = some (.atom (.str r)) ∧ f r = w := by
  have start : ∀ {S : Schema} {w : Str}, RefIn S w → ∀ {k : Kind} {v T : Tree}, Takes k cSchema →
      parseAs v20 k v = some T → S = schemaOf (mapRefs f T) → ∃ q e, v = .dict q ∧ parseEntries v20 (v20 cSchema) q = some e ∧
        T = .obj cSchema ((v20 cSchema).fields.map fun p => (p.1, fieldOf v20 (v20 cSchema) q p)) := by
    intro S w h k v T hk hT hS
    cases read_of hT with
    | plain hp => rw [plain_map f _ hp] at hS; rw [hS] at h; exact absurd h (plain_no_ref hp)
    | null hk' =>
      subst hk'
      obtain rfl : _ = cSchema := (Proofs.Checked.takes_unique (.inl rfl) hk)
      rw [hS] at h
      exact absurd h null_no_ref
    | list hk' => subst hk'; rcases hk with h | h <;> cases h
    | dict hk' => subst hk'; rcases hk with h | h <;> cases h
    | @obj c d e hk' he =>
      cases Proofs.Checked.takes_unique hk hk'
      exact ⟨d, e, rfl, he, rfl⟩
  induction h with
  | @here r ps al ap it hr =>
    intro k v T hk hv hT hS
    obtain ⟨q, e, rfl, he, rfl⟩ := start (RefIn.here (ps := ps) (al := al) (ap := ap) (it := it) hr) hk hT hS
    rw [parseAs_takes hk] at hT
    rw [mapRefs, schemaOf_obj, refOf_read (f := f) hT] at hS
    have h1 : some r = text? (mapRef f ((Dict.get? q c!"$ref").getD nul)) := by injection hS
    cases hq : Dict.get? q c!"$ref" with
    | none => rw [hq] at h1; cases h1
    | some x =>
      rw [hq, Option.getD_some] at h1
      unfold mapRef at h1
      split at h1
      · next r' => exact ⟨[], k, q, r', .here, hk, hq, (by injection h1 with h1; exact h1.symm)⟩
      · next hx =>
        cases x with
        | atom a =>
          cases a with
          | str s => exact absurd rfl (hx s)
          | _ => cases h1
        | _ => cases h1
  | @prop r ref ps al ap it n o hm hi ih =>
    intro k v T hk hv hT hS
    obtain ⟨q, e, rfl, he, rfl⟩ := start (RefIn.prop (ref := ref) (al := al) (ap := ap) (it := it) n o hm hi) hk hT hS
    rw [Plain] at hv
    rw [mapRefs, schemaOf_obj, propertiesIn_eq] at hS
    injection hS with _ h1
    rw [h1] at hm
    split at hm
    · next d hd =>
      obtain ⟨x, hx, e1⟩ := List.mem_map.1 hm
      cases e1
      rcases schema_field (k := .dict cSchema) he hv.2 (by rfl) hd with hp | ⟨v1, w1, h2, h3, h4, h5⟩
      · rw [Plain, plainDict_iff] at hp; exact absurd hi (plain_no_ref (hp.2 _ hx))
      · cases read_of h4 with
        | plain hp =>
          rw [plain_map f _ hp] at h5; rw [← h5, Plain, plainDict_iff] at hp
          exact absurd hi (plain_no_ref (hp.2 _ hx))
        | null hk' => cases hk'
        | list hk' => cases hk'
        | obj hk' => rcases hk' with h | h <;> cases h
        | dict hk' hl =>
          cases hk'
          rw [mapRefs] at h5; cases h5
          rw [mapDict_eq] at hx
          obtain ⟨y, hy, rfl⟩ := List.mem_map.1 hx
          obtain ⟨z, hz, h6, h7⟩ := parseDict_mem hl hy
          rw [Plain] at h3
          obtain ⟨vs, k', d, r', h8, h9⟩ := ih (.inl rfl) (plainDict_iff.1 h3.2 _ hz) h7 rfl
          exact ⟨_, k', d, r', .field hk h2 (by rfl) (.key (Dict.get?_of_mem h3.1 hz) h8), h9⟩
    · cases hm
  | @allOf r ref ps al ap it o hm hi ih =>
    intro k v T hk hv hT hS
    obtain ⟨q, e, rfl, he, rfl⟩ := start (RefIn.allOf (ref := ref) (ps := ps) (ap := ap) (it := it) o hm hi) hk hT hS
    rw [Plain] at hv
    rw [mapRefs, schemaOf_obj, allOfIn_eq] at hS
    injection hS with _ _ h1
    rw [h1] at hm
    split at hm
    · next d hd =>
      obtain ⟨x, hx, e1⟩ := List.mem_map.1 hm
      cases e1
      rcases schema_field (k := .list cSchema) he hv.2 (by rfl) hd with hp | ⟨v1, w1, h2, h3, h4, h5⟩
      · rw [Plain, plainList_iff] at hp; exact absurd hi (plain_no_ref (hp _ hx))
      · cases read_of h4 with
        | plain hp =>
          rw [plain_map f _ hp] at h5; rw [← h5, Plain, plainList_iff] at hp
          exact absurd hi (plain_no_ref (hp _ hx))
        | null hk' => cases hk'
        | dict hk' => cases hk'
        | obj hk' => rcases hk' with h | h <;> cases h
        | list hk' hl =>
          cases hk'
          rw [mapRefs] at h5; cases h5
          rw [mapList_eq] at hx
          obtain ⟨y, hy, rfl⟩ := List.mem_map.1 hx
          obtain ⟨i, hi'⟩ := List.mem_iff_getElem?.1 hy
          obtain ⟨z, hz, h7⟩ := parseList_back hl hi'
          rw [Plain, plainList_iff] at h3
          obtain ⟨vs, k', d, r', h8, h9⟩ := ih (.inl rfl) (h3 _ (List.mem_of_getElem? hz)) h7 rfl
          exact ⟨_, k', d, r', .field hk h2 (by rfl) (.item hz h8), h9⟩
    · cases hm
  | @addl r ref ps al it o hi ih =>
    intro k v T hk hv hT hS
    obtain ⟨q, e, rfl, he, rfl⟩ := start (RefIn.addl (ref := ref) (ps := ps) (al := al) (it := it) o hi) hk hT hS
    rw [Plain] at hv
    rw [mapRefs, schemaOf_obj, oneIn_eq c!"additionalProperties"] at hS
    injection hS with _ _ _ h1
    split at h1
    · next c gs hd =>
      cases h1
      rcases schema_field (k := .boolOr cSchema) he hv.2 (by rfl) hd with hp | ⟨v1, w1, h2, h3, h4, h5⟩
      · exact absurd hi (plain_no_ref hp)
      · obtain ⟨vs, k', d, r', h8, h9⟩ := ih (.inr rfl) h3 h4 (by rw [h5])
        exact ⟨_, k', d, r', .field hk h2 (by rfl) h8, h9⟩
    · cases h1
  | @items r ref ps al ap o hi ih =>
    intro k v T hk hv hT hS
    obtain ⟨q, e, rfl, he, rfl⟩ := start (RefIn.items (ref := ref) (ps := ps) (al := al) (ap := ap) o hi) hk hT hS
    rw [Plain] at hv
    rw [mapRefs, schemaOf_obj, oneIn_eq c!"items"] at hS
    injection hS with _ _ _ _ h1
    split at h1
    · next c gs hd =>
      cases h1
      rcases schema_field (k := .one cSchema) he hv.2 (by rfl) hd with hp | ⟨v1, w1, h2, h3, h4, h5⟩
      · exact absurd hi (plain_no_ref hp)
      · obtain ⟨vs, k', d, r', h8, h9⟩ := ih (.inl rfl) h3 h4 (by rw [h5])
        exact ⟨_, k', d, r', .field hk h2 (by rfl) h8, h9⟩
    · cases h1

end

end Proofs.Create
