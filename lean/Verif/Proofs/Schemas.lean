import Verif.Model.Schemas
import Verif.Spec.SchemaDoc
import Verif.Proofs.Effective
import Verif.Props.C09
/-! # Lemmas for C78 -/

namespace Proofs.Schemas
open Py Tree _root_.Doc Prim Spec.Doc Spec.Merge Spec.Described Spec.SchemaDoc _root_.Effective _root_.Schemas
open Proofs.Effective (values_toVals value_toVal)

variable {ω : Type} {W : MergeRefs.World} {env : Env ω} {ref : Nat → Option Nat}

/-! ## fields -/

/-- the same, or a copy -/
def Like (v w : Tree) : Prop := w = v ∨ PlainCopy v w

theorem Like.atom {a : Atom} {w : Tree} (h : Like (.atom a) w) : w = .atom a :=
  h.elim id fun h => h.2 fun _ => nofun
theorem Like.dict {d : List (Str × Tree)} {w : Tree} (h : Like (.dict d) w) : w = .dict d :=
  h.elim id fun h => h.2 fun _ => nofun
theorem Like.obj {c : Nat} {d : List (Str × Tree)} {w : Tree} (h : Like (.obj c d) w) : w = .obj c d :=
  h.elim id fun h => h.2 fun _ => nofun
theorem Like.list {l : List Tree} {w : Tree} (h : Like (.list l) w) : ∃ m, w = .list m ∧ Elements l m :=
  h.elim (fun h => ⟨l, h, .inl rfl⟩) fun h => (h.1 l rfl).imp fun _ h => ⟨h.1, .inr h.2⟩

/-- the fields of one Schema object are those of the other, or copies of them -/
def Kin (fs gs : List (Str × Tree)) : Prop :=
  ∀ n dflt v, Dict.get? (v20 cSchema).fields n = some dflt → Dict.get? fs n = some v →
    ∃ w, Dict.get? gs n = some w ∧ (w = v ∨ (isDefault dflt v = true ∧ w = dflt) ∨
      (isDefault dflt v = false ∧ (Dict.get? (v20 cSchema).child n = none → PlainCopy v w) ∧
        ∀ k, Dict.get? (v20 cSchema).child n = some k → Copy v20 k v w))

/-- the same object, or a copy -/
def Twin (o t : Tree) : Prop := t = o ∨ Copy v20 (.one cSchema) o t

theorem kin_of_twin {o t : Tree} (h : Twin o t) {fs : List (Str × Tree)} (ho : o = .obj cSchema fs) :
    ∃ gs, t = .obj cSchema gs ∧ Kin fs gs := by
  rcases h with rfl | h
  · exact ⟨fs, ho, fun n dflt v _ hv => ⟨v, hv, .inl rfl⟩⟩
  · cases h with
    | obj k c' c'' fs' gs hk hg hall hdef hplain hchild =>
      cases ho
      have hc : cSchema = c' := by rcases hk with hk | hk <;> cases hk; rfl
      subst hc
      refine ⟨gs, rfl, fun n dflt v hf hv => ?_⟩
      have hmem : n ∈ Dict.keys gs := by rw [hg]; exact (Dict.get?_isSome_iff _ _).1 (by rw [hf]; rfl)
      obtain ⟨w, hw⟩ := Option.isSome_iff_exists.1 ((Dict.get?_isSome_iff _ _).2 hmem)
      refine ⟨w, hw, ?_⟩
      cases hd : isDefault dflt v with
      | true => exact .inr (.inl ⟨rfl, hdef n dflt v w hf hv hw hd⟩)
      | false => exact .inr (.inr ⟨rfl, hplain n dflt v w hf hv hw hd, fun k hk => hchild n dflt v w k hf hv hw hd hk⟩)
    | _ => cases ho

/-- a field with objects: what is written is read -/
theorem parsed_child {c : Nat} {q : Dict Str Tree} {fs : List (Str × Tree)}
    (hp : parse v20 c (.dict q) = some (.obj c fs)) {n : Str} {dflt : Tree} {k : Kind}
    (hf : Dict.get? (v20 c).fields n = some dflt) (hch : Dict.get? (v20 c).child n = some k) :
    ∃ v, Dict.get? fs n = some v ∧
      (Dict.get? q n = none → v = (emptyOf k).getD dflt) ∧ (Dict.get? q n = some (.atom .none) → v = (emptyOf k).getD nul) ∧
      ∀ j, Dict.get? q n = some j → isNull j = false → parseAs v20 k j = some v := by
  unfold parse at hp
  rw [parseAs] at hp
  cases he : parseEntries v20 (v20 c) q with
  | none => rw [he] at hp; cases hp
  | some e =>
    rw [he, Option.map_some, Proofs.Doc.assemble_eq he] at hp
    have hfs : Dict.get? fs n = some (Proofs.Doc.fieldOf v20 (v20 c) q (n, dflt)) := by
      cases hp
      have hwf : Dict.WF ((v20 c).fields.map fun f => (f.1, Proofs.Doc.fieldOf v20 (v20 c) q f)) := by
        show (Dict.keys _).Nodup
        have : Dict.keys ((v20 c).fields.map fun f => (f.1, Proofs.Doc.fieldOf v20 (v20 c) q f)) =
          Dict.keys (v20 c).fields := by simp [Dict.keys]
        rw [this]
        exact (Props.C42.C42_grammar c).1
      exact Dict.get?_of_mem hwf (List.mem_map.2 ⟨(n, dflt), Dict.mem_of_get? hf, rfl⟩)
    refine ⟨_, hfs, fun hq => ?_, fun hq => ?_, fun j hq hj => ?_⟩
    · unfold Proofs.Doc.fieldOf
      simp only [hq, hch, Option.bind_none, Option.bind_some]
    · unfold Proofs.Doc.fieldOf Proofs.Doc.parseField
      simp only [hq, hch, Option.bind_some, isNull, if_true]
      rfl
    · obtain ⟨u, hu⟩ := Proofs.Effective.parseField_some he (Dict.mem_of_get? hq)
      rw [Proofs.Doc.parseField_child hch hj] at hu
      unfold Proofs.Doc.fieldOf Proofs.Doc.parseField
      simp only [hq, hch, Option.bind_some, hj, Bool.false_eq_true, if_false, hu]

section
variable {q : Dict Str Tree} {fs gs : List (Str × Tree)} (hp : parse v20 cSchema (.dict q) = some (.obj cSchema fs))
  (hk : Kin fs gs)
include hp hk

theorem plain {n : Str} {dflt : Tree} (hf : Dict.get? (v20 cSchema).fields n = some dflt)
    (hch : Dict.get? (v20 cSchema).child n = none) :
    ∃ w, attr gs n = w ∧ (Like ((Dict.get? q n).getD dflt) w ∨
      (isDefault dflt ((Dict.get? q n).getD dflt) = true ∧ w = dflt)) := by
  obtain ⟨fs', h1, -, h3⟩ := Props.C42.C42_fields cSchema q _ hp
  cases h1
  obtain ⟨w, hw, h⟩ := hk n dflt _ hf (h3 n dflt hf hch)
  refine ⟨w, by rw [attr, hw]; rfl, ?_⟩
  rcases h with h | h | h
  · exact .inl (.inl h)
  · exact .inr h
  · exact .inl (.inr (h.2.1 hch))

theorem raw {n : Str} (hf : Dict.get? (v20 cSchema).fields n = some nul)
    (hch : Dict.get? (v20 cSchema).child n = none) : Like ((Dict.get? q n).getD nul) (attr gs n) := by
  obtain ⟨w, rfl, h | ⟨h, hw⟩⟩ := plain hp hk hf hch
  · exact h
  · rw [hw]
    left
    generalize (Dict.get? q n).getD nul = v at *
    cases v with
    | atom a => cases a <;> simp_all [isDefault, nul]
    | _ => simp [isDefault, nul] at h

/-- a field with objects: what is written is read -/
theorem child {n : Str} {dflt : Tree} {k : Kind} (hf : Dict.get? (v20 cSchema).fields n = some dflt)
    (hch : Dict.get? (v20 cSchema).child n = some k) :
    ∃ v, (Dict.get? fs n = some v ∧ (attr gs n = v ∨ (isDefault dflt v = true ∧ attr gs n = dflt) ∨
        Copy v20 k v (attr gs n))) ∧
      (Dict.get? q n = none → v = (emptyOf k).getD dflt) ∧ (Dict.get? q n = some (.atom .none) → v = (emptyOf k).getD nul) ∧
      ∀ j, Dict.get? q n = some j → isNull j = false → parseAs v20 k j = some v := by
  obtain ⟨v, hfs, h1, h2, h3⟩ := parsed_child hp hf hch
  obtain ⟨w, hw, h⟩ := hk n dflt _ hf hfs
  have ha : attr gs n = w := by rw [attr, hw]; rfl
  refine ⟨v, ⟨hfs, ?_⟩, h1, h2, h3⟩
  rw [ha]
  rcases h with h | h | h
  · exact .inl h
  · exact .inr (.inl h)
  · exact .inr (.inr (h.2.2 k hch))

end

/-! ## plain attributes -/

section
variable {q : Dict Str Tree} {n : Str} {w : Tree}

theorem text_of (h : Like ((Dict.get? q n).getD nul) w) : Text q n (text? w) := by
  unfold Text
  cases hv : Dict.get? q n with
  | none => rw [hv] at h; rw [h.atom]; rfl
  | some v =>
    rw [hv, Option.getD_some] at h
    cases v with
    | atom a => rw [h.atom]; cases a <;> rfl
    | list l => obtain ⟨m, rfl, _⟩ := h.list; rfl
    | dict d => rw [h.dict]; rfl
    | obj c d => rw [h.obj]; rfl

theorem number_of (h : Like ((Dict.get? q n).getD nul) w) : Number q n (number? w) := by
  unfold Number
  cases hv : Dict.get? q n with
  | none => rw [hv] at h; rw [h.atom]; rfl
  | some v =>
    rw [hv, Option.getD_some] at h
    cases v with
    | atom a =>
      rw [h.atom]
      cases a with
      | float x => cases x <;> rfl
      | _ => rfl
    | list l => obtain ⟨m, rfl, _⟩ := h.list; rfl
    | dict d => rw [h.dict]; rfl
    | obj c d => rw [h.obj]; rfl

theorem length_of (h : Like ((Dict.get? q n).getD nul) w) : Length q n (length? w) := by
  unfold Length
  cases hv : Dict.get? q n with
  | none => rw [hv] at h; rw [h.atom]; rfl
  | some v =>
    rw [hv, Option.getD_some] at h
    cases v with
    | atom a =>
      rw [h.atom]
      cases a with
      | int k =>
        cases k with
        | ofNat k => exact ⟨fun _ => rfl, fun h => absurd h (by simp)⟩
        | negSucc k => exact ⟨fun h => absurd h (by simp), fun _ => rfl⟩
      | _ => rfl
    | list l => obtain ⟨m, rfl, _⟩ := h.list; rfl
    | dict d => rw [h.dict]; rfl
    | obj c d => rw [h.obj]; rfl

theorem switch_of (h : Like ((Dict.get? q n).getD nul) w) : Switch q n (!falsy w) := by
  unfold Switch
  cases hv : Dict.get? q n with
  | none => rw [hv] at h; rw [h.atom]; rfl
  | some v =>
    rw [hv, Option.getD_some] at h
    cases v with
    | atom a => rw [h.atom]; cases a <;> simp [falsy]
    | _ => trivial

theorem default_of (h : Like ((Dict.get? q c!"default").getD nul) w) : DefaultIs q (toVal w) (!isNull w) := by
  unfold DefaultIs
  cases hv : Dict.get? q c!"default" with
  | none => rw [hv] at h; rw [h.atom]; exact ⟨rfl, rfl⟩
  | some v =>
    rw [hv, Option.getD_some] at h
    cases v with
    | atom a =>
      rw [h.atom]
      cases a with
      | none => exact ⟨rfl, rfl⟩
      | _ => exact ⟨rfl, value_toVal _⟩
    | list l =>
      obtain ⟨m, rfl, hj⟩ := h.list
      exact ⟨rfl, m, _, by rw [toVal], values_toVals m, hj⟩
    | dict d => rw [h.dict]; exact ⟨rfl, value_toVal _⟩
    | obj c d => rw [h.obj]; exact ⟨rfl, value_toVal _⟩

theorem enum_of (h : Like ((Dict.get? q c!"enum").getD nul) w) : EnumIs q (toVals (listed w)) := by
  unfold EnumIs listAt
  cases hv : Dict.get? q c!"enum" with
  | none => rw [hv] at h; rw [h.atom]; exact ⟨[], values_toVals [], .inl rfl⟩
  | some v =>
    rw [hv, Option.getD_some] at h
    cases v with
    | atom a => rw [h.atom]; exact ⟨[], values_toVals [], .inl rfl⟩
    | list l => obtain ⟨m, rfl, hj⟩ := h.list; exact ⟨m, values_toVals m, hj⟩
    | dict d => rw [h.dict]; exact ⟨[], values_toVals [], .inl rfl⟩
    | obj c d => rw [h.obj]; exact ⟨[], values_toVals [], .inl rfl⟩

theorem mem_texts {l : List Tree} {s : Str} : s ∈ texts l ↔ Tree.atom (.str s) ∈ l := by
  unfold texts
  rw [List.mem_filterMap]
  constructor
  · rintro ⟨t, ht, h⟩
    cases t with
    | atom a => cases a <;> simp_all [text?]
    | _ => simp [text?] at h
  · intro h; exact ⟨_, h, rfl⟩

theorem mem_elements {l m : List Tree} (h : Elements l m) {s : Str} :
    Tree.atom (.str s) ∈ m ↔ Tree.atom (.str s) ∈ l := by
  rcases h with rfl | h
  · rfl
  · have key : ∀ x : List Tree, In (.atom (.str s)) x ↔ Tree.atom (.str s) ∈ x := by
      intro x
      constructor
      · rintro ⟨u, hu, rfl | ⟨a, b, _, h1, _, h2, _⟩⟩
        · exact hu
        · cases h1; cases h2
      · intro h; exact ⟨_, h, .inl rfl⟩
    rw [← key, h.1]
    rw [key, key]
    exact ⟨fun h => h.elim (fun h => by cases h) id, .inr⟩
end

section
variable {q : Dict Str Tree} {fs gs : List (Str × Tree)} (hp : parse v20 cSchema (.dict q) = some (.obj cSchema fs))
  (hk : Kin fs gs)
include hp hk

theorem required_of (s : Str) : s ∈ texts (listed (attr gs c!"required")) ↔ Tree.atom (.str s) ∈ listAt q c!"required" := by
  rw [mem_texts]
  obtain ⟨w, rfl, h | ⟨h, hw⟩⟩ := plain hp hk (n := c!"required") (dflt := .list []) rfl rfl
  · unfold listAt
    cases hv : Dict.get? q c!"required" with
    | none =>
      rw [hv] at h
      obtain ⟨m, hm, he⟩ := h.list
      rw [hm]
      exact mem_elements he
    | some v =>
      rw [hv, Option.getD_some] at h
      cases v with
      | atom a => rw [h.atom]; exact Iff.rfl
      | list l => obtain ⟨m, hm, hj⟩ := h.list; rw [hm]; exact mem_elements hj
      | dict d => rw [h.dict]; exact Iff.rfl
      | obj c d => rw [h.obj]; exact Iff.rfl
  · rw [hw]
    unfold listAt
    cases hv : Dict.get? q c!"required" with
    | none => exact Iff.rfl
    | some v =>
      rw [hv, Option.getD_some] at h
      cases v with
      | list l => cases l <;> simp [isDefault, listed] at h ⊢
      | _ => exact Iff.rfl

theorem facts (name : Option Str) (it : Option Nat) (al : List Nat) (ps : Dict Str Nat) (ad : Addp) :
    Facts q (nodeOf gs name it al ps ad) where
  type := text_of (raw hp hk rfl rfl)
  format := text_of (raw hp hk rfl rfl)
  default := default_of (raw hp hk rfl rfl)
  maximum := number_of (raw hp hk rfl rfl)
  exclusiveMaximum := switch_of (raw hp hk rfl rfl)
  minimum := number_of (raw hp hk rfl rfl)
  exclusiveMinimum := switch_of (raw hp hk rfl rfl)
  maxLength := length_of (raw hp hk rfl rfl)
  minLength := length_of (raw hp hk rfl rfl)
  maxItems := length_of (raw hp hk rfl rfl)
  minItems := length_of (raw hp hk rfl rfl)
  multipleOf := ⟨_, number_of (raw hp hk rfl rfl), rfl⟩
  enum := enum_of (raw hp hk rfl rfl)
  uniqueItems := switch_of (raw hp hk rfl rfl)
  collectionFormat := rfl
  isSchema := rfl
  required := required_of hp hk
  discriminator := text_of (raw hp hk rfl rfl)
  readOnly := switch_of (raw hp hk rfl rfl)

theorem ref_of : MergeRefs.refText (.obj cSchema gs) = refAt q := by
  have h := raw hp hk (n := c!"$ref") rfl rfl
  unfold MergeRefs.refText MergeRefs.refOf refAt
  change (match attr gs c!"$ref" with | .atom (.str (ch :: s)) => some (ch :: s) | _ => none) = _
  cases hv : Dict.get? q c!"$ref" with
  | none => rw [hv] at h; rw [h.atom]
  | some v =>
    rw [hv, Option.getD_some] at h
    cases v with
    | atom a =>
      rw [h.atom]
      cases a with
      | str s => cases s <;> rfl
      | _ => rfl
    | list l => obtain ⟨m, hm, _⟩ := h.list; rw [hm]
    | dict d => rw [h.dict]
    | obj c d => rw [h.obj]
end

/-! ## objects -/

theorem parse_dict {c : Nat} {d : Dict Str Tree} {v : Tree} (h : parseAs v20 (.one c) (.dict d) = some v) :
    ∃ fs, v = .obj c fs := by
  rw [parseAs] at h
  cases he : parseEntries v20 (v20 c) d with
  | none => rw [he] at h; cases h
  | some e => rw [he] at h; cases h; exact ⟨_, rfl⟩

theorem parseDict_get {c : Nat} {ps vs : List (Str × Tree)} (h : parseDict v20 c ps = some vs) (k : Str) :
    Dict.get? vs k = (Dict.get? ps k).bind (parseAs v20 (.one c)) ∧
      (Dict.get? ps k ≠ none → Dict.get? vs k ≠ none) := by
  induction ps generalizing vs with
  | nil => rw [parseDict] at h; cases h; exact ⟨rfl, fun h => absurd rfl h⟩
  | cons x ps ih =>
    obtain ⟨n, v⟩ := x
    rw [parseDict] at h
    cases h1 : parseAs v20 (.one c) v with
    | none => rw [h1] at h; cases h
    | some w =>
      cases h2 : parseDict v20 c ps with
      | none => rw [h1, h2] at h; cases h
      | some rest =>
        rw [h1, h2] at h
        cases h
        by_cases hn : n = k
        · subst hn; simp [Dict.get?, h1]
        · have := ih h2
          simpa [Dict.get?, hn] using this

theorem parseList_get {c : Nat} {l vs : List Tree} (h : parseList v20 c l = some vs) :
    vs.length = l.length ∧ ∀ (i : Nat) j, l[i]? = some j → ∃ v, vs[i]? = some v ∧ parseAs v20 (.one c) j = some v := by
  induction l generalizing vs with
  | nil => rw [parseList] at h; cases h; exact ⟨rfl, fun i j h => by simp at h⟩
  | cons x l ih =>
    rw [parseList] at h
    cases h1 : parseAs v20 (.one c) x with
    | none => rw [h1] at h; cases h
    | some w =>
      cases h2 : parseList v20 c l with
      | none => rw [h1, h2] at h; cases h
      | some rest =>
        rw [h1, h2] at h
        cases h
        obtain ⟨a, b⟩ := ih h2
        refine ⟨by simp [a], fun i j hj => ?_⟩
        cases i with
        | zero => simp at hj; subst hj; exact ⟨w, by simp, h1⟩
        | succ i => simp at hj ⊢; exact b i j hj

theorem get_of_index {P : Tree → Tree → Prop} {d e : List (Str × Tree)} (hk : Dict.keys d = Dict.keys e)
    (h : ∀ (i : Nat) n v m w, d[i]? = some (n, v) → e[i]? = some (m, w) → P v w) (k : Str) :
    (Dict.get? d k = none → Dict.get? e k = none) ∧
      ∀ v, Dict.get? d k = some v → ∃ w, Dict.get? e k = some w ∧ P v w := by
  induction d generalizing e with
  | nil =>
    cases e with
    | nil => exact ⟨fun _ => rfl, fun v h => by cases h⟩
    | cons x e => simp [Dict.keys] at hk
  | cons x d ih =>
    cases e with
    | nil => simp [Dict.keys] at hk
    | cons y e =>
      obtain ⟨n, v⟩ := x
      obtain ⟨m, w⟩ := y
      simp only [Dict.keys, List.map_cons, List.cons.injEq] at hk
      obtain ⟨rfl, hk⟩ := hk
      have := ih (e := e) hk fun i n v m w h1 h2 => h (i + 1) n v m w (by simpa using h1) (by simpa using h2)
      by_cases hn : n = k
      · subst hn
        simp only [Dict.get?]
        simp only [if_true]
        exact ⟨fun h => by simp at h, fun v' hv => by
          have : v = v' := by simpa using hv
          subst this
          exact ⟨w, by simp, h 0 n v n w (by simp) (by simp)⟩⟩
      · simpa [Dict.get?, hn] using this

theorem named_get {P : Nat → Tree → Prop} {ms : List (Str × Nat)} {ts : List (Str × Tree)} (h : Named P ms ts) (k : Str) :
    (Dict.get? ts k = none → Dict.get? ms k = none) ∧
      ∀ t, Dict.get? ts k = some t → ∃ m, Dict.get? ms k = some m ∧ P m t := by
  induction h with
  | nil => exact ⟨fun _ => rfl, fun v h => by cases h⟩
  | @cons n m t ms ts hp _ ih =>
    by_cases hn : n = k
    · subst hn
      refine ⟨fun h => by simp [Dict.get?] at h, fun t' ht => ?_⟩
      have : t = t' := by simpa [Dict.get?] using ht
      subst this
      exact ⟨m, by simp [Dict.get?], hp⟩
    · simpa [Dict.get?, hn] using ih

theorem many_get {P : Nat → Tree → Prop} {ms : List Nat} {ts : List Tree} (h : Many P ms ts) :
    ms.length = ts.length ∧ ∀ (i : Nat) t, ts[i]? = some t → ∃ m, ms[i]? = some m ∧ P m t := by
  induction h with
  | nil => exact ⟨rfl, fun i j h => by simp at h⟩
  | @cons m t ms ts hp _ ih =>
    refine ⟨by simp [ih.1], fun i u hu => ?_⟩
    cases i with
    | zero => simp at hu; subst hu; exact ⟨m, by simp, hp⟩
    | succ i => simp at hu ⊢; exact ih.2 i u hu

/-! ## references -/

theorem deref_iff (hd : Derefs env ref) {n i : Nat} : env.deref n = .ok i ↔ ∃ k, Props.C09.EndsAt ref n i k := by
  have hd := hd n
  cases h : env.deref n with
  | ok m =>
    obtain ⟨fuel, g, hf⟩ := hd.1 m h
    have := Props.C09.C09_result_iff ref n i [] fuel _ hf
    constructor
    · intro hi; cases hi
      obtain ⟨k, hk, _⟩ := this.1 ⟨g, rfl⟩
      exact ⟨k, hk⟩
    · rintro ⟨k, hk⟩
      obtain ⟨g', hg⟩ := this.2 ⟨k, hk, fun _ _ _ _ h => by cases h⟩
      cases hg; rfl
  | error e =>
    obtain ⟨fuel, hf⟩ := hd.2 e h
    have := Props.C09.C09_result_iff ref n i [] fuel _ hf
    constructor
    · intro hi; cases hi
    · rintro ⟨k, hk⟩
      obtain ⟨g', hg⟩ := this.2 ⟨k, hk, fun _ _ _ _ h => by cases h⟩
      cases hg

theorem deref_self (hd : Derefs env ref) {n : Nat} (h : ref n = none) : env.deref n = .ok n :=
  (deref_iff hd).2 ⟨0, rfl, h⟩

theorem deref_next (hd : Derefs env ref) {n m : Nat} (h : ref n = some m) (i : Nat) :
    env.deref n = .ok i ↔ env.deref m = .ok i := by
  rw [deref_iff hd, deref_iff hd]
  constructor
  · rintro ⟨k, h1, h2⟩
    cases k with
    | zero => cases h1; rw [h] at h2; cases h2
    | succ k => exact ⟨k, by simpa [Props.C09.chain, h] using h1, h2⟩
  · rintro ⟨k, h1, h2⟩
    exact ⟨k + 1, by simpa [Props.C09.chain, h] using h1, h2⟩

end Proofs.Schemas
