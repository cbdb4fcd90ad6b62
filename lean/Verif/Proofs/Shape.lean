import Verif.Proofs.Placed
import Verif.Proofs.Merge
/-! # Lemmas for C83: what is read from a document has the usual shape -/

namespace Proofs.Shape
open Py Utils Tree _root_.Doc Spec.Merge Spec.Places Spec.Pointed Proofs.Doc Proofs.Placed

/-- `collectionFormat` is written with scalars only, inside a value -/
def Styles (k : Kind) (t : Tree) : Prop :=
  ∀ ts k' c q v, Place k t ts k' (.dict q) → Takes k' c → Dict.get? (v20 c).fields c!"collectionFormat" ≠ none →
    Dict.get? q c!"collectionFormat" = some v → ∃ a, v = .atom a

theorem shapedList_iff {c : Nat} {l : List Tree} :
    ShapedList v20 c l ↔ ∀ v ∈ l, v ≠ .atom .none ∧ Shaped v20 (.one c) v := by
  induction l with
  | nil => simp [ShapedList]
  | cons v l ih => rw [ShapedList, ih]; simp [and_assoc]

theorem shapedDict_iff {c : Nat} {l : List (Str × Tree)} :
    ShapedDict v20 c l ↔ ∀ x ∈ l, x.2 ≠ .atom .none ∧ Shaped v20 (.one c) x.2 := by
  induction l with
  | nil => simp [ShapedDict]
  | cons v l ih => obtain ⟨n, v⟩ := v; rw [ShapedDict, ih]; simp [and_assoc]

theorem shapedFields_iff {cls : Cls} {l : List (Str × Tree)} :
    ShapedFields v20 cls l ↔ ∀ x ∈ l, match Dict.get? cls.child x.1 with
      | none => Joins (defaultOf cls x.1) x.2
      | some k => Shaped v20 k x.2 := by
  induction l with
  | nil => simp [ShapedFields]
  | cons v l ih => obtain ⟨n, v⟩ := v; rw [ShapedFields, ih, List.forall_mem_cons]; exact Iff.rfl

/-- a default of a field with objects -/
def emptyChild (k : Kind) (t : Tree) : Bool :=
  match t, k with
  | .atom .none, _ => true
  | .atom (.bool _), .boolOr _ => true
  | .list [], .list _ => true
  | .dict [], .dict _ => true
  | _, _ => false

theorem emptyChild_shaped {k : Kind} {t : Tree} (h : emptyChild k t = true) : Shaped v20 k t := by
  unfold emptyChild at h
  split at h
  · simp [Shaped]
  · simp [Shaped]
  · simp [Shaped, ShapedList]
  · simp [Shaped, ShapedDict]
  · cases h

theorem grammar_shape (c : Nat) {n : Str} {dflt : Tree} (h : Dict.get? (v20 c).fields n = some dflt) :
    (∀ k, Dict.get? (v20 c).child n = some k → emptyChild k dflt = true) ∧
    (Dict.get? (v20 c).child n = none → n = c!"collectionFormat" ∨ falsy dflt = true) := by
  have key : ∀ c < 15, ((v20 c).fields.all fun x => match Dict.get? (v20 c).child x.1 with
      | some k => emptyChild k x.2
      | none => x.1 == c!"collectionFormat" || falsy x.2) = true := by decide +kernel
  by_cases hc : c < 15
  · have := List.all_eq_true.1 (key c hc) _ (Dict.mem_of_get? h)
    dsimp only at this
    constructor
    · intro k hk; rw [hk] at this; exact this
    · intro hk; rw [hk] at this; simpa using this
  · have : v20 c = ⟨[], []⟩ := by
      unfold v20
      rw [List.getD_eq_getElem?_getD, List.getElem?_eq_none (by simp [classes]; omega)]
      rfl
    rw [this] at h
    cases h

theorem defaultOf_field {c : Nat} {n : Str} {dflt : Tree} (h : Dict.get? (v20 c).fields n = some dflt) :
    defaultOf (v20 c) n = dflt := by
  unfold defaultOf
  rw [h]; rfl

theorem fields_keys {c : Nat} (d : List (Str × Tree)) :
    Dict.keys ((v20 c).fields.map fun f => (f.1, fieldOf v20 (v20 c) d f)) = Dict.keys (v20 c).fields := by
  unfold Dict.keys
  rw [List.map_map]
  rfl

theorem empty_shaped {k : Kind} {o : Tree} (h : emptyOf k = some o) : Shaped v20 k o := by
  cases k <;> cases h <;> simp [Shaped, ShapedList, ShapedDict]

theorem joins_atom (t : Tree) (a : Atom) : Joins t (.atom a) := ⟨fun _ h => (by cases h), fun _ h => (by cases h)⟩

theorem joins_falsy {t : Tree} (h : falsy t = true) (v : Tree) : Joins t v := 
  have h := (Proofs.Merge.nothing_iff t).1 h
  ⟨fun _ _ => .inl h, fun _ _ => .inl h⟩

theorem entries_shaped {k : Kind} {c : Nat} {d e : List (Str × Tree)} (hk : Takes k c)
    (he : parseEntries v20 (v20 c) d = some e) (hr : Styles k (.dict d))
    (ih : ∀ x ∈ d, ∀ k' w, Styles k' x.2 → parseAs v20 k' x.2 = some w → Shaped v20 k' w) :
    ShapedFields v20 (v20 c) ((v20 c).fields.map fun f => (f.1, fieldOf v20 (v20 c) d f)) := by
  rw [shapedFields_iff]
  intro x hx
  obtain ⟨⟨n, dflt⟩, hf, rfl⟩ := List.mem_map.1 hx
  have hdf : Dict.get? (v20 c).fields n = some dflt := Dict.get?_of_mem (Props.C42.C42_grammar c).1 hf
  obtain ⟨g1, g2⟩ := grammar_shape c hdf
  dsimp only
  cases hc : Dict.get? (v20 c).child n with
  | none =>
    dsimp only
    rw [defaultOf_field hdf]
    rcases g2 hc with rfl | hfalsy
    · unfold fieldOf
      dsimp only
      cases hd : Dict.get? d c!"collectionFormat" with
      | none =>
        rw [Option.bind_none, hc]
        dsimp only
        obtain ⟨h1, -⟩ := grammar_shape c hdf
        have key : ∀ c < 15, ((v20 c).fields.all fun x => match x.2 with
          | .atom _ => true
          | .list [] => true
          | .dict [] => true
          | _ => false) = true := by decide +kernel
        by_cases hlt : c < 15
        · have := List.all_eq_true.1 (key c hlt) _ hf
          dsimp only at this
          split at this
          · exact joins_atom _ _
          · exact joins_falsy rfl _
          · exact joins_falsy rfl _
          · cases this
        · have : v20 c = ⟨[], []⟩ := by
            unfold v20
            rw [List.getD_eq_getElem?_getD, List.getElem?_eq_none (by simp [classes]; omega)]
            rfl
          rw [this] at hdf
          cases hdf
      | some v =>
        have : parseField v20 (v20 c) c!"collectionFormat" v = some v := by unfold parseField; rw [hc]
        rw [Option.bind_some, this]
        dsimp only
        obtain ⟨a, rfl⟩ := hr [] k c d v .here hk (by rw [hdf]; simp) hd
        exact joins_atom _ _
    · exact joins_falsy hfalsy _
  | some k' =>
    dsimp only
    unfold fieldOf
    dsimp only
    cases hd : Dict.get? d n with
    | none =>
      rw [Option.bind_none, hc, Option.bind_some]
      dsimp only
      cases hem : emptyOf k' with
      | none => exact emptyChild_shaped (g1 k' hc)
      | some o => exact empty_shaped hem
    | some v =>
      have hmem := Dict.mem_of_get? hd
      rw [Option.bind_some]
      obtain ⟨w, hw⟩ := parseEntries_some.1 ⟨e, he⟩ n v hmem
      rw [hw]
      dsimp only
      unfold parseField at hw
      rw [hc] at hw
      dsimp only at hw
      split at hw
      · next hnull =>
        cases hem : emptyOf k' with
        | none =>
          rw [hem] at hw
          cases hw
          rw [Option.getD_none]
          cases v with
          | atom a => cases a <;> first | (simp [Shaped]; done) | cases hnull
          | _ => cases hnull
        | some o => rw [hem] at hw; cases hw; exact empty_shaped hem
      · exact ih (n, v) hmem k' w (fun ts k'' c' q x h => hr (n :: ts) k'' c' q x (.field hk hd hc h)) hw

theorem parse_one_obj {c : Nat} {t v : Tree} (h : parseAs v20 (.one c) t = some v) : v ≠ .atom .none := by
  cases t with
  | atom a => cases a <;> simp [parseAs, parseAtom] at h; subst h; simp
  | list l => simp [parseAs] at h
  | dict d => rw [parseAs_takes (.inl rfl)] at h; obtain ⟨e, -, rfl⟩ := parse_fields h; simp
  | obj c' fs => rw [parseAs] at h; cases h

mutual
theorem shaped_parse : ∀ (D : Tree) (k : Kind) (T : Tree), Plain D → Styles k D → parseAs v20 k D = some T →
    Shaped v20 k T
  | .atom a, k, T, _, _, h => by
    rw [parseAs] at h
    unfold parseAtom at h
    split at h
    · next c _ _ =>
      cases h
      simp only [Shaped, true_and]
      rw [shapedFields_iff]
      intro x hx
      have hdf : Dict.get? (v20 c).fields x.1 = some x.2 := Dict.get?_of_mem (Props.C42.C42_grammar c).1 hx
      obtain ⟨g1, g2⟩ := grammar_shape c hdf
      cases hc : Dict.get? (v20 c).child x.1 with
      | some k => exact emptyChild_shaped (g1 k hc)
      | none =>
        dsimp only
        rw [defaultOf_field hdf]
        constructor
        · intro l hl; exact .inr ⟨l, hl⟩
        · intro l hl; exact .inr ⟨l, hl⟩
    · cases h; simp [Shaped]
    · cases h; simp [Shaped, ShapedList]
    · cases h
  | .list l, k, T, hp, hr, h => by
    cases k with
    | list c =>
      rw [parseAs] at h
      cases hl : parseList v20 c l with
      | none => rw [hl] at h; cases h
      | some l' =>
        rw [hl] at h; cases h
        rw [Plain] at hp
        simp only [Shaped]
        rw [shapedList_iff]
        intro t ht
        obtain ⟨i, hi, hti⟩ := List.getElem_of_mem ht
        obtain ⟨hlen, hget⟩ := parseList_get hl
        have hi' : i < l.length := by omega
        obtain ⟨w, h1, h2⟩ := hget i l[i] (List.getElem?_eq_getElem hi')
        rw [List.getElem?_eq_getElem hi, hti] at h2
        cases h2
        exact ⟨parse_one_obj h1, shaped_list l _ (List.getElem_mem hi') (.one c) t (plainList_iff.1 hp _ (List.getElem_mem hi'))
          (fun ts k' c' q v h => hr (natStr i :: ts) k' c' q v (.item (List.getElem?_eq_getElem hi') h)) h1⟩
    | _ => simp [parseAs] at h
  | .dict d, k, T, hp, hr, h => by
    rw [Plain] at hp
    obtain ⟨hnd, hp⟩ := hp
    have ih : ∀ x ∈ d, ∀ k' w, Styles k' x.2 → parseAs v20 k' x.2 = some w → Shaped v20 k' w :=
      fun x hx k' w h1 h2 => shaped_dict d x hx k' w (plainDict_iff.1 hp _ hx) h1 h2
    cases k with
    | one c =>
      obtain ⟨e, he, rfl⟩ := parse_fields h
      simp only [Shaped]
      exact ⟨trivial, fields_keys d, entries_shaped (.inl rfl) he hr ih⟩
    | boolOr c =>
      rw [parseAs_takes (.inr rfl)] at h
      obtain ⟨e, he, rfl⟩ := parse_fields h
      simp only [Shaped]
      exact ⟨trivial, fields_keys d, entries_shaped (.inr rfl) he hr ih⟩
    | list c =>
      rw [parseAs] at h
      split at h
      · cases h; simp [Shaped, ShapedList]
      · cases h
    | dict c =>
      rw [parseAs] at h
      cases hl : parseDict v20 c d with
      | none => rw [hl] at h; cases h
      | some l' =>
        rw [hl] at h; cases h
        simp only [Shaped]
        rw [shapedDict_iff]
        intro y hy
        obtain ⟨x, hx, h1, h2⟩ := parseDict_mem hl hy
        exact ⟨parse_one_obj h2,
          ih x hx (.one c) y.2 (fun ts k' c' q v h => hr (x.1 :: ts) k' c' q v (.key (Dict.get?_of_mem hnd hx) h)) h2⟩
  | .obj _ _, _, _, hp, _, _ => hp.elim
theorem shaped_list : ∀ (l : List Tree), ∀ D ∈ l, ∀ (k : Kind) (T : Tree), Plain D → Styles k D →
    parseAs v20 k D = some T → Shaped v20 k T
  | t :: l, D, hD, k, T => by
    rcases List.mem_cons.1 hD with h | h
    · rw [h]; exact shaped_parse t k T
    · exact shaped_list l D h k T
theorem shaped_dict : ∀ (l : List (Str × Tree)), ∀ x ∈ l, ∀ (k : Kind) (T : Tree), Plain x.2 → Styles k x.2 →
    parseAs v20 k x.2 = some T → Shaped v20 k T
  | (n, t) :: l, x, hx, k, T => by
    rcases List.mem_cons.1 hx with h | h
    · rw [h]; exact shaped_parse t k T
    · exact shaped_dict l x h k T
end

end Proofs.Shape
