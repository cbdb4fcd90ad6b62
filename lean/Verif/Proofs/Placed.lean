import Verif.Proofs.Loaded
import Verif.Proofs.Scan
/-! # Lemmas for C82: places of a document and of its objects -/

namespace Proofs.Placed
open Py Utils Tree _root_.Doc Spec.Places Spec.Pointed _root_.Loaded Proofs.Loaded Proofs.Doc

/-! ## what is read from a place -/

theorem parseAs_takes {k : Kind} {c : Nat} (h : Takes k c) (d : List (Str × Tree)) :
    parseAs v20 k (.dict d) = parse v20 c (.dict d) := by
  rcases h with rfl | rfl <;> rfl

theorem parse_fields {c : Nat} {d : List (Str × Tree)} {T : Tree} (h : parse v20 c (.dict d) = some T) :
    ∃ e, parseEntries v20 (v20 c) d = some e ∧ T = .obj c ((v20 c).fields.map fun f => (f.1, fieldOf v20 (v20 c) d f)) := by
  unfold parse at h
  rw [parseAs] at h
  cases he : parseEntries v20 (v20 c) d with
  | none => rw [he] at h; cases h
  | some e =>
    rw [he] at h
    cases h
    exact ⟨e, rfl, by dsimp only; rw [assemble_eq he]⟩

theorem get_fieldOf {c : Nat} (d : List (Str × Tree)) (n : Str) :
    Dict.get? ((v20 c).fields.map fun f => (f.1, fieldOf v20 (v20 c) d f)) n =
      (Dict.get? (v20 c).fields n).map fun dflt => fieldOf v20 (v20 c) d (n, dflt) := by
  generalize v20 c = cls
  generalize hfs : cls.fields = fs
  clear hfs
  induction fs with
  | nil => rfl
  | cons x fs ih =>
    obtain ⟨k, t⟩ := x
    rw [List.map_cons]
    unfold Dict.get?
    dsimp only
    by_cases hk : k = n
    · subst hk; rw [if_pos rfl, if_pos rfl]; rfl
    · rw [if_neg hk, if_neg hk]; exact ih

theorem child_field {c : Nat} {n : Str} {k : Kind} (h : Dict.get? (v20 c).child n = some k) :
    ∃ dflt, Dict.get? (v20 c).fields n = some dflt := by
  have := (Props.C42.C42_grammar c).2.1 n ((Dict.get?_isSome_iff _ _).1 (by rw [h]; rfl))
  exact Option.isSome_iff_exists.1 ((Dict.get?_isSome_iff _ _).2 this)

/-- a field with objects that is written -/
theorem fieldOf_child {c : Nat} {d e : List (Str × Tree)} (he : parseEntries v20 (v20 c) d = some e) {n : Str} {v : Tree}
    {k : Kind} (hd : Dict.get? d n = some v) (hk : Dict.get? (v20 c).child n = some k) (hn : isNull v = false) (dflt : Tree) :
    ∃ w, parseAs v20 k v = some w ∧ fieldOf v20 (v20 c) d (n, dflt) = w := by
  obtain ⟨w, hw⟩ := parseEntries_some.1 ⟨e, he⟩ n v (Dict.mem_of_get? hd)
  have hw' : parseAs v20 k v = some w := by
    unfold parseField at hw
    rw [hk] at hw
    dsimp only at hw
    rwa [hn] at hw
  refine ⟨w, hw', ?_⟩
  unfold fieldOf
  dsimp only
  rw [hd, Option.bind_some, hw]

theorem parseList_get {c : Nat} : ∀ {l l' : List Tree}, parseList v20 c l = some l' → l'.length = l.length ∧
    ∀ (i : Nat) v, l[i]? = some v → ∃ w, parseAs v20 (.one c) v = some w ∧ l'[i]? = some w
  | [], l', h => by rw [parseList] at h; cases h; exact ⟨rfl, fun i v h => by simp at h⟩
  | t :: l, l', h => by
    rw [parseList] at h
    split at h
    · next w rest h1 h2 =>
      cases h
      obtain ⟨h3, h4⟩ := parseList_get h2
      refine ⟨by simp [h3], fun i v hv => ?_⟩
      cases i with
      | zero => simp only [List.getElem?_cons_zero, Option.some.injEq] at hv; subst hv; exact ⟨w, h1, rfl⟩
      | succ i => simp only [List.getElem?_cons_succ] at hv ⊢; exact h4 i v hv
    · cases h

theorem parseDict_get {c : Nat} : ∀ {l l' : List (Str × Tree)}, parseDict v20 c l = some l' → ∀ n,
    (Dict.get? l n = none → Dict.get? l' n = none) ∧
    ∀ v, Dict.get? l n = some v → ∃ w, parseAs v20 (.one c) v = some w ∧ Dict.get? l' n = some w
  | [], l', h, n => by rw [parseDict] at h; cases h; exact ⟨fun _ => rfl, fun v h => by cases h⟩
  | (k, t) :: l, l', h, n => by
    rw [parseDict] at h
    split at h
    · next w rest h1 h2 =>
      cases h
      obtain ⟨h3, h4⟩ := parseDict_get h2 n
      unfold Dict.get?
      by_cases hk : k = n
      · rw [if_pos hk, if_pos hk]
        exact ⟨fun h => (by cases h), fun v hv => (by cases hv; exact ⟨w, h1, rfl⟩)⟩
      · rw [if_neg hk, if_neg hk]; exact ⟨h3, h4⟩
    · cases h

theorem parseDict_mem {c : Nat} : ∀ {l l' : List (Str × Tree)}, parseDict v20 c l = some l' → ∀ {y}, y ∈ l' →
    ∃ x ∈ l, x.1 = y.1 ∧ parseAs v20 (.one c) x.2 = some y.2
  | [], l', h, y, hy => by rw [parseDict] at h; cases h; cases hy
  | (k, t) :: l, l', h, y, hy => by
    rw [parseDict] at h
    split at h
    · next w rest h1 h2 =>
      cases h
      rcases List.mem_cons.1 hy with rfl | hy
      · exact ⟨(k, t), List.mem_cons_self .., rfl, h1⟩
      · obtain ⟨x, hx, h3⟩ := parseDict_mem h2 hy
        exact ⟨x, List.mem_cons_of_mem _ hx, h3⟩
    · cases h

theorem place_not_null {k k' : Kind} {v u : Tree} {ts : List Str} (h : Place k v ts k' u) (hu : isNull u = false) :
    isNull v = false := by
  cases h with
  | here => exact hu
  | _ => rfl

theorem pyIndex_nat (l : List Tree) (i : Nat) : pyIndex l (i : Int) = l[i]? := by simp [pyIndex]

/-- the object read from a place of the document is at the same place of the objects -/
theorem place_parse {k k' : Kind} {D u : Tree} {ts : List Str} (h : Place k D ts k' u) (hu : isNull u = false) {T : Tree}
    (hT : parseAs v20 k D = some T) : ∃ t, parseAs v20 k' u = some t ∧ Tree.resolve ts T = .ok t ∧ locate ts T = ts := by
  induction h generalizing T with
  | here => exact ⟨T, hT, by rw [Tree.resolve], by rw [locate]⟩
  | @field k c d n v k' ts k'' u htk hd hk hp ih =>
    rw [parseAs_takes htk] at hT
    obtain ⟨e, he, rfl⟩ := parse_fields hT
    obtain ⟨dflt, hdf⟩ := child_field hk
    obtain ⟨w, hw, hfo⟩ := fieldOf_child he hd hk (place_not_null hp hu) dflt
    obtain ⟨t, h1, h2, h3⟩ := ih hu hw
    refine ⟨t, h1, ?_, ?_⟩
    · rw [Tree.resolve, get_fieldOf, hdf, Option.map_some, hfo]; exact h2
    · rw [locate, get_fieldOf, hdf, Option.map_some, hfo]; simp only [h3]
  | @item c l i v ts k' u hi _ ih =>
    rw [parseAs] at hT
    cases hl : parseList v20 c l with
    | none => rw [hl] at hT; cases hT
    | some l' =>
      rw [hl] at hT; cases hT
      obtain ⟨w, h1, h2⟩ := (parseList_get hl).2 i v hi
      obtain ⟨t, h3, h4, h5⟩ := ih hu h1
      refine ⟨t, h3, ?_, ?_⟩
      · rw [Tree.resolve, intOf_natStr]
        dsimp only
        rw [pyIndex_nat, h2]; exact h4
      · rw [locate, intOf_natStr]
        dsimp only
        rw [pyIndex_nat, h2]
        simp [h5]
  | @key c d n v ts k' u hn _ ih =>
    rw [parseAs] at hT
    cases hl : parseDict v20 c d with
    | none => rw [hl] at hT; cases hT
    | some l' =>
      rw [hl] at hT; cases hT
      obtain ⟨w, h1, h2⟩ := (parseDict_get hl n).2 v hn
      obtain ⟨t, h3, h4, h5⟩ := ih hu h1
      refine ⟨t, h3, ?_, ?_⟩
      · rw [Tree.resolve, h2]; exact h4
      · rw [locate, h2]; simp only [h5]

theorem written_parse {D T : Tree} (hT : parse v20 cSwagger D = some T) {ts : List Str} {c : Nat} {q : Dict Str Tree}
    (h : Written D ts c q) : ∃ fs, parse v20 c (.dict q) = some (.obj c fs) ∧ Tree.resolve ts T = .ok (.obj c fs) ∧
      locate ts T = ts := by
  obtain ⟨k, hk, hp⟩ := h
  obtain ⟨t, h1, h2, h3⟩ := place_parse hp rfl hT
  rw [parseAs_takes hk] at h1
  obtain ⟨e, -, rfl⟩ := parse_fields h1
  exact ⟨_, h1, h2, h3⟩

/-! ## every reference that is read is written in the document -/

theorem plain_filled_all : (∀ t : Tree, Plain t → ∀ P, Filled P t) := by
  intro t
  exact go t
where
  go : ∀ t : Tree, Plain t → ∀ P, Filled P t
    | .atom _, _, _ => trivial
    | .list l, h, P => by rw [Plain] at h; rw [Filled]; exact goL l h P
    | .dict d, h, P => by rw [Plain] at h; rw [Filled]; exact goD d h.2 P
    | .obj _ _, h, _ => h.elim
  goL : ∀ l : List Tree, PlainList l → ∀ P, FilledList P l
    | [], _, _ => trivial
    | t :: l, h, P => by rw [PlainList] at h; exact ⟨go t h.1 P, goL l h.2 P⟩
  goD : ∀ l : List (Str × Tree), PlainDict l → ∀ P, FilledDict P l
    | [], _, _ => trivial
    | (k, t) :: l, h, P => by rw [PlainDict] at h; exact ⟨go t h.1 P, goD l h.2 P⟩

theorem plainList_iff {l : List Tree} : PlainList l ↔ ∀ t ∈ l, Plain t := by
  induction l with
  | nil => simp [PlainList]
  | cons t l ih => simp [PlainList, ih]

theorem plainDict_iff {l : List (Str × Tree)} : PlainDict l ↔ ∀ x ∈ l, Plain x.2 := by
  induction l with
  | nil => simp [PlainDict]
  | cons x l ih => obtain ⟨k, t⟩ := x; rw [PlainDict, ih]; simp

/-- the references at the places of a value -/
def Refs (P : Str → Prop) (k : Kind) (D : Tree) : Prop :=
  ∀ ts k' c q v, Place k D ts k' (.dict q) → Takes k' c → Dict.get? (v20 c).fields c!"$ref" ≠ none →
    Dict.get? q c!"$ref" = some v → ∃ r, r ≠ [] ∧ P r ∧ v = .atom (.str r)

theorem empty_filled {P : Str → Prop} {k : Kind} {o : Tree} (h : emptyOf k = some o) : Filled P o := by
  cases k <;> cases h <;> trivial

theorem default_filled {P : Str → Prop} {c : Nat} {n : Str} {dflt : Tree} (h : Dict.get? (v20 c).fields n = some dflt) :
    Filled P dflt := by
  have key : ∀ c < 15, ((v20 c).fields.all fun x => match x.2 with
          | .atom _ => true
          | .list [] => true
          | .dict [] => true
          | _ => false) = true := by decide +kernel
  by_cases hc : c < 15
  · have := List.all_eq_true.1 (key c hc) _ (Dict.mem_of_get? h)
    dsimp only at this
    split at this
    · trivial
    · trivial
    · trivial
    · cases this
  · have : v20 c = ⟨[], []⟩ := by
      unfold v20
      rw [List.getD_eq_getElem?_getD, List.getElem?_eq_none (by simp [classes]; omega)]
      rfl
    rw [this] at h; cases h

theorem entries_filled {P : Str → Prop} {k : Kind} {c : Nat} (hk : Takes k c) {d e : List (Str × Tree)}
    (he : parseEntries v20 (v20 c) d = some e) (hp : PlainDict d) (hr : Refs P k (.dict d))
    (ih : ∀ x ∈ d, ∀ k' w, Refs P k' x.2 → parseAs v20 k' x.2 = some w → Filled P w) :
    Filled P (.obj c ((v20 c).fields.map fun f => (f.1, fieldOf v20 (v20 c) d f))) := by
  rw [Filled, filledFields_iff]
  intro x hx
  obtain ⟨⟨n, dflt⟩, hf, rfl⟩ := List.mem_map.1 hx
  have hdf : Dict.get? (v20 c).fields n = some dflt := Dict.get?_of_mem (Props.C42.C42_grammar c).1 hf
  obtain ⟨-, hg2, hg3⟩ := grammar_refs (f := id) c
  dsimp only
  constructor
  · rintro rfl
    obtain ⟨rfl, hmem⟩ := hg2 dflt hdf
    refine ⟨by simpa using hmem, ?_⟩
    unfold fieldOf
    dsimp only
    rw [hg3]
    cases hd : Dict.get? d c!"$ref" with
    | none => exact .inl rfl
    | some v =>
      have : parseField v20 (v20 c) c!"$ref" v = some v := by unfold parseField; rw [hg3]
      rw [Option.bind_some, this]
      exact .inr (hr [] k c d v .here hk (by rw [hdf]; simp) hd)
  · intro hn
    unfold fieldOf
    dsimp only
    cases hd : Dict.get? d n with
    | none =>
      rw [Option.bind_none]
      dsimp only
      cases hc : Dict.get? (v20 c).child n with
      | none => exact default_filled hdf
      | some k' =>
        rw [Option.bind_some]
        cases hem : emptyOf k' with
        | none => exact default_filled hdf
        | some o => exact empty_filled hem
    | some v =>
      have hmem := Dict.mem_of_get? hd
      rw [Option.bind_some]
      obtain ⟨w, hw⟩ := parseEntries_some.1 ⟨e, he⟩ n v hmem
      rw [hw]
      dsimp only
      unfold parseField at hw
      cases hc : Dict.get? (v20 c).child n with
      | none =>
        rw [hc] at hw; cases hw
        exact plain_filled_all _ (plainDict_iff.1 hp _ hmem) P
      | some k' =>
        rw [hc] at hw
        dsimp only at hw
        split at hw
        · cases hem : emptyOf k' with
          | none => rw [hem] at hw; cases hw; exact plain_filled_all _ (plainDict_iff.1 hp _ hmem) P
          | some o => rw [hem] at hw; cases hw; exact empty_filled hem
        · exact ih (n, v) hmem k' w (fun ts k'' c' q x h => hr (n :: ts) k'' c' q x (.field hk hd hc h)) hw

mutual
theorem filled_parse {P : Str → Prop} : ∀ (D : Tree) (k : Kind) (T : Tree), Plain D → Refs P k D → parseAs v20 k D = some T →
    Filled P T
  | .atom a, k, T, _, _, h => by
    rw [parseAs] at h
    unfold parseAtom at h
    split at h
    · next c _ _ =>
      cases h
      rw [Filled, filledFields_iff]
      intro x hx
      have hdf : Dict.get? (v20 c).fields x.1 = some x.2 := Dict.get?_of_mem (Props.C42.C42_grammar c).1 hx
      refine ⟨fun hn => ?_, fun _ => default_filled hdf⟩
      rw [hn] at hdf
      obtain ⟨h1, h2⟩ := (grammar_refs (f := id) c).2.1 _ hdf
      exact ⟨by simpa using h2, .inl h1⟩
    · cases h; trivial
    · cases h; trivial
    · cases h
  | .list l, k, T, hp, hr, h => by
    cases k with
    | list c =>
      rw [parseAs] at h
      cases hl : parseList v20 c l with
      | none => rw [hl] at h; cases h
      | some l' =>
        rw [hl] at h; cases h
        rw [Plain] at hp
        rw [Filled, filledList_iff]
        intro t ht
        obtain ⟨i, hi, hti⟩ := List.getElem_of_mem ht
        obtain ⟨hlen, hget⟩ := parseList_get hl
        have hi' : i < l.length := by omega
        obtain ⟨w, h1, h2⟩ := hget i l[i] (List.getElem?_eq_getElem hi')
        rw [List.getElem?_eq_getElem hi, hti] at h2
        cases h2
        exact filled_list l _ (List.getElem_mem hi') (.one c) t (plainList_iff.1 hp _ (List.getElem_mem hi'))
          (fun ts k' c' q v h => hr (natStr i :: ts) k' c' q v (.item (List.getElem?_eq_getElem hi') h)) h1
    | _ => simp [parseAs] at h
  | .dict d, k, T, hp, hr, h => by
    rw [Plain] at hp
    obtain ⟨hnd, hp⟩ := hp
    have ih : ∀ x ∈ d, ∀ k' w, Refs P k' x.2 → parseAs v20 k' x.2 = some w → Filled P w :=
      fun x hx k' w h1 h2 => filled_dict d x hx k' w (plainDict_iff.1 hp _ hx) h1 h2
    cases k with
    | one c =>
      obtain ⟨e, he, rfl⟩ := parse_fields h
      exact entries_filled (.inl rfl) he hp hr ih
    | boolOr c =>
      rw [parseAs_takes (.inr rfl)] at h
      obtain ⟨e, he, rfl⟩ := parse_fields h
      exact entries_filled (.inr rfl) he hp hr ih
    | list c =>
      rw [parseAs] at h
      split at h
      · cases h; trivial
      · cases h
    | dict c =>
      rw [parseAs] at h
      cases hl : parseDict v20 c d with
      | none => rw [hl] at h; cases h
      | some l' =>
        rw [hl] at h; cases h
        rw [Filled]
        rw [filledDict_iff]
        intro y hy
        obtain ⟨x, hx, h1, h2⟩ := parseDict_mem hl hy
        exact ih x hx (.one c) y.2 (fun ts k' c' q v h => hr (x.1 :: ts) k' c' q v (.key (Dict.get?_of_mem hnd hx) h)) h2
  | .obj _ _, _, _, hp, _, _ => hp.elim
theorem filled_list {P : Str → Prop} : ∀ (l : List Tree), ∀ D ∈ l, ∀ (k : Kind) (T : Tree), Plain D → Refs P k D →
    parseAs v20 k D = some T → Filled P T
  | t :: l, D, hD, k, T => by
    rcases List.mem_cons.1 hD with h | h
    · rw [h]; exact filled_parse t k T
    · exact filled_list l D h k T
theorem filled_dict {P : Str → Prop} : ∀ (l : List (Str × Tree)), ∀ x ∈ l, ∀ (k : Kind) (T : Tree), Plain x.2 → Refs P k x.2 →
    parseAs v20 k x.2 = some T → Filled P T
  | (n, t) :: l, x, hx, k, T => by
    rcases List.mem_cons.1 hx with h | h
    · rw [h]; exact filled_parse t k T
    · exact filled_dict l x h k T
end

/-! ## places and references made absolute -/

theorem resolve_atom (a : Atom) : ∀ ts : List Str, Tree.resolve ts (.atom a) = .ok (.atom a)
  | [] => by rw [Tree.resolve]
  | _ :: ts => by rw [Tree.resolve]; exact resolve_atom a ts

theorem locate_atom (a : Atom) (ts : List Str) : locate ts (.atom a) = [] := by
  cases ts <;> rw [locate]

theorem pyIndex_map (f : Str → Str) (l : List Tree) (i : Int) :
    pyIndex (mapList f l) i = (pyIndex l i).map (mapRefs f) := by
  unfold pyIndex
  rw [mapList_eq, List.length_map]
  split
  · rw [List.getElem?_map]
  · split
    · rw [List.getElem?_map]
    · rfl

theorem pyIndex_mem {l : List Tree} {i : Int} {v : Tree} (h : pyIndex l i = some v) : v ∈ l := by
  unfold pyIndex at h
  split at h
  · exact List.mem_of_getElem? h
  · split at h
    · exact List.mem_of_getElem? h
    · cases h

variable {f : Str → Str} {P : Str → Prop}

theorem resolve_map : ∀ (ts : List Str) (t : Tree), Filled P t →
    (Tree.resolve ts (mapRefs f t) = (Tree.resolve ts t).map (mapRefs f) ∨
      ∃ r, Tree.resolve ts t = .ok (.atom (.str r)) ∧ Tree.resolve ts (mapRefs f t) = .ok (.atom (.str (f r)))) ∧
    locate ts (mapRefs f t) = locate ts t
  | [], t, _ => by
    refine ⟨.inl ?_, by rw [locate, locate]⟩
    rw [Tree.resolve, Tree.resolve]; rfl
  | n :: ts, .atom a, _ => by
    rw [mapRefs]
    exact ⟨.inl (by rw [resolve_atom]; rfl), rfl⟩
  | n :: ts, .obj c fs, h => by
    rw [mapRefs, Tree.resolve, Tree.resolve, locate, locate, get_mapFields]
    cases hv : Dict.get? fs n with
    | none => exact ⟨.inl rfl, rfl⟩
    | some v =>
      rw [Option.map_some]
      dsimp only
      rw [Filled, filledFields_iff] at h
      obtain ⟨h1, h2⟩ := h _ (Dict.mem_of_get? hv)
      by_cases hn : n = c!"$ref"
      · unfold mapField
        rw [if_pos hn]
        rcases (h1 hn).2 with h3 | ⟨r, -, -, h3⟩
        · dsimp only at h3
          subst h3
          exact ⟨.inl (by rw [show mapRef f (.atom .none) = .atom .none from rfl, resolve_atom]; rfl), rfl⟩
        · dsimp only at h3
          subst h3
          rw [mapRef]
          exact ⟨.inr ⟨r, resolve_atom _ _, resolve_atom _ _⟩, by rw [locate_atom, locate_atom]⟩
      · unfold mapField
        rw [if_neg hn]
        obtain ⟨h3, h4⟩ := resolve_map ts v (h2 hn)
        exact ⟨h3, by rw [h4]⟩
  | n :: ts, .list l, h => by
    rw [mapRefs, Tree.resolve, Tree.resolve, locate, locate]
    cases intOf? n with
    | none => exact ⟨.inl rfl, rfl⟩
    | some i =>
      dsimp only
      rw [pyIndex_map]
      cases hv : pyIndex l i with
      | none => exact ⟨.inl rfl, rfl⟩
      | some v =>
        rw [Option.map_some]
        dsimp only
        rw [Filled, filledList_iff] at h
        obtain ⟨h3, h4⟩ := resolve_map ts v (h _ (pyIndex_mem hv))
        exact ⟨h3, by rw [h4, mapList_eq, List.length_map]⟩
  | n :: ts, .dict d, h => by
    rw [mapRefs, Tree.resolve, Tree.resolve, locate, locate, get_mapDict]
    cases hv : Dict.get? d n with
    | none => exact ⟨.inl rfl, rfl⟩
    | some v =>
      rw [Option.map_some]
      dsimp only
      rw [Filled, filledDict_iff] at h
      obtain ⟨h3, h4⟩ := resolve_map ts v (h _ (Dict.mem_of_get? hv))
      exact ⟨h3, by rw [h4]⟩

theorem find_map {o : Outside} {url : Str} {T : Tree} (h : Filled P T) (r : Str) :
    find o url (mapRefs f T) r = find o url T r := by
  unfold find
  split
  · rfl
  · split
    · rfl
    · next u jp _ =>
      split
      · obtain ⟨h1, h2⟩ := resolve_map (f := f) (jp_split (some jp)).tail T h
        rw [h2]
        rcases h1 with h1 | ⟨r, h1, h3⟩
        · rw [h1]
          cases Tree.resolve (jp_split (some jp)).tail T with
          | error e => rfl
          | ok t =>
            cases t with
            | atom a => rfl
            | _ => rfl
        · rw [h1, h3]; rfl
      · rfl

/-- the object at a place -/
theorem object_map {T : Tree} (h : Filled P T) {ts : List Str} {c : Nat} {fs : List (Str × Tree)} :
    Tree.resolve ts T = .ok (.obj c fs) → Tree.resolve ts (mapRefs f T) = .ok (mapRefs f (.obj c fs)) := by
  intro hr
  rcases (resolve_map (f := f) ts T h).1 with h1 | ⟨r, h1, -⟩
  · rw [h1, hr]; rfl
  · rw [hr] at h1; cases h1

/-! ## references of the document -/

section
variable {p : Url} {D T : Tree} {url : Str}

theorem pointer_cons {ts : List Str} (h : ts ≠ []) : ∃ g, g ≠ [] ∧ pointer ts = '#' :: g := by
  cases ts with
  | nil => exact absurd rfl h
  | cons t ts => exact ⟨_, by simp, rfl⟩

theorem url_facts (hc : Canon p) (hf : p.fragment = []) : (urlparse (urlunparse p)).scheme ≠ [] ∧ '#' ∉ urlunparse p ∧
    urlunparse p ≠ [] := by
  refine ⟨by rw [urlparse_urlunparse hc]; exact hc.scheme_ne, ?_, by rw [urlunparse_canon hc]; simp⟩
  rw [urlunparse_canon hc, hf]
  have h1 : '#' ∉ p.scheme := fun h => absurd (List.all_eq_true.1 hc.scheme_chars _ h) (by decide)
  have h2 : '#' ∉ p.netloc := fun h => absurd (hc.netloc_ok _ h) (by decide)
  have h3 := hc.path_frag
  have h4 := hc.params_frag
  have h5 := hc.query_frag
  simp only [List.mem_append, not_or]
  refine ⟨⟨⟨⟨⟨⟨h1, by decide⟩, h2⟩, h3⟩, ?_⟩, ?_⟩, by simp⟩
  · split <;> simp [h4]
  · split <;> simp [h5]

theorem absolute_named (hc : Canon p) (hf : p.fragment = []) {r : Str} {ts : List Str} (h : Names (urlunparse p) r ts) :
    absolute (urlunparse p) r = urlunparse p ++ pointer ts := by
  obtain ⟨hs, hh, hu⟩ := url_facts hc hf
  obtain ⟨hne, h⟩ := h
  obtain ⟨g, hg, hp⟩ := pointer_cons hne
  unfold absolute
  rcases h with rfl | rfl
  · rw [if_neg (by rw [hp]; simp), hp]
    have := Props.C10.C10_local (some g) hu
    unfold Props.C10.ref Props.C10.withFrag at this
    simp only [List.nil_append, Option.getD_some, if_neg hg] at this
    rw [this]
  · rw [if_neg (by rw [hp]; simp), hp]
    have := Props.C10.C10_absolute (some g) (some (urlunparse p)) hh hs
    unfold Props.C10.ref Props.C10.withFrag at this
    simp only [Option.getD_some, if_neg hg] at this
    rw [this]

theorem find_named (hc : Canon p) (hf : p.fragment = []) (o : Outside) (hT : parse v20 cSwagger D = some T) {r : Str}
    {ts : List Str} {c : Nat} {q : Dict Str Tree} (hn : Names (urlunparse p) r ts) (hw : Written D ts c q) :
    find o (urlunparse p) T (absolute (urlunparse p) r) = .ok (o.num ts) := by
  obtain ⟨g, hg, hp⟩ := pointer_cons hn.1
  rw [absolute_named hc hf hn]
  unfold find
  rw [if_neg (by rw [hp]; simp)]
  have := Props.C10.C10_split o.path2url o.abspath hc hf g
  unfold Props.C10.withFrag at this
  simp only [Option.getD_some, if_neg hg] at this
  rw [hp, this]
  dsimp only
  rw [if_pos rfl, ← hp, Proofs.ScanTree.split_pointer, List.tail_cons]
  obtain ⟨fs, -, h2, h3⟩ := written_parse hT hw
  rw [h2, h3]
  rfl

end

end Proofs.Placed
