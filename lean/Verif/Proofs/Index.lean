import Verif.Model.Index
import Verif.Proofs.Origin
import Verif.Props.C03
/-! # Lemmas for C88: the objects a walk finds are those written in the document -/

namespace Proofs.Index
open Py Utils Tree _root_.Doc Spec.Places Spec.Pointed _root_.Loaded Proofs.Loaded Proofs.Doc Proofs.Placed Proofs.Origin

/-! ## values of JSON hold no objects -/

theorem plain_at {t u : Tree} {ts : List Str} (h : At [] t ts u) (hp : Plain t) : isObj u = false := by
  induction h with
  | here t => cases t <;> first | rfl | exact absurd hp (by simp [Plain])
  | field => exact absurd hp (by simp [Plain])
  | item l i v ts u hi _ ih => rw [Plain, plainList_iff] at hp; exact ih (hp v (List.mem_of_getElem? hi))
  | key d k v ts u hk _ ih => rw [Plain, plainDict_iff] at hp; exact ih (hp.2 _ hk)

mutual
theorem plain_map (f : Str → Str) : ∀ t : Tree, Plain t → mapRefs f t = t
  | .atom _, _ => rfl
  | .list l, h => by rw [Plain] at h; rw [mapRefs, plain_mapL f l h]
  | .dict d, h => by rw [Plain] at h; rw [mapRefs, plain_mapD f d h.2]
  | .obj _ _, h => by rw [Plain] at h; exact h.elim
theorem plain_mapL (f : Str → Str) : ∀ l : List Tree, PlainList l → mapList f l = l
  | [], _ => rfl
  | t :: l, h => by rw [PlainList] at h; rw [mapList, plain_map f t h.1, plain_mapL f l h.2]
theorem plain_mapD (f : Str → Str) : ∀ d : List (Str × Tree), PlainDict d → mapDict f d = d
  | [], _ => rfl
  | (k, t) :: d, h => by rw [PlainDict] at h; rw [mapDict, plain_map f t h.1, plain_mapD f d h.2]
end

theorem plain_mapRef (f : Str → Str) {t : Tree} (h : Plain t) : Plain (mapRef f t) := by
  unfold mapRef
  split
  · trivial
  · exact h

theorem plain_mapField (f : Str → Str) (n : Str) {t : Tree} (h : Plain t) : Plain (mapField f n t) := by
  unfold mapField
  split
  · exact plain_mapRef f h
  · rw [plain_map f t h]; exact h

theorem plain_empty {k : Kind} {o : Tree} (h : emptyOf k = some o) : Plain o := by
  cases k <;> cases h
  · trivial
  · exact ⟨List.nodup_nil, trivial⟩

theorem plain_default {c : Nat} {n : Str} {dflt : Tree} (h : Dict.get? (v20 c).fields n = some dflt) : Plain dflt := by
  have key : ∀ c < 15, ((v20 c).fields.all fun x => match x.2 with
          | .atom _ => true
          | .list [] => true
          | .dict [] => true
          | _ => false) = true := by decide +kernel
  by_cases hc : c < 15
  · have := List.all_eq_true.1 (key c hc) _ (Dict.mem_of_get? h)
    dsimp only at this
    split at this
    · trivial
    · trivial
    · exact ⟨List.nodup_nil, trivial⟩
    · cases this
  · have : (v20 c).fields = [] := by
      unfold v20
      rw [List.getD_eq_getElem?_getD, List.getElem?_eq_none (by have : classes.length = 15 := rfl; omega)]
      rfl
    rw [this] at h; cases h

/-- a field of an object that was read: a value of JSON, or read from an entry for objects -/
theorem field_cases {c : Nat} {d e : List (Str × Tree)} (he : parseEntries v20 (v20 c) d = some e) (hp : PlainDict d)
    {n : Str} {dflt : Tree} (hf : Dict.get? (v20 c).fields n = some dflt) :
    Plain (fieldOf v20 (v20 c) d (n, dflt)) ∨ ∃ v k w, Dict.get? d n = some v ∧ Dict.get? (v20 c).child n = some k ∧
      parseAs v20 k v = some w ∧ fieldOf v20 (v20 c) d (n, dflt) = w := by
  unfold fieldOf
  dsimp only
  cases hd : Dict.get? d n with
  | none =>
    left
    rw [Option.bind_none]
    dsimp only
    cases hc : Dict.get? (v20 c).child n with
    | none => exact plain_default hf
    | some k' =>
      rw [Option.bind_some]
      cases hem : emptyOf k' with
      | none => exact plain_default hf
      | some o => exact plain_empty hem
  | some v =>
    have hmem := Dict.mem_of_get? hd
    have hpv := plainDict_iff.1 hp _ hmem
    rw [Option.bind_some]
    obtain ⟨w, hw⟩ := parseEntries_some.1 ⟨e, he⟩ n v hmem
    rw [hw]
    dsimp only
    unfold parseField at hw
    cases hc : Dict.get? (v20 c).child n with
    | none => rw [hc] at hw; cases hw; exact .inl hpv
    | some k' =>
      rw [hc] at hw
      dsimp only at hw
      split at hw
      · cases hem : emptyOf k' with
        | none => rw [hem] at hw; cases hw; exact .inl hpv
        | some o => rw [hem] at hw; cases hw; exact .inl (plain_empty hem)
      · exact .inr ⟨v, k', w, rfl, rfl, hw, rfl⟩

theorem child_ref {c : Nat} {k : Kind} (h : Dict.get? (v20 c).child c!"$ref" = some k) : False := by
  have := (grammar_refs (f := id) c).2.2
  rw [this] at h; cases h

/-! ## what a walk finds is written in the document -/

theorem parseList_back {c : Nat} {l l' : List Tree} (h : parseList v20 c l = some l') {i : Nat} {w : Tree}
    (hw : l'[i]? = some w) : ∃ v, l[i]? = some v ∧ parseAs v20 (.one c) v = some w := by
  obtain ⟨h1, h2⟩ := parseList_get h
  have hlt : i < l.length := by rw [← h1]; exact (List.getElem?_eq_some_iff.1 hw).1
  obtain ⟨w', h3, h4⟩ := h2 i _ (List.getElem?_eq_getElem hlt)
  rw [hw] at h4; cases h4
  exact ⟨_, List.getElem?_eq_getElem hlt, h3⟩

/-- what may have been read -/
inductive Read (k : Kind) : Tree → Tree → Prop
  | plain {D T} : Plain T → Read k D T
  | null {c} : k = .one c → Read k (.atom .none) (.obj c (v20 c).fields)
  | list {c l l'} : k = .list c → parseList v20 c l = some l' → Read k (.list l) (.list l')
  | dict {c d d'} : k = .dict c → parseDict v20 c d = some d' → Read k (.dict d) (.dict d')
  | obj {c d e} : Takes k c → parseEntries v20 (v20 c) d = some e →
      Read k (.dict d) (.obj c ((v20 c).fields.map fun p => (p.1, fieldOf v20 (v20 c) d p)))

theorem read_of {k : Kind} {D T : Tree} (h : parseAs v20 k D = some T) : Read k D T := by
  cases D with
  | atom a =>
    rw [parseAs.eq_def] at h
    dsimp only at h
    unfold parseAtom at h
    split at h <;> cases h
    · exact .null rfl
    · exact .plain trivial
    · exact .plain trivial
  | list l =>
    rw [parseAs.eq_def] at h
    dsimp only at h
    split at h
    · next c =>
      cases hl : parseList v20 c l with
      | none => rw [hl] at h; cases h
      | some l' => rw [hl] at h; cases h; exact .list rfl hl
    · cases h
  | dict d =>
    have obj : ∀ {c}, Takes k c → Read k (.dict d) T := by
      intro c hk
      rw [parseAs_takes hk] at h
      obtain ⟨e, he, rfl⟩ := parse_fields h
      exact .obj hk he
    cases k with
    | one c => exact obj (.inl rfl)
    | boolOr c => exact obj (.inr rfl)
    | list c =>
      rw [parseAs.eq_def] at h
      dsimp only at h
      split at h <;> cases h
      exact .plain trivial
    | dict c =>
      rw [parseAs.eq_def] at h
      dsimp only at h
      cases hl : parseDict v20 c d with
      | none => rw [hl] at h; cases h
      | some d' => rw [hl] at h; cases h; exact .dict rfl hl
  | obj c fs => rw [parseAs.eq_def] at h; cases h

/-- the object at a place was read from a dict (or a null) at this place -/
theorem at_place {f : Str → Str} {T' u : Tree} {ts : List Str} (h : At [] T' ts u) : ∀ {c gs}, u = .obj c gs →
    ∀ {k D T}, T' = mapRefs f T → Plain D → parseAs v20 k D = some T →
      ∃ k' v, Place k D ts k' v ∧ ((∃ q, v = .dict q ∧ Takes k' c) ∨ v = .atom .none ∧ k' = .one c) := by
  induction h with
  | here t =>
    rintro c gs rfl k D T hT hD hp
    refine ⟨k, D, .here, ?_⟩
    cases read_of hp with
    | plain h => rw [plain_map f _ h] at hT; rw [← hT] at h; exact absurd h (by simp [Plain])
    | null h => rw [mapRefs] at hT; cases hT; exact .inr ⟨rfl, h⟩
    | list => rw [mapRefs] at hT; cases hT
    | dict => rw [mapRefs] at hT; cases hT
    | obj hk => rw [mapRefs] at hT; cases hT; exact .inl ⟨_, rfl, hk⟩
  | field c fs n v ts u _ hn hat ih =>
    rintro c' gs hu k D T hT hD hp
    cases read_of hp with
    | plain h => rw [plain_map f _ h] at hT; rw [← hT] at h; exact absurd h (by simp [Plain])
    | null h =>
      rw [mapRefs] at hT; cases hT
      rw [mapFields_eq] at hn
      obtain ⟨⟨n', dflt⟩, hf, hx⟩ := List.mem_map.1 hn
      have hx' : v = mapField f n' dflt := (congrArg Prod.snd hx).symm
      have hdf : Dict.get? (v20 c).fields n' = some dflt := Dict.get?_of_mem (Props.C42.C42_grammar c).1 hf
      have := plain_at hat (by rw [hx']; exact plain_mapField f n' (plain_default hdf))
      rw [hu] at this; cases this
    | list => rw [mapRefs] at hT; cases hT
    | dict => rw [mapRefs] at hT; cases hT
    | @obj _ d e hk he =>
      rw [mapRefs] at hT; cases hT
      rw [mapFields_eq, List.map_map] at hn
      obtain ⟨⟨n', dflt⟩, hf, hx⟩ := List.mem_map.1 hn
      have hx' : v = mapField f n' (fieldOf v20 (v20 c) d (n', dflt)) := (congrArg Prod.snd hx).symm
      have hn' : n' = n := congrArg Prod.fst hx
      subst hn'
      have hdf : Dict.get? (v20 c).fields n' = some dflt := Dict.get?_of_mem (Props.C42.C42_grammar c).1 hf
      rw [Plain] at hD
      rcases field_cases he hD.2 hdf with hpl | ⟨v1, k', w, h1, h2, h3, h4⟩
      · have := plain_at hat (by rw [hx']; exact plain_mapField f n' hpl)
        rw [hu] at this; cases this
      · have hne : n' ≠ c!"$ref" := by rintro rfl; exact child_ref h2
        obtain ⟨k'', v', h5, h6⟩ := ih hu (k := k') (D := v1) (T := w) (by
          rw [hx', mapField, if_neg hne, h4]) (plainDict_iff.1 hD.2 _ (Dict.mem_of_get? h1)) h3
        exact ⟨k'', v', .field hk h1 h2 h5, h6⟩
  | item l i v ts u hi hat ih =>
    rintro c' gs hu k D T hT hD hp
    cases read_of hp with
    | plain h =>
      rw [plain_map f _ h] at hT
      have := plain_at (.item _ _ _ _ _ hi hat) (by rw [hT]; exact h)
      rw [hu] at this; cases this
    | null => rw [mapRefs] at hT; cases hT
    | obj => rw [mapRefs] at hT; cases hT
    | dict => rw [mapRefs] at hT; cases hT
    | @list c l1 l' hk hl =>
      rw [mapRefs] at hT; cases hT
      rw [mapList_eq, List.getElem?_map] at hi
      cases hw : l'[i]? with
      | none => rw [hw] at hi; cases hi
      | some w =>
        rw [hw] at hi; cases hi
        obtain ⟨v, h1, h2⟩ := parseList_back hl hw
        rw [Plain, plainList_iff] at hD
        obtain ⟨k'', v', h5, h6⟩ := ih hu rfl (hD v (List.mem_of_getElem? h1)) h2
        subst hk
        exact ⟨k'', v', .item h1 h5, h6⟩
  | key d n v ts u hk hat ih =>
    rintro c' gs hu k D T hT hD hp
    cases read_of hp with
    | plain h =>
      rw [plain_map f _ h] at hT
      have := plain_at (.key _ _ _ _ _ hk hat) (by rw [hT]; exact h)
      rw [hu] at this; cases this
    | null => rw [mapRefs] at hT; cases hT
    | obj => rw [mapRefs] at hT; cases hT
    | list => rw [mapRefs] at hT; cases hT
    | @dict c d1 d' hk' hl =>
      rw [mapRefs] at hT; cases hT
      rw [mapDict_eq] at hk
      obtain ⟨⟨n', w⟩, hw, hx⟩ := List.mem_map.1 hk
      cases hx
      obtain ⟨⟨m, v1⟩, h1, h2, h3⟩ := parseDict_mem hl hw
      dsimp only at h2 h3; subst h2
      rw [Plain] at hD
      obtain ⟨k'', v', h5, h6⟩ := ih hu rfl (plainDict_iff.1 hD.2 _ h1) h3
      subst hk'
      exact ⟨k'', v', .key (Dict.get?_of_mem hD.1 h1) h5, h6⟩

/-! ## what is written is found by a walk -/

theorem place_at {f : Str → Str} {k k' : Kind} {D u : Tree} {ts : List Str} (h : Place k D ts k' u) (hu : isNull u = false)
    {T : Tree} (hT : parseAs v20 k D = some T) : ∃ t, parseAs v20 k' u = some t ∧ At [] (mapRefs f T) ts (mapRefs f t) := by
  induction h generalizing T with
  | here => exact ⟨T, hT, .here _⟩
  | @field k c d n v k' ts k'' u htk hd hk hp ih =>
    rw [parseAs_takes htk] at hT
    obtain ⟨e, he, rfl⟩ := parse_fields hT
    obtain ⟨dflt, hf⟩ := child_field hk
    obtain ⟨w, h1, h2⟩ := fieldOf_child he hd hk (place_not_null hp hu) dflt
    obtain ⟨t, h3, h4⟩ := ih hu h1
    refine ⟨t, h3, ?_⟩
    rw [mapRefs, mapFields_eq, List.map_map]
    have hne : n ≠ c!"$ref" := by rintro rfl; exact child_ref hk
    refine .field _ _ _ _ _ _ (by simp) (List.mem_map.2 ⟨(n, dflt), Dict.mem_of_get? hf, ?_⟩) h4
    simp only [Function.comp_def, if_neg hne, h2]
  | @item c l i v ts k' u hi hp ih =>
    rw [parseAs] at hT
    cases hl : parseList v20 c l with
    | none => rw [hl] at hT; cases hT
    | some l' =>
      rw [hl] at hT; cases hT
      obtain ⟨w, h1, h2⟩ := (parseList_get hl).2 i v hi
      obtain ⟨t, h3, h4⟩ := ih hu h1
      refine ⟨t, h3, ?_⟩
      rw [mapRefs, mapList_eq]
      exact .item _ _ _ _ _ (by rw [List.getElem?_map, h2]; rfl) h4
  | @key c d n v ts k' u hd hp ih =>
    rw [parseAs] at hT
    cases hl : parseDict v20 c d with
    | none => rw [hl] at hT; cases hT
    | some l' =>
      rw [hl] at hT; cases hT
      obtain ⟨w, h1, h2⟩ := (parseDict_get hl n).2 v hd
      obtain ⟨t, h3, h4⟩ := ih hu h1
      refine ⟨t, h3, ?_⟩
      rw [mapRefs, mapDict_eq]
      exact .key _ _ _ _ _ (List.mem_map.2 ⟨_, Dict.mem_of_get? h2, rfl⟩) h4

/-! ## well-formed objects -/

theorem wfList_iff {l : List Tree} : WFList l ↔ ∀ t ∈ l, WF t := by
  induction l with
  | nil => simp [WFList]
  | cons t l ih => simp [WFList, ih]

theorem wfDict_iff {l : List (Str × Tree)} : WFDict l ↔ ∀ x ∈ l, WF x.2 := by
  induction l with
  | nil => simp [WFDict]
  | cons x l ih => obtain ⟨k, t⟩ := x; rw [WFDict, ih]; simp

mutual
theorem plain_wf : ∀ t : Tree, Plain t → WF t
  | .atom _, _ => trivial
  | .list l, h => by rw [Plain] at h; rw [WF]; exact plain_wfL l h
  | .dict d, h => by rw [Plain] at h; rw [WF]; exact ⟨h.1, plain_wfD d h.2⟩
  | .obj _ _, h => by rw [Plain] at h; exact h.elim
theorem plain_wfL : ∀ l : List Tree, PlainList l → WFList l
  | [], _ => trivial
  | t :: l, h => by rw [PlainList] at h; rw [WFList]; exact ⟨plain_wf t h.1, plain_wfL l h.2⟩
theorem plain_wfD : ∀ d : List (Str × Tree), PlainDict d → WFDict d
  | [], _ => trivial
  | (k, t) :: d, h => by rw [PlainDict] at h; rw [WFDict]; exact ⟨plain_wf t h.1, plain_wfD d h.2⟩
end

mutual
theorem map_wf (f : Str → Str) : ∀ t : Tree, WF t → WF (mapRefs f t)
  | .atom _, _ => trivial
  | .list l, h => by rw [WF] at h; rw [mapRefs, WF]; exact map_wfL f l h
  | .dict d, h => by
    rw [WF] at h; rw [mapRefs, WF]
    refine ⟨?_, map_wfD f d h.2⟩
    rw [mapDict_eq, Dict.keys, List.map_map]; exact h.1
  | .obj c fs, h => by
    rw [WF] at h; rw [mapRefs, WF]
    have hk : Dict.keys (mapFields f fs) = Dict.keys fs := by rw [mapFields_eq, Dict.keys, List.map_map]; rfl
    rw [hk]
    exact ⟨h.1, h.2.1, map_wfF f fs h.2.2⟩
theorem map_wfL (f : Str → Str) : ∀ l : List Tree, WFList l → WFList (mapList f l)
  | [], _ => trivial
  | t :: l, h => by rw [WFList] at h; rw [mapList, WFList]; exact ⟨map_wf f t h.1, map_wfL f l h.2⟩
theorem map_wfD (f : Str → Str) : ∀ d : List (Str × Tree), WFDict d → WFDict (mapDict f d)
  | [], _ => trivial
  | (k, t) :: d, h => by rw [WFDict] at h; rw [mapDict, WFDict]; exact ⟨map_wf f t h.1, map_wfD f d h.2⟩
theorem map_wfF (f : Str → Str) : ∀ d : List (Str × Tree), WFDict d → WFDict (mapFields f d)
  | [], _ => trivial
  | (k, t) :: d, h => by
    rw [WFDict] at h; rw [mapFields, WFDict]
    refine ⟨?_, map_wfF f d h.2⟩
    split
    · unfold mapRef
      split
      · trivial
      · exact h.1
    · exact map_wf f t h.1
end

theorem names_ok (c : Nat) : (Dict.keys (v20 c).fields).Nodup ∧ [] ∉ Dict.keys (v20 c).fields := by
  refine ⟨(Props.C42.C42_grammar c).1, ?_⟩
  have key : ∀ c < 15, [] ∉ Dict.keys (v20 c).fields := by decide +kernel
  by_cases hc : c < 15
  · exact key c hc
  · have : (v20 c).fields = [] := by
      unfold v20
      rw [List.getD_eq_getElem?_getD, List.getElem?_eq_none (by have : classes.length = 15 := rfl; omega)]
      rfl
    rw [this]; exact List.not_mem_nil

theorem obj_wf {c : Nat} {g : Str × Tree → Tree} (h : ∀ x ∈ (v20 c).fields, WF (g x)) :
    WF (.obj c ((v20 c).fields.map fun x => (x.1, g x))) := by
  rw [WF]
  have hk : Dict.keys ((v20 c).fields.map fun x => (x.1, g x)) = Dict.keys (v20 c).fields := by
    rw [Dict.keys, List.map_map]; rfl
  rw [hk]
  refine ⟨(names_ok c).1, (names_ok c).2, ?_⟩
  rw [wfDict_iff]
  intro x hx
  obtain ⟨y, hy, rfl⟩ := List.mem_map.1 hx
  exact h y hy

theorem parseDict_keys {c : Nat} : ∀ {l l' : List (Str × Tree)}, parseDict v20 c l = some l' → Dict.keys l' = Dict.keys l := by
  intro l
  induction l with
  | nil => intro l' h; rw [parseDict] at h; cases h; rfl
  | cons x l ih =>
    obtain ⟨m, t⟩ := x
    intro l' h
    rw [parseDict] at h
    split at h
    · next h2 => cases h; simp only [Dict.keys, List.map_cons] at ih ⊢; rw [ih h2]
    · cases h

mutual
theorem parse_wf : ∀ (D : Tree) (k : Kind) (T : Tree), Plain D → parseAs v20 k D = some T → WF T
  | .atom a, k, T, _, h => by
    cases read_of h with
    | plain h => exact plain_wf _ h
    | @null c hk =>
      have := obj_wf (c := c) (g := Prod.snd) fun x hx => plain_wf _ (plain_default (Dict.get?_of_mem (Props.C42.C42_grammar c).1 hx))
      simpa using this
  | .list l, k, T, hp, h => by
    cases read_of h with
    | plain h => exact plain_wf _ h
    | list hk hl =>
      rw [Plain] at hp
      rw [WF, wfList_iff]
      intro t ht
      obtain ⟨i, hi⟩ := List.mem_iff_getElem?.1 ht
      obtain ⟨v, h1, h2⟩ := parseList_back hl hi
      exact parse_wfL l v (List.mem_of_getElem? h1) _ t (plainList_iff.1 hp v (List.mem_of_getElem? h1)) h2
  | .dict d, k, T, hp, h => by
    have hp' := hp
    rw [Plain] at hp'
    cases read_of h with
    | plain h => exact plain_wf _ h
    | @obj c _ e hk he =>
      refine obj_wf fun x hx => ?_
      rcases field_cases he hp'.2 (Dict.get?_of_mem (Props.C42.C42_grammar c).1 hx) with hpl | ⟨v, k', w, h1, h2, h3, h4⟩
      · exact plain_wf _ hpl
      · have h4' : fieldOf v20 (v20 c) d x = w := h4
        rw [h4']
        have hm := Dict.mem_of_get? h1
        exact parse_wfD d (x.1, v) hm _ w (plainDict_iff.1 hp'.2 _ hm) h3
    | @dict c _ d' hk he =>
      rw [WF, wfDict_iff]
      refine ⟨?_, fun y hy => ?_⟩
      · rw [parseDict_keys he]; exact hp'.1
      · obtain ⟨n, w⟩ := y
        obtain ⟨x, h1, h2, h3⟩ := parseDict_mem he hy
        exact parse_wfD d x h1 _ _ (plainDict_iff.1 hp'.2 _ h1) h3
  | .obj _ _, _, _, hp, _ => by rw [Plain] at hp; exact hp.elim
theorem parse_wfL : ∀ (l : List Tree), ∀ D ∈ l, ∀ (k : Kind) (T : Tree), Plain D → parseAs v20 k D = some T → WF T
  | [], _, hD, _, _ => by cases hD
  | t :: l, D, hD, k, T => by
    rcases List.mem_cons.1 hD with h | h
    · rw [h]; exact parse_wf t k T
    · exact parse_wfL l D h k T
theorem parse_wfD : ∀ (l : List (Str × Tree)), ∀ x ∈ l, ∀ (k : Kind) (T : Tree), Plain x.2 → parseAs v20 k x.2 = some T → WF T
  | [], _, hD, _, _ => by cases hD
  | (n, t) :: l, x, hx, k, T => by
    rcases List.mem_cons.1 hx with h | h
    · rw [h]; exact parse_wf t k T
    · exact parse_wfD l x h k T
end

/-! ## where operations are -/

def classOf : Kind → Nat
  | .one c | .list c | .dict c | .boolOr c => c

/-- kinds without operations inside -/
def low (k : Kind) : Bool := !(classOf k == cSwagger || classOf k == cPathItem || classOf k == cOperation)

theorem child_big {c : Nat} (h : ¬ c < 15) : (v20 c).child = [] := by
  unfold v20
  rw [List.getD_eq_getElem?_getD, List.getElem?_eq_none (by have : classes.length = 15 := rfl; omega)]
  rfl

theorem child_low {c : Nat} (h : c ≠ cSwagger ∧ c ≠ cPathItem) {n : Str} {k : Kind}
    (hk : Dict.get? (v20 c).child n = some k) : low k = true := by
  have key : ∀ c < 15, c = cSwagger ∨ c = cPathItem ∨ ((v20 c).child.all fun x => low x.2) = true := by decide +kernel
  by_cases hc : c < 15
  · rcases key c hc with e | e | e
    · exact absurd e h.1
    · exact absurd e h.2
    · exact List.all_eq_true.1 e _ (Dict.mem_of_get? hk)
  · rw [child_big hc] at hk; cases hk

theorem takes_class {k : Kind} {c : Nat} (h : Takes k c) : c = classOf k := by rcases h with rfl | rfl <;> rfl

theorem place_low {k k' : Kind} {D u : Tree} {ts : List Str} (h : Place k D ts k' u) (hk : low k = true) : low k' = true := by
  have ne : ∀ {k}, low k = true → classOf k ≠ cSwagger ∧ classOf k ≠ cPathItem := by
    intro k hk
    unfold low at hk
    constructor <;> intro e <;> rw [e] at hk <;> revert hk <;> decide
  induction h with
  | here => exact hk
  | field ht _ hc _ ih => rw [takes_class ht] at hc; exact ih (child_low (ne hk) hc)
  | item _ _ ih => exact ih hk
  | key _ _ ih => exact ih hk

/-- below an operation there is no operation -/
theorem place_operation {k' : Kind} {u D : Tree} {ts : List Str} (h : Place (.one cOperation) D ts k' u) (hk : low k' = false) :
    ts = [] ∧ u = D := by
  cases h with
  | here => exact ⟨rfl, rfl⟩
  | field ht _ hc hp =>
    rw [takes_class ht] at hc
    rw [place_low hp (child_low (c := cOperation) (by decide) hc)] at hk; cases hk

theorem place_item {k' : Kind} {u D : Tree} {ts : List Str} (h : Place (.one cPathItem) D ts k' u) (hk : Takes k' cOperation) :
    ∃ iq m, D = .dict iq ∧ ts = [m] ∧ m ∈ Patch.methods ∧ Dict.get? iq m = some u := by
  have hl : low k' = false := by rcases hk with rfl | rfl <;> rfl
  cases h with
  | here => rcases hk with h | h <;> exact absurd h (by decide)
  | @field _ _ d n v k1 ts _ _ ht hd hc hp =>
    have ht' := takes_class ht
    subst ht'
    have key : ((v20 cPathItem).child.all fun x => low x.2 || (x.2 == .one cOperation && decide (x.1 ∈ Patch.methods))) = true := by
      decide +kernel
    have := List.all_eq_true.1 key _ (Dict.mem_of_get? hc)
    simp only [Bool.or_eq_true, Bool.and_eq_true, beq_iff_eq, decide_eq_true_eq] at this
    rcases this with h | ⟨rfl, hm⟩
    · rw [place_low hp h] at hl; cases hl
    · obtain ⟨rfl, rfl⟩ := place_operation hp hl
      exact ⟨d, n, rfl, rfl, hm, hd⟩

theorem place_root {k' : Kind} {u D : Tree} {ts : List Str} (h : Place (.one cSwagger) D ts k' u) (hk : Takes k' cOperation) :
    ∃ sq paths iq k m, D = .dict sq ∧ Dict.get? sq c!"paths" = some (.dict paths) ∧ Dict.get? paths k = some (.dict iq) ∧
      ts = [c!"paths", k, m] ∧ m ∈ Patch.methods ∧ Dict.get? iq m = some u := by
  have hl : low k' = false := by rcases hk with rfl | rfl <;> rfl
  cases h with
  | here => rcases hk with h | h <;> exact absurd h (by decide)
  | @field _ _ d n v k1 ts _ _ ht hd hc hp =>
    have ht' := takes_class ht
    subst ht'
    have key : ((v20 cSwagger).child.all fun x => low x.2 || (x.2 == .dict cPathItem && decide (x.1 = c!"paths"))) = true := by
      decide +kernel
    have := List.all_eq_true.1 key _ (Dict.mem_of_get? hc)
    simp only [Bool.or_eq_true, Bool.and_eq_true, beq_iff_eq, decide_eq_true_eq] at this
    rcases this with h | ⟨rfl, rfl⟩
    · rw [place_low hp h] at hl; cases hl
    · cases hp with
      | here => rcases hk with h | h <;> cases h
      | field ht => rcases ht with h | h <;> cases h
      | key h1 h2 =>
        obtain ⟨iq, m, rfl, rfl, hm, h3⟩ := place_item h2 hk
        exact ⟨d, _, iq, _, m, rfl, hd, h1, rfl, hm, h3⟩

/-! ## containers -/

theorem dict_field {c b : Nat} {d e : List (Str × Tree)} (he : parseEntries v20 (v20 c) d = some e)
    {n : Str} {dflt : Tree} (hc : Dict.get? (v20 c).child n = some (.dict b)) :
    fieldOf v20 (v20 c) d (n, dflt) = .dict [] ∨ ∃ q q', Dict.get? d n = some (.dict q) ∧ parseDict v20 b q = some q' ∧
      fieldOf v20 (v20 c) d (n, dflt) = .dict q' := by
  unfold fieldOf
  dsimp only
  cases hd : Dict.get? d n with
  | none => left; rw [Option.bind_none, hc]; rfl
  | some v =>
    obtain ⟨w, hw⟩ := parseEntries_some.1 ⟨e, he⟩ n v (Dict.mem_of_get? hd)
    rw [Option.bind_some, hw]
    dsimp only
    unfold parseField at hw
    rw [hc] at hw
    dsimp only at hw
    split at hw
    · cases hw; exact .inl rfl
    · cases v with
      | atom a => rw [parseAs.eq_def] at hw; cases a <;> cases hw
      | list l => rw [parseAs.eq_def] at hw; cases hw
      | dict q =>
        rw [parseAs.eq_def] at hw
        dsimp only at hw
        cases hq : parseDict v20 b q with
        | none => rw [hq] at hw; cases hw
        | some q' => rw [hq] at hw; cases hw; exact .inr ⟨q, q', rfl, hq, rfl⟩
      | obj => rw [parseAs.eq_def] at hw; cases hw

theorem list_field {c b : Nat} {d e : List (Str × Tree)} (he : parseEntries v20 (v20 c) d = some e)
    {n : Str} {dflt : Tree} (hc : Dict.get? (v20 c).child n = some (.list b)) :
    ∃ l, fieldOf v20 (v20 c) d (n, dflt) = .list l ∧ l.length = match Dict.get? d n with
      | some (.list l) => l.length
      | _ => 0 := by
  unfold fieldOf
  dsimp only
  cases hd : Dict.get? d n with
  | none => rw [Option.bind_none, hc]; exact ⟨[], rfl, rfl⟩
  | some v =>
    obtain ⟨w, hw⟩ := parseEntries_some.1 ⟨e, he⟩ n v (Dict.mem_of_get? hd)
    rw [Option.bind_some, hw]
    dsimp only
    unfold parseField at hw
    rw [hc] at hw
    dsimp only at hw
    cases v with
    | atom a =>
      refine ⟨[], ?_, rfl⟩
      split at hw
      · cases hw; rfl
      · rw [parseAs.eq_def] at hw
        dsimp only at hw
        unfold parseAtom at hw
        split at hw <;> cases hw
        · contradiction
        · contradiction
        · rfl
    | list l =>
      rw [if_neg (by simp [isNull]), parseAs.eq_def] at hw
      dsimp only at hw
      cases hq : parseList v20 b l with
      | none => rw [hq] at hw; cases hw
      | some l' => rw [hq] at hw; cases hw; exact ⟨l', rfl, (parseList_get hq).1⟩
    | dict q =>
      rw [if_neg (by simp [isNull]), parseAs.eq_def] at hw
      dsimp only at hw
      split at hw <;> cases hw
      exact ⟨[], rfl, rfl⟩
    | obj => rw [if_neg (by simp [isNull]), parseAs.eq_def] at hw; cases hw

theorem one_obj {c : Nat} {v w : Tree} (h : parseAs v20 (.one c) v = some w) : ∃ fs, w = .obj c fs := by
  cases v with
  | atom a => rw [parseAs.eq_def] at h; cases a <;> cases h; exact ⟨_, rfl⟩
  | list l => rw [parseAs.eq_def] at h; cases h
  | dict d =>
    rw [parseAs_takes (.inl rfl)] at h
    obtain ⟨e, -, rfl⟩ := parse_fields h
    exact ⟨_, rfl⟩
  | obj => rw [parseAs.eq_def] at h; cases h

variable {D T R : Tree} {p : Url}

/-- the fields of an object of the prepared document -/
theorem fields_of (hl : Loads D p T R) {ts : List Str} {c : Nat} {q : Dict Str Tree} (hw : Written D ts c q) :
    ∃ gs e, Tree.resolve ts R = .ok (.obj c gs) ∧ parseEntries v20 (v20 c) q = some e ∧
      ∀ n dflt, Dict.get? (v20 c).fields n = some dflt →
        Dict.get? gs n = some (mapField (absolute (urlunparse p)) n (fieldOf v20 (v20 c) q (n, dflt))) := by
  obtain ⟨fs, h1, h2, -⟩ := written_parse hl.read hw
  have h3 := object_map (f := absolute (urlunparse p)) (filled hl) h2
  rw [← normal_form hl, mapRefs] at h3
  obtain ⟨e, he, h4⟩ := parse_fields h1
  cases h4
  refine ⟨_, e, h3, he, fun n dflt hf => ?_⟩
  rw [get_mapFields, get_fieldOf, hf]
  rfl

/-- a field for a dict of objects -/
theorem dict_written (hl : Loads D p T R) {ts : List Str} {c b : Nat} {q : Dict Str Tree} (hw : Written D ts c q) {n : Str}
    (hc : Dict.get? (v20 c).child n = some (.dict b)) {gs : List (Str × Tree)} (hr : Tree.resolve ts R = .ok (.obj c gs)) :
    ∃ d, Dict.get? gs n = some (.dict d) ∧ (∀ k t, Dict.get? d k = some t → ∃ fs, t = .obj b fs) ∧
      ∀ x ∈ d, ∃ fs, x.2 = .obj b fs := by
  obtain ⟨gs', e, h1, he, h2⟩ := fields_of hl hw
  rw [hr] at h1; cases h1
  obtain ⟨dflt, hf⟩ := child_field hc
  have hne : n ≠ c!"$ref" := by rintro rfl; exact child_ref hc
  have h3 := h2 n dflt hf
  rw [mapField, if_neg hne] at h3
  rcases dict_field he (dflt := dflt) hc with h | ⟨d, d', g1, g2, h⟩
  · rw [h, mapRefs, mapDict] at h3
    exact ⟨[], h3, fun k t h => (by cases h), fun x h => (by cases h)⟩
  · rw [h, mapRefs] at h3
    have hx : ∀ x ∈ mapDict (absolute (urlunparse p)) d', ∃ fs, x.2 = .obj b fs := by
      intro x hx
      rw [mapDict_eq] at hx
      obtain ⟨⟨k, t⟩, hy, rfl⟩ := List.mem_map.1 hx
      obtain ⟨z, -, -, hz⟩ := parseDict_mem g2 hy
      obtain ⟨fs, hfs⟩ := one_obj hz
      dsimp only at hfs ⊢
      rw [hfs, mapRefs]
      exact ⟨_, rfl⟩
    exact ⟨_, h3, fun k t hk => hx _ (Dict.mem_of_get? hk), hx⟩

/-- a field for a list of objects -/
theorem list_written (hl : Loads D p T R) {ts : List Str} {c b : Nat} {q : Dict Str Tree} (hw : Written D ts c q) {n : Str}
    (hc : Dict.get? (v20 c).child n = some (.list b)) {gs : List (Str × Tree)} (hr : Tree.resolve ts R = .ok (.obj c gs)) :
    (List.range (Effective.listed (Effective.attr gs n)).length).map (fun i => ts ++ [n, natStr i]) = elements ts n q := by
  obtain ⟨gs', e, h1, he, h2⟩ := fields_of hl hw
  rw [hr] at h1; cases h1
  obtain ⟨dflt, hf⟩ := child_field hc
  have hne : n ≠ c!"$ref" := by rintro rfl; exact child_ref hc
  have h3 := h2 n dflt hf
  rw [mapField, if_neg hne] at h3
  obtain ⟨l, h4, h5⟩ := list_field he (dflt := dflt) hc
  rw [h4, mapRefs] at h3
  unfold Effective.attr
  rw [h3, Option.getD_some, Effective.listed, mapList_eq, List.length_map, h5]
  unfold elements
  cases Dict.get? q n with
  | none => rfl
  | some v => cases v <;> rfl

/-! ## lists -/

theorem nodup_filterMap {α β : Type} {f : α → Option β} : ∀ {l : List α}, l.Nodup →
    ((l.filterMap f).Nodup ↔ ∀ a ∈ l, ∀ b ∈ l, ∀ x, f a = some x → f b = some x → a = b) := by
  intro l
  induction l with
  | nil => simp
  | cons a l ih =>
    intro hn
    rw [List.nodup_cons] at hn
    have ih := ih hn.2
    cases hf : f a with
    | none =>
      rw [List.filterMap_cons_none hf, ih]
      constructor
      · intro h b hb c hc x h1 h2
        rcases List.mem_cons.1 hb with rfl | hb
        · rw [hf] at h1; cases h1
        · rcases List.mem_cons.1 hc with rfl | hc
          · rw [hf] at h2; cases h2
          · exact h b hb c hc x h1 h2
      · exact fun h b hb c hc => h b (List.mem_cons_of_mem _ hb) c (List.mem_cons_of_mem _ hc)
    | some y =>
      rw [List.filterMap_cons_some hf, List.nodup_cons, ih]
      constructor
      · rintro ⟨h0, h⟩ b hb c hc x h1 h2
        rcases List.mem_cons.1 hb with e1 | e1 <;> rcases List.mem_cons.1 hc with e2 | e2
        · rw [e1, e2]
        · rw [e1, hf] at h1; cases h1; exact absurd (List.mem_filterMap.2 ⟨c, e2, h2⟩) h0
        · rw [e2, hf] at h2; cases h2; exact absurd (List.mem_filterMap.2 ⟨b, e1, h1⟩) h0
        · exact h b e1 c e2 x h1 h2
      · intro h
        refine ⟨fun hm => ?_, fun b hb c hc => h b (List.mem_cons_of_mem _ hb) c (List.mem_cons_of_mem _ hc)⟩
        obtain ⟨b, hb, h1⟩ := List.mem_filterMap.1 hm
        have := h a (List.mem_cons_self ..) b (List.mem_cons_of_mem _ hb) y hf h1
        exact hn.1 (this ▸ hb)

end Proofs.Index
