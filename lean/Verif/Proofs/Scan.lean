import Verif.Model.Scan
import Verif.Spec.Tree
import Verif.Props.C01
import Verif.Proofs.Dict
/-! # Helper lemmas for the walk over a document (C02, C03) -/

namespace Proofs.ScanTree
open Py Utils Tree Scan Spec Spec.Places Proofs.JsonPointer

/-! ## names of children -/

/-- the name of a child with the given tokens -/
def enc : List Str → Str
  | [] => []
  | t :: ts => rfcEscape t ++ ts.flatMap fun t => '/' :: rfcEscape t

theorem compose_none (n : Str) : compose n none = enc [n] := by
  simp [compose, jp_compose, jp_compose.go, join, jp_escape_eq, enc]

theorem enc_snoc (t : Str) (ts : List Str) (k : Str) :
    enc (t :: ts ++ [k]) = enc (t :: ts) ++ '/' :: rfcEscape k := by
  simp [enc]

theorem enc_ne_nil {t : Str} (ts : List Str) (h : t ≠ []) : enc (t :: ts) ≠ [] := by
  simp [enc, escape_ne_nil h]

theorem compose_some {t : Str} (ts : List Str) (h : t ≠ []) (k : Str) :
    compose k (some (enc (t :: ts))) = enc (t :: ts ++ [k]) := by
  rw [enc_snoc]
  unfold compose
  rw [(Props.C01.C01_forms k _).1, Props.C01.C01_wire_format _ _ (enc_ne_nil ts h)]
  simp

theorem pointer_enc (ps : List Str) (t : Str) (ts : List Str) :
    pointer ps ++ '/' :: enc (t :: ts) = pointer (ps ++ t :: ts) := by
  simp [pointer, enc]

theorem pointer_eq (ts : List Str) : jp_compose (.list ts) (some ['#']) = some (pointer ts) := by
  rw [Props.C01.C01_wire_format _ _ (by simp)]; rfl

theorem pointer_inj {ts us : List Str} (h : pointer ts = pointer us) : ts = us :=
  Props.C01.C01_injective ts us ['#'] (by simp) (by rw [pointer_eq, pointer_eq, h])

/-- splitting a pointer -/
theorem split_pointer (ts : List Str) : jp_split (some (pointer ts)) = ['#'] :: ts := by
  rw [← pointer_eq, Props.C01.C01_roundtrip_base _ _ (by simp)]; rfl

theorem enc_inj {t u : Str} {ts us : List Str} (h : enc (t :: ts) = enc (u :: us)) :
    t :: ts = u :: us := by
  have : pointer (t :: ts) = pointer (u :: us) := by
    have := pointer_enc [] t ts
    have h2 := pointer_enc [] u us
    rw [List.nil_append] at this h2
    rw [← this, ← h2, h]
  exact pointer_inj this

/-! ## children by tokens -/

mutual
/-- the nearest objects in a value, with the tokens leading there -/
def near : Tree → List (List Str × Tree)
  | .obj c fs => [([], .obj c fs)]
  | .list l => nearL 0 l
  | .dict d => nearD d
  | .atom _ => []
def nearL (i : Nat) : List Tree → List (List Str × Tree)
  | [] => []
  | v :: l => (near v).map (fun x => (natStr i :: x.1, x.2)) ++ nearL (i + 1) l
def nearD : List (Str × Tree) → List (List Str × Tree)
  | [] => []
  | (k, v) :: d => (near v).map (fun x => (k :: x.1, x.2)) ++ nearD d
end

/-- entries named after tokens `pre` -/
def named (pre : List Str) (l : List (List Str × Tree)) : Dict Str Tree :=
  l.map fun x => (enc (pre ++ x.1), x.2)

theorem named_append (pre : List Str) (l m : List (List Str × Tree)) :
    named pre (l ++ m) = named pre l ++ named pre m := by simp [named]

theorem named_map (pre : List Str) (k : Str) (l : List (List Str × Tree)) :
    named pre (l.map fun x => (k :: x.1, x.2)) = named (pre ++ [k]) l := by simp [named]

theorem keys_append (d e : Dict Str Tree) : Dict.keys (d ++ e) = Dict.keys d ++ Dict.keys e := by
  simp [Dict.keys]

/-- no name below the tokens `pre` is in use -/
def Free (ret : Dict Str Tree) (pre : List Str) : Prop := ∀ us, enc (pre ++ us) ∉ Dict.keys ret

theorem free_named {t : Str} {ts : List Str} {x y : Str} (h : x ≠ y) {ret : Dict Str Tree}
    (hf : Free ret (t :: ts ++ [y])) (l : List (List Str × Tree)) :
    Free (ret ++ named (t :: ts ++ [x]) l) (t :: ts ++ [y]) := by
  intro vs hm
  rw [keys_append, List.mem_append] at hm
  rcases hm with hm | hm
  · exact hf vs hm
  · simp only [Dict.keys, named, List.map_map, List.mem_map, Function.comp] at hm
    obtain ⟨z, _, he⟩ := hm
    have := enc_inj (t := t) (u := t) (ts := ts ++ [x] ++ z.1) (us := ts ++ [y] ++ vs) (by simpa using he)
    simp at this
    exact h this.1

mutual
theorem down_eq : ∀ (v : Tree) (t : Str) (ts : List Str) (ret : Dict Str Tree), t ≠ [] → WF v →
    Free ret (t :: ts) → down (enc (t :: ts)) v ret = ret ++ named (t :: ts) (near v)
  | .obj c fs, t, ts, ret, ht, hw, hf => by
    rw [down, near, Dict.set_of_not_mem]
    · simp [named]
    · have := hf []; rwa [List.append_nil] at this
  | .list l, t, ts, ret, ht, hw, hf => by
    rw [down, near]
    rw [WF] at hw
    exact downList_eq l 0 t ts ret ht hw fun j _ us => by
      have := hf (natStr j :: us)
      simpa using this
  | .dict d, t, ts, ret, ht, hw, hf => by
    rw [down, near]
    rw [WF] at hw
    exact downDict_eq d t ts ret ht hw.1 hw.2 fun k _ us => by
      have := hf (k :: us)
      simpa using this
  | .atom _, t, ts, ret, ht, hw, hf => by rw [down, near]; simp [named]
theorem downList_eq : ∀ (l : List Tree) (i : Nat) (t : Str) (ts : List Str) (ret : Dict Str Tree), t ≠ [] →
    WFList l → (∀ j, i ≤ j → Free ret (t :: ts ++ [natStr j])) →
    downList (enc (t :: ts)) i l ret = ret ++ named (t :: ts) (nearL i l)
  | [], i, t, ts, ret, ht, hw, hf => by rw [downList, nearL]; simp [named]
  | v :: l, i, t, ts, ret, ht, hw, hf => by
    rw [WFList] at hw
    rw [downList, nearL, compose_some ts ht, List.cons_append,
      down_eq v t (ts ++ [natStr i]) ret ht hw.1 (hf i (Nat.le_refl i)),
      downList_eq l (i + 1) t ts _ ht hw.2 (fun j hj => ?_), named_append, named_map]
    · simp
    · exact free_named (fun e => by have := natStr_inj e; omega) (hf j (by omega)) _
theorem downDict_eq : ∀ (d : List (Str × Tree)) (t : Str) (ts : List Str) (ret : Dict Str Tree), t ≠ [] →
    (Dict.keys d).Nodup → WFDict d → (∀ k ∈ Dict.keys d, Free ret (t :: ts ++ [k])) →
    downDict (enc (t :: ts)) d ret = ret ++ named (t :: ts) (nearD d)
  | [], t, ts, ret, ht, hn, hw, hf => by rw [downDict, nearD]; simp [named]
  | (k, v) :: d, t, ts, ret, ht, hn, hw, hf => by
    rw [WFDict] at hw
    have hn' : k ∉ Dict.keys d ∧ (Dict.keys d).Nodup := by simpa [Dict.keys] using hn
    rw [downDict, nearD, compose_some ts ht, List.cons_append,
      down_eq v t (ts ++ [k]) ret ht hw.1 (hf k (by simp [Dict.keys])),
      downDict_eq d t ts _ ht hn'.2 hw.2 (fun j hj => ?_), named_append, named_map]
    · simp
    · exact free_named (x := k) (fun e => hn'.1 (by rw [e]; exact hj)) (hf j (List.mem_cons_of_mem _ hj)) _
end

theorem downFields_eq : ∀ (d : List (Str × Tree)) (ret : Dict Str Tree),
    (Dict.keys d).Nodup → [] ∉ Dict.keys d → WFDict d → (∀ k ∈ Dict.keys d, Free ret [k]) →
    downFields d ret = ret ++ named [] (nearD d)
  | [], ret, hn, h0, hw, hf => by rw [downFields, nearD]; simp [named]
  | (k, v) :: d, ret, hn, h0, hw, hf => by
    rw [WFDict] at hw
    have hn' : k ∉ Dict.keys d ∧ (Dict.keys d).Nodup := by simpa [Dict.keys] using hn
    have h0' : ¬ [] = k ∧ [] ∉ Dict.keys d := by simpa [Dict.keys] using h0
    rw [downFields, nearD, compose_none,
      down_eq v k [] ret (fun e => h0'.1 e.symm) hw.1 (hf k (by simp [Dict.keys])),
      downFields_eq d _ hn'.2 h0'.2 hw.2 (fun j hj => ?_), named_append, named_map]
    · simp
    · intro us hm
      rw [keys_append, List.mem_append] at hm
      rcases hm with hm | hm
      · exact hf j (List.mem_cons_of_mem _ hj) us hm
      · simp only [Dict.keys, named, List.map_map, List.mem_map, Function.comp] at hm
        obtain ⟨z, _, he⟩ := hm
        have := enc_inj (t := k) (u := j) (ts := z.1) (us := us) (by simpa using he)
        cases this
        exact hn'.1 hj

/-- the children of an object, by tokens -/
theorem children_eq (c : Nat) (fs : List (Str × Tree)) (h : WF (.obj c fs)) :
    children (.obj c fs) = named [] (nearD fs) := by
  rw [WF] at h
  rw [children, downFields_eq fs [] h.1 h.2.1 h.2.2 (fun k _ us => by simp [Dict.keys])]
  rfl

/-! ## tokens of children -/

/-- neither is a prefix of the other -/
def Apart (x y : List Str × Tree) : Prop := ¬ x.1 <+: y.1 ∧ ¬ y.1 <+: x.1

theorem apart_cons {k : Str} {l : List (List Str × Tree)} (h : l.Pairwise Apart) :
    (l.map fun x => (k :: x.1, x.2)).Pairwise Apart := by
  rw [List.pairwise_map]
  exact h.imp fun ⟨a, b⟩ => ⟨by simpa [List.cons_prefix_cons] using a, by simpa [List.cons_prefix_cons] using b⟩

theorem head_nearL {l : List Tree} {i : Nat} {x} (h : x ∈ nearL i l) : ∃ j us, i ≤ j ∧ x.1 = natStr j :: us := by
  induction l generalizing i with
  | nil => rw [nearL] at h; cases h
  | cons v l ih =>
    rw [nearL, List.mem_append] at h
    rcases h with h | h
    · simp only [List.mem_map] at h
      obtain ⟨y, _, rfl⟩ := h
      exact ⟨i, _, Nat.le_refl i, rfl⟩
    · obtain ⟨j, us, hj, e⟩ := ih h
      exact ⟨j, us, by omega, e⟩

theorem head_nearD {d : List (Str × Tree)} {x} (h : x ∈ nearD d) : ∃ k us, k ∈ Dict.keys d ∧ x.1 = k :: us := by
  induction d with
  | nil => rw [nearD] at h; cases h
  | cons e d ih =>
    obtain ⟨k, v⟩ := e
    rw [nearD, List.mem_append] at h
    rcases h with h | h
    · simp only [List.mem_map] at h
      obtain ⟨y, _, rfl⟩ := h
      exact ⟨k, _, by simp [Dict.keys], rfl⟩
    · obtain ⟨j, us, hj, e⟩ := ih h
      exact ⟨j, us, by simp [Dict.keys] at hj ⊢; exact Or.inr hj, e⟩

theorem apart_heads {x y : List Str × Tree} {a b : Str} {us vs : List Str} (hx : x.1 = a :: us)
    (hy : y.1 = b :: vs) (h : a ≠ b) : Apart x y := by
  rw [Apart, hx, hy, List.cons_prefix_cons, List.cons_prefix_cons]
  exact ⟨fun e => h e.1, fun e => h e.1.symm⟩

mutual
theorem near_apart : ∀ v : Tree, WF v → (near v).Pairwise Apart
  | .obj c fs, _ => by rw [near]; exact List.pairwise_singleton ..
  | .list l, h => by rw [WF] at h; rw [near]; exact nearL_apart l 0 h
  | .dict d, h => by rw [WF] at h; rw [near]; exact nearD_apart d h.1 h.2
  | .atom _, _ => by rw [near]; exact List.Pairwise.nil
theorem nearL_apart : ∀ (l : List Tree) (i : Nat), WFList l → (nearL i l).Pairwise Apart
  | [], i, _ => by rw [nearL]; exact List.Pairwise.nil
  | v :: l, i, h => by
    rw [WFList] at h
    rw [nearL, List.pairwise_append]
    refine ⟨apart_cons (near_apart v h.1), nearL_apart l (i + 1) h.2, ?_⟩
    intro x hx y hy
    simp only [List.mem_map] at hx
    obtain ⟨z, _, rfl⟩ := hx
    obtain ⟨j, us, hj, e⟩ := head_nearL hy
    exact apart_heads rfl e fun e => by have := natStr_inj e; omega
theorem nearD_apart : ∀ (d : List (Str × Tree)), (Dict.keys d).Nodup → WFDict d → (nearD d).Pairwise Apart
  | [], _, _ => by rw [nearD]; exact List.Pairwise.nil
  | (k, v) :: d, hn, h => by
    rw [WFDict] at h
    have hn' : k ∉ Dict.keys d ∧ (Dict.keys d).Nodup := by simpa [Dict.keys] using hn
    rw [nearD, List.pairwise_append]
    refine ⟨apart_cons (near_apart v h.1), nearD_apart d hn'.2 h.2, ?_⟩
    intro x hx y hy
    simp only [List.mem_map] at hx
    obtain ⟨z, _, rfl⟩ := hx
    obtain ⟨j, us, hj, e⟩ := head_nearD hy
    exact apart_heads rfl e fun e => hn'.1 (e ▸ hj)
end

/-! ## what is found in a value -/

mutual
theorem near_wf : ∀ v : Tree, WF v → ∀ x ∈ near v, WF x.2 ∧ isObj x.2 = true
  | .obj c fs, h, x, hx => by
    rw [near, List.mem_singleton] at hx; subst hx; exact ⟨h, rfl⟩
  | .list l, h, x, hx => by rw [WF] at h; rw [near] at hx; exact nearL_wf l 0 h x hx
  | .dict d, h, x, hx => by rw [WF] at h; rw [near] at hx; exact nearD_wf d h.2 x hx
  | .atom _, _, x, hx => by rw [near] at hx; cases hx
theorem nearL_wf : ∀ (l : List Tree) (i : Nat), WFList l → ∀ x ∈ nearL i l, WF x.2 ∧ isObj x.2 = true
  | [], i, _, x, hx => by rw [nearL] at hx; cases hx
  | v :: l, i, h, x, hx => by
    rw [WFList] at h
    rw [nearL, List.mem_append] at hx
    rcases hx with hx | hx
    · simp only [List.mem_map] at hx
      obtain ⟨y, hy, rfl⟩ := hx
      exact near_wf v h.1 y hy
    · exact nearL_wf l (i + 1) h.2 x hx
theorem nearD_wf : ∀ (d : List (Str × Tree)), WFDict d → ∀ x ∈ nearD d, WF x.2 ∧ isObj x.2 = true
  | [], _, x, hx => by rw [nearD] at hx; cases hx
  | (k, v) :: d, h, x, hx => by
    rw [WFDict] at h
    rw [nearD, List.mem_append] at hx
    rcases hx with hx | hx
    · simp only [List.mem_map] at hx
      obtain ⟨y, hy, rfl⟩ := hx
      exact near_wf v h.1 y hy
    · exact nearD_wf d h.2 x hx
end

/-- reached through one of the listed objects -/
def Via (leaves : List Nat) (l : List (List Str × Tree)) (us : List Str) (o : Tree) : Prop :=
  ∃ x ∈ l, ∃ vs, us = x.1 ++ vs ∧ At leaves x.2 vs o

theorem via_append (leaves : List Nat) (l m : List (List Str × Tree)) (us : List Str) (o : Tree) :
    Via leaves (l ++ m) us o ↔ Via leaves l us o ∨ Via leaves m us o := by
  simp only [Via, List.mem_append, or_and_right, exists_or]

theorem via_map (leaves : List Nat) (k : Str) (l : List (List Str × Tree)) (us : List Str) (o : Tree) :
    Via leaves (l.map fun x => (k :: x.1, x.2)) us o ↔ ∃ vs, us = k :: vs ∧ Via leaves l vs o := by
  constructor
  · rintro ⟨x, hx, vs, rfl, h⟩
    simp only [List.mem_map] at hx
    obtain ⟨y, hy, rfl⟩ := hx
    exact ⟨_, rfl, y, hy, vs, rfl, h⟩
  · rintro ⟨vs, rfl, x, hx, ws, rfl, h⟩
    exact ⟨_, List.mem_map.2 ⟨x, hx, rfl⟩, ws, rfl, h⟩

mutual
theorem at_near (leaves : List Nat) : ∀ (v : Tree) (us : List Str) (o : Tree), isObj o = true →
    (At leaves v us o ↔ Via leaves (near v) us o)
  | .obj c fs, us, o, ho => by
    rw [near]
    constructor
    · intro h; exact ⟨_, List.mem_singleton.2 rfl, us, rfl, h⟩
    · rintro ⟨x, hx, vs, rfl, h⟩
      rw [List.mem_singleton] at hx; subst hx; exact h
  | .list l, us, o, ho => by
    rw [near, ← at_nearL leaves l 0 us o ho]
    constructor
    · intro h
      cases h with
      | here => cases ho
      | item _ i v ts _ hi h => exact ⟨i, v, ts, hi, by rw [Nat.zero_add], h⟩
    · rintro ⟨i, v, ts, hi, rfl, h⟩
      rw [Nat.zero_add]
      exact .item l i v ts o hi h
  | .dict d, us, o, ho => by
    rw [near, ← at_nearD leaves d us o ho]
    constructor
    · intro h
      cases h with
      | here => cases ho
      | key _ k v ts _ hk h => exact ⟨k, v, ts, hk, rfl, h⟩
    · rintro ⟨k, v, ts, hk, rfl, h⟩
      exact .key d k v ts o hk h
  | .atom a, us, o, ho => by
    rw [near]
    constructor
    · intro h
      cases h with
      | here => cases ho
    · rintro ⟨x, hx, _⟩; cases hx
theorem at_nearL (leaves : List Nat) : ∀ (l : List Tree) (j : Nat) (us : List Str) (o : Tree), isObj o = true →
    ((∃ i v ts, l[i]? = some v ∧ us = natStr (j + i) :: ts ∧ At leaves v ts o) ↔ Via leaves (nearL j l) us o)
  | [], j, us, o, ho => by
    rw [nearL]
    constructor
    · rintro ⟨i, v, ts, hi, _⟩; simp at hi
    · rintro ⟨x, hx, _⟩; cases hx
  | w :: l, j, us, o, ho => by
    rw [nearL, via_append, via_map, ← at_nearL leaves l (j + 1) us o ho]
    constructor
    · rintro ⟨i, v, ts, hi, rfl, h⟩
      cases i with
      | zero =>
        simp only [List.getElem?_cons_zero, Option.some.injEq] at hi
        subst hi
        exact Or.inl ⟨ts, by rw [Nat.add_zero], (at_near leaves w ts o ho).1 h⟩
      | succ i =>
        exact Or.inr ⟨i, v, ts, by simpa using hi, by rw [Nat.add_assoc, Nat.add_comm 1], h⟩
    · rintro (⟨ts, rfl, h⟩ | ⟨i, v, ts, hi, rfl, h⟩)
      · exact ⟨0, w, ts, rfl, rfl, (at_near leaves w ts o ho).2 h⟩
      · exact ⟨i + 1, v, ts, by simpa using hi, by rw [Nat.add_assoc, Nat.add_comm 1], h⟩
theorem at_nearD (leaves : List Nat) : ∀ (d : List (Str × Tree)) (us : List Str) (o : Tree), isObj o = true →
    ((∃ k v ts, (k, v) ∈ d ∧ us = k :: ts ∧ At leaves v ts o) ↔ Via leaves (nearD d) us o)
  | [], us, o, ho => by
    rw [nearD]
    constructor
    · rintro ⟨i, v, ts, hi, _⟩; cases hi
    · rintro ⟨x, hx, _⟩; cases hx
  | (j, w) :: d, us, o, ho => by
    rw [nearD, via_append, via_map, ← at_nearD leaves d us o ho]
    constructor
    · rintro ⟨k, v, ts, hi, rfl, h⟩
      rcases List.mem_cons.1 hi with e | hi
      · cases e
        exact Or.inl ⟨ts, rfl, (at_near leaves w ts o ho).1 h⟩
      · exact Or.inr ⟨k, v, ts, hi, rfl, h⟩
    · rintro (⟨ts, rfl, h⟩ | ⟨k, v, ts, hi, rfl, h⟩)
      · exact ⟨j, w, ts, List.mem_cons_self .., rfl, (at_near leaves w ts o ho).2 h⟩
      · exact ⟨k, v, ts, List.mem_cons_of_mem _ hi, rfl, h⟩
end

/-- an object is itself or found through its children -/
theorem at_obj (leaves : List Nat) (c : Nat) (fs : List (Str × Tree)) (us : List Str) (o : Tree)
    (ho : isObj o = true) : At leaves (.obj c fs) us o ↔
      (us = [] ∧ o = .obj c fs) ∨ (c ∉ leaves ∧ Via leaves (nearD fs) us o) := by
  rw [← at_nearD leaves fs us o ho]
  constructor
  · intro h
    cases h with
    | here => exact Or.inl ⟨rfl, rfl⟩
    | field _ _ n v ts _ hc hn h => exact Or.inr ⟨hc, n, v, ts, hn, rfl, h⟩
  · rintro (⟨rfl, rfl⟩ | ⟨hc, n, v, ts, hn, rfl, h⟩)
    · exact .here _
    · exact .field c fs n v ts o hc hn h

/-! ## the walk -/

/-- stack entries by tokens -/
def onStack (l : List (List Str × Tree)) : List (Str × Tree) := l.map fun x => (pointer x.1, x.2)

/-- the tokens pushed -/
def pushedT (leaves : List Nat) (x : List Str × Tree) : List (List Str × Tree) :=
  match x.2 with
  | .obj c fs => if c ∈ leaves then [] else (nearD fs).map fun y => (x.1 ++ y.1, y.2)
  | _ => []

theorem pushed_eq (leaves : List Nat) (ts : List Str) (o : Tree) (h : WF o) :
    pushed leaves (pointer ts) o = onStack (pushedT leaves (ts, o)) := by
  cases o with
  | obj c fs =>
    unfold pushed pushedT
    by_cases hc : c ∈ leaves
    · simp [hc, onStack]
    · simp only [hc, if_false, children_eq c fs h, named, onStack, List.map_map]
      apply List.map_congr_left
      intro x hx
      obtain ⟨k, us, _, e⟩ := head_nearD hx
      simp only [Function.comp, List.nil_append, e, pointer_enc]
  | _ => rfl

theorem pushedT_wf {leaves : List Nat} {x : List Str × Tree} (h : WF x.2) :
    ∀ y ∈ pushedT leaves x, WF y.2 ∧ isObj y.2 = true ∧ ∃ k us, y.1 = x.1 ++ k :: us := by
  obtain ⟨ts, o⟩ := x
  intro y hy
  cases o with
  | obj c fs =>
    unfold pushedT at hy
    by_cases hc : c ∈ leaves
    · simp [hc] at hy
    · simp only [hc, if_false, List.mem_map] at hy
      obtain ⟨z, hz, rfl⟩ := hy
      simp only [WF] at h
      obtain ⟨h1, h2⟩ := nearD_wf fs h.2.2 z hz
      obtain ⟨k, us, _, e⟩ := head_nearD hz
      exact ⟨h1, h2, k, us, by rw [e]⟩
  | _ => cases hy

theorem pushedT_apart {leaves : List Nat} {x : List Str × Tree} (h : WF x.2) :
    (pushedT leaves x).Pairwise Apart := by
  obtain ⟨ts, o⟩ := x
  cases o with
  | obj c fs =>
    unfold pushedT
    by_cases hc : c ∈ leaves
    · simp [hc]
    · simp only [hc, if_false]
      simp only [WF] at h
      rw [List.pairwise_map]
      exact (nearD_apart fs h.1 h.2.2).imp fun ⟨a, b⟩ =>
        ⟨fun e => a ((List.prefix_append_right_inj ts).1 e), fun e => b ((List.prefix_append_right_inj ts).1 e)⟩
  | _ => exact List.Pairwise.nil

/-- The walk: what it yields, by tokens. -/
theorem walk_spec (leaves : List Nat) : ∀ (n : Nat) (st : List (List Str × Tree)),
    weightD (onStack st) = n → (∀ x ∈ st, WF x.2 ∧ isObj x.2 = true) → st.Pairwise Apart →
    ∃ out : List (List Str × Tree), walk leaves (onStack st) = onStack out ∧
      (∀ ts o, (ts, o) ∈ out ↔ isObj o = true ∧ Via leaves st ts o) ∧
      out.Pairwise (fun a b => ¬ b.1 <+: a.1) := by
  intro n
  induction n using Nat.strongRecOn with
  | _ n ih =>
    intro st hn hw hp
    cases st with
    | nil =>
      refine ⟨[], ?_, ?_, List.Pairwise.nil⟩
      · simp only [onStack, List.map_nil]; rw [walk]
      · intro ts o
        constructor
        · intro h; cases h
        · rintro ⟨_, x, hx, _⟩; cases hx
    | cons x rest =>
      obtain ⟨ts, o⟩ := x
      obtain ⟨hwo, hoo⟩ := hw _ (List.mem_cons_self ..)
      cases o with
      | obj c fs =>
        rw [List.pairwise_cons] at hp
        have hpush := pushed_eq leaves ts (.obj c fs) hwo
        have hpw := pushedT_wf (leaves := leaves) (x := (ts, .obj c fs)) hwo
        have hpa := pushedT_apart (leaves := leaves) (x := (ts, .obj c fs)) hwo
        generalize hl : pushedT leaves (ts, .obj c fs) = l at hpush hpw hpa
        have hst : (pushed leaves (pointer ts) (.obj c fs)).reverse ++ onStack rest
            = onStack (l.reverse ++ rest) := by
          rw [hpush]; simp [onStack]
        have hwt : weightD (onStack (l.reverse ++ rest)) < n := by
          rw [← hst, weightD_append, weightD_reverse, ← hn]
          simp only [onStack, List.map_cons, weightD]
          have := weight_children c fs
          simp only [pushed]
          by_cases h : c ∈ leaves
          · rw [if_pos h]; simp only [weightD, weight]; omega
          · rw [if_neg h, weightD_map (fun i => pointer ts ++ '/' :: i.1)]; omega
        have hap : (l.reverse ++ rest).Pairwise Apart := by
          rw [List.pairwise_append]
          refine ⟨?_, hp.2, ?_⟩
          · rw [List.pairwise_reverse]
            exact hpa.imp fun h => ⟨h.2, h.1⟩
          · intro y hy z hz
            obtain ⟨_, _, k, us, e⟩ := hpw y (List.mem_reverse.1 hy)
            have hxz := hp.1 z hz
            simp only [Apart] at hxz ⊢
            rw [e]
            constructor
            · intro h; exact hxz.1 (List.IsPrefix.trans (List.prefix_append ..) h)
            · intro h
              rcases List.prefix_or_prefix_of_prefix h (List.prefix_append ts (k :: us)) with h | h
              · exact hxz.2 h
              · exact hxz.1 h
        obtain ⟨out, h1, h2, h3⟩ := ih _ hwt (l.reverse ++ rest) rfl (by
          intro y hy
          rcases List.mem_append.1 hy with hy | hy
          · exact ⟨(hpw y (List.mem_reverse.1 hy)).1, (hpw y (List.mem_reverse.1 hy)).2.1⟩
          · exact hw y (List.mem_cons_of_mem _ hy)) hap
        have hvia : ∀ us o, isObj o = true → (Via leaves l us o ↔
            ∃ vs, us = ts ++ vs ∧ c ∉ leaves ∧ Via leaves (nearD fs) vs o) := by
          intro us o _
          rw [← hl]
          unfold pushedT
          by_cases hc : c ∈ leaves
          · simp only [hc, if_true]
            constructor
            · rintro ⟨x, hx, _⟩; cases hx
            · rintro ⟨_, _, h, _⟩; exact absurd trivial h
          · simp only [hc, if_false]
            constructor
            · rintro ⟨x, hx, vs, rfl, h⟩
              simp only [List.mem_map] at hx
              obtain ⟨y, hy, rfl⟩ := hx
              exact ⟨y.1 ++ vs, by simp, not_false, y, hy, vs, rfl, h⟩
            · rintro ⟨vs, rfl, _, y, hy, ws, rfl, h⟩
              exact ⟨_, List.mem_map.2 ⟨y, hy, rfl⟩, ws, by simp, h⟩
        refine ⟨(ts, .obj c fs) :: out, ?_, ?_, ?_⟩
        · rw [onStack, List.map_cons, walk]
          simp only [onStack, List.map_cons, List.cons.injEq, true_and]
          have h1' := h1
          rw [← hst] at h1'
          exact h1'
        · intro us u
          have hsplit : isObj u = true → (Via leaves ((ts, Tree.obj c fs) :: rest) us u ↔
              (us = ts ∧ u = .obj c fs) ∨ Via leaves (l.reverse ++ rest) us u) := by
            intro hu
            rw [via_append]
            have hrev : Via leaves l.reverse us u ↔ Via leaves l us u := by
              simp only [Via, List.mem_reverse]
            rw [hrev, hvia us u hu, ← List.singleton_append, via_append]
            have hone : Via leaves [(ts, Tree.obj c fs)] us u ↔
                ∃ vs, us = ts ++ vs ∧ At leaves (.obj c fs) vs u := by
              constructor
              · rintro ⟨x, hx, vs, rfl, h⟩
                rw [List.mem_singleton] at hx; subst hx; exact ⟨vs, rfl, h⟩
              · rintro ⟨vs, rfl, h⟩; exact ⟨_, List.mem_singleton.2 rfl, vs, rfl, h⟩
            rw [hone, ← or_assoc]
            refine or_congr ?_ Iff.rfl
            constructor
            · rintro ⟨vs, rfl, h⟩
              rcases (at_obj leaves c fs vs u hu).1 h with ⟨rfl, rfl⟩ | h
              · exact Or.inl ⟨by simp, rfl⟩
              · exact Or.inr ⟨vs, rfl, h⟩
            · rintro (⟨rfl, rfl⟩ | ⟨vs, rfl, h⟩)
              · exact ⟨[], by simp, .here _⟩
              · exact ⟨vs, rfl, (at_obj leaves c fs vs u hu).2 (Or.inr h)⟩
          rw [List.mem_cons, h2]
          constructor
          · rintro (e | ⟨hu, h⟩)
            · cases e
              exact ⟨rfl, (hsplit rfl).2 (Or.inl ⟨rfl, rfl⟩)⟩
            · exact ⟨hu, (hsplit hu).2 (Or.inr h)⟩
          · rintro ⟨hu, h⟩
            rcases (hsplit hu).1 h with ⟨rfl, rfl⟩ | h
            · exact Or.inl rfl
            · exact Or.inr ⟨hu, h⟩
        · rw [List.pairwise_cons]
          refine ⟨?_, h3⟩
          rintro ⟨us, u⟩ hu hpre
          obtain ⟨_, x, hx, vs, rfl, _⟩ := (h2 us u).1 hu
          rcases List.mem_append.1 hx with hx | hx
          · obtain ⟨_, _, k, ws, e⟩ := hpw x (List.mem_reverse.1 hx)
            simp only [e] at hpre
            have := hpre.length_le
            simp at this
            omega
          · exact (hp.1 x hx).2 (List.IsPrefix.trans (List.prefix_append ..) hpre)
      | _ => cases hoo

/-! ## following tokens -/

/-- a place is what resolving its tokens gives -/
theorem resolve_at {leaves : List Nat} {t u : Tree} {ts : List Str} (h : At leaves t ts u) (hw : WF t) :
    resolve ts t = .ok u := by
  induction h with
  | here => rw [resolve]
  | field c fs n v ts u _ hn _ ih =>
    rw [WF] at hw
    rw [resolve, Dict.get?_of_mem hw.1 hn]
    exact ih (wf_of_mem hw.2.2 hn)
  | item l i v ts u hi _ ih =>
    rw [WF] at hw
    rw [resolve, intOf_natStr]
    have hx : pyIndex l (i : Int) = some v := by simp [pyIndex, hi]
    simp only [hx]
    exact ih (wf_of_getElem hw hi)
  | key d k v ts u hk _ ih =>
    rw [WF] at hw
    rw [resolve, Dict.get?_of_mem hw.1 hk]
    exact ih (wf_of_mem hw.2 hk)
where
  wf_of_mem {d : List (Str × Tree)} {k : Str} {v : Tree} (hw : WFDict d) (h : (k, v) ∈ d) : WF v := by
    induction d with
    | nil => cases h
    | cons e d ih =>
      obtain ⟨k', v'⟩ := e
      rw [WFDict] at hw
      rcases List.mem_cons.1 h with e | h
      · cases e; exact hw.1
      · exact ih hw.2 h
  wf_of_getElem {l : List Tree} {i : Nat} {v : Tree} (hw : WFList l) (h : l[i]? = some v) : WF v := by
    induction l generalizing i with
    | nil => simp at h
    | cons e l ih =>
      rw [WFList] at hw
      cases i with
      | zero => simp at h; subst h; exact hw.1
      | succ i => exact ih hw.2 (by simpa using h)

end Proofs.ScanTree
