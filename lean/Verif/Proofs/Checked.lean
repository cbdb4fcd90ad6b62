import Verif.Spec.Pointed
import Verif.Proofs.Placed
/-! # Lemmas for C82: all places of a document, and whether it speaks about itself only -/

namespace Proofs.Checked
open Py Tree _root_.Doc Spec.Places Spec.Pointed Proofs.Placed

abbrev Spot := List Str × Kind × Tree

def below (n : Str) (l : List Spot) : List Spot := l.map fun x => (n :: x.1, x.2)

mutual
/-- all places of a value -/
def places : Kind → Tree → List Spot
  | k, .atom a => [([], k, .atom a)]
  | k, .obj c fs => [([], k, .obj c fs)]
  | .list c, .list l => ([], .list c, .list l) :: placesList c 0 l
  | .dict c, .dict d => ([], .dict c, .dict d) :: placesDict c d
  | .one c, .dict d => ([], .one c, .dict d) :: placesFields c d
  | .boolOr c, .dict d => ([], .boolOr c, .dict d) :: placesFields c d
  | k, t => [([], k, t)]
def placesList (c : Nat) : Nat → List Tree → List Spot
  | _, [] => []
  | i, t :: l => below (natStr i) (places (.one c) t) ++ placesList c (i + 1) l
def placesDict (c : Nat) : List (Str × Tree) → List Spot
  | [] => []
  | (n, t) :: d => below n (places (.one c) t) ++ placesDict c d
def placesFields (c : Nat) : List (Str × Tree) → List Spot
  | [] => []
  | (n, t) :: d =>
    (match Dict.get? (v20 c).child n with
    | some k => below n (places k t)
    | none => []) ++ placesFields c d
end

theorem places_here (k : Kind) (t : Tree) : ([], k, t) ∈ places k t := by
  cases t <;> cases k <;> simp [places]

theorem mem_below {n : Str} {l : List Spot} {ts : List Str} {x : Kind × Tree} (h : (ts, x) ∈ l) : (n :: ts, x) ∈ below n l :=
  List.mem_map.2 ⟨_, h, rfl⟩

theorem below_mem {n : Str} {l : List Spot} {ts : List Str} {x : Kind × Tree} (h : (ts, x) ∈ below n l) :
    ∃ us, ts = n :: us ∧ (us, x) ∈ l := by
  obtain ⟨⟨us, y⟩, hy, e⟩ := List.mem_map.1 h
  cases e
  exact ⟨us, rfl, hy⟩

theorem list_below {c : Nat} {x : Spot} : ∀ {l : List Tree} {j i : Nat} {v : Tree}, l[i]? = some v →
    x ∈ below (natStr (j + i)) (places (.one c) v) → x ∈ placesList c j l
  | [], j, i, v, h, _ => by simp at h
  | t :: l, j, i, v, h, hx => by
    rw [placesList]
    cases i with
    | zero => cases h; exact List.mem_append_left _ hx
    | succ i =>
      refine List.mem_append_right _ (list_below (i := i) (v := v) h ?_)
      rw [show j + 1 + i = j + (i + 1) by omega]
      exact hx

theorem dict_below {c : Nat} {x : Spot} {n : Str} {v : Tree} : ∀ {d : List (Str × Tree)}, (n, v) ∈ d →
    x ∈ below n (places (.one c) v) → x ∈ placesDict c d
  | (m, t) :: d, h, hx => by
    rw [placesDict]
    rcases List.mem_cons.1 h with h | h
    · cases h; exact List.mem_append_left _ hx
    · exact List.mem_append_right _ (dict_below h hx)

theorem fields_below {c : Nat} {x : Spot} {n : Str} {v : Tree} {k : Kind} (hk : Dict.get? (v20 c).child n = some k) :
    ∀ {d : List (Str × Tree)}, (n, v) ∈ d → x ∈ below n (places k v) → x ∈ placesFields c d
  | (m, t) :: d, h, hx => by
    rw [placesFields]
    rcases List.mem_cons.1 h with h | h
    · cases h; rw [hk]; exact List.mem_append_left _ hx
    · exact List.mem_append_right _ (fields_below hk h hx)

/-- every place is listed -/
theorem place_mem {k k' : Kind} {t u : Tree} {ts : List Str} (h : Place k t ts k' u) : (ts, k', u) ∈ places k t := by
  induction h with
  | here => exact places_here _ _
  | @field k c d n v k' ts k'' u htk hd hk _ ih =>
    have := fields_below hk (Dict.mem_of_get? hd) (mem_below ih)
    rcases htk with rfl | rfl <;> rw [places] <;> exact List.mem_cons_of_mem _ this
  | @item c l i v ts k' u hi _ ih =>
    rw [places]
    refine List.mem_cons_of_mem _ (list_below hi ?_)
    rw [Nat.zero_add]
    exact mem_below ih
  | key hd _ ih =>
    rw [places]
    exact List.mem_cons_of_mem _ (dict_below (Dict.mem_of_get? hd) (mem_below ih))

mutual
/-- and nothing else is -/
theorem mem_place : ∀ (t : Tree) (k : Kind), Plain t → ∀ x ∈ places k t, Place k t x.1 x.2.1 x.2.2
  | .atom a, k, _, x, hx => by
    rw [places] at hx
    cases List.mem_singleton.1 hx
    exact .here
  | .obj c fs, k, _, x, hx => by
    rw [places] at hx
    cases List.mem_singleton.1 hx
    exact .here
  | .list l, k, h, x, hx => by
    rw [Plain] at h
    cases k with
    | list c =>
      rw [places] at hx
      rcases List.mem_cons.1 hx with rfl | hx
      · exact .here
      · obtain ⟨i, v, us, h1, h2, h3⟩ := mem_list l c h 0 x hx
        obtain ⟨ts, k', u⟩ := x
        dsimp only at h2 h3 ⊢
        rw [h2, Nat.zero_add]
        exact .item h1 h3
    | _ =>
      simp only [places, List.mem_singleton] at hx
      subst hx
      exact .here
  | .dict d, k, h, x, hx => by
    rw [Plain] at h
    cases k with
    | list c =>
      simp only [places, List.mem_singleton] at hx
      subst hx
      exact .here
    | dict c =>
      rw [places] at hx
      rcases List.mem_cons.1 hx with rfl | hx
      · exact .here
      · obtain ⟨n, v, us, h1, h2, h3⟩ := mem_dict d c h.2 x hx
        obtain ⟨ts, k', u⟩ := x
        dsimp only at h2 h3 ⊢
        rw [h2]
        exact .key (Dict.get?_of_mem h.1 h1) h3
    | one c =>
      rw [places] at hx
      rcases List.mem_cons.1 hx with rfl | hx
      · exact .here
      · obtain ⟨n, v, us, k', h1, h2, h3, h4⟩ := mem_fields d c h.2 x hx
        obtain ⟨ts, k'', u⟩ := x
        dsimp only at h3 h4 ⊢
        rw [h3]
        exact .field (.inl rfl) (Dict.get?_of_mem h.1 h1) h2 h4
    | boolOr c =>
      rw [places] at hx
      rcases List.mem_cons.1 hx with rfl | hx
      · exact .here
      · obtain ⟨n, v, us, k', h1, h2, h3, h4⟩ := mem_fields d c h.2 x hx
        obtain ⟨ts, k'', u⟩ := x
        dsimp only at h3 h4 ⊢
        rw [h3]
        exact .field (.inr rfl) (Dict.get?_of_mem h.1 h1) h2 h4
theorem mem_list : ∀ (l : List Tree) (c : Nat), PlainList l → ∀ (j : Nat), ∀ x ∈ placesList c j l,
    ∃ i v us, l[i]? = some v ∧ x.1 = natStr (j + i) :: us ∧ Place (.one c) v us x.2.1 x.2.2
  | [], c, _, j, x, hx => by rw [placesList] at hx; cases hx
  | t :: l, c, h, j, x, hx => by
    rw [PlainList] at h
    rw [placesList] at hx
    rcases List.mem_append.1 hx with hx | hx
    · obtain ⟨ts, y⟩ := x
      obtain ⟨us, rfl, hy⟩ := below_mem hx
      exact ⟨0, t, us, rfl, rfl, mem_place t _ h.1 _ hy⟩
    · obtain ⟨i, v, us, h1, h2, h3⟩ := mem_list l c h.2 (j + 1) x hx
      refine ⟨i + 1, v, us, h1, ?_, h3⟩
      rw [h2, show j + 1 + i = j + (i + 1) by omega]
theorem mem_dict : ∀ (d : List (Str × Tree)) (c : Nat), PlainDict d → ∀ x ∈ placesDict c d,
    ∃ n v us, (n, v) ∈ d ∧ x.1 = n :: us ∧ Place (.one c) v us x.2.1 x.2.2
  | [], c, _, x, hx => by rw [placesDict] at hx; cases hx
  | (n, t) :: d, c, h, x, hx => by
    rw [PlainDict] at h
    rw [placesDict] at hx
    rcases List.mem_append.1 hx with hx | hx
    · obtain ⟨ts, y⟩ := x
      obtain ⟨us, rfl, hy⟩ := below_mem hx
      exact ⟨n, t, us, List.mem_cons_self .., rfl, mem_place t _ h.1 _ hy⟩
    · obtain ⟨m, v, us, h1, h2, h3⟩ := mem_dict d c h.2 x hx
      exact ⟨m, v, us, List.mem_cons_of_mem _ h1, h2, h3⟩
theorem mem_fields : ∀ (d : List (Str × Tree)) (c : Nat), PlainDict d → ∀ x ∈ placesFields c d,
    ∃ n v us k, (n, v) ∈ d ∧ Dict.get? (v20 c).child n = some k ∧ x.1 = n :: us ∧ Place k v us x.2.1 x.2.2
  | [], c, _, x, hx => by rw [placesFields] at hx; cases hx
  | (n, t) :: d, c, h, x, hx => by
    rw [PlainDict] at h
    rw [placesFields] at hx
    rcases List.mem_append.1 hx with hx | hx
    · split at hx
      · next k hk =>
        obtain ⟨ts, y⟩ := x
        obtain ⟨us, rfl, hy⟩ := below_mem hx
        exact ⟨n, t, us, k, List.mem_cons_self .., hk, rfl, mem_place t _ h.1 _ hy⟩
      · cases hx
    · obtain ⟨m, v, us, k, h1, h2, h3, h4⟩ := mem_fields d c h.2 x hx
      exact ⟨m, v, us, k, List.mem_cons_of_mem _ h1, h2, h3, h4⟩
end

/-! ## the check -/

mutual
def plain : Tree → Bool
  | .atom _ => true
  | .list l => plainList l
  | .dict d => decide ((d.map Prod.fst).Nodup) && plainDict d
  | .obj _ _ => false
def plainList : List Tree → Bool
  | [] => true
  | t :: l => plain t && plainList l
def plainDict : List (Str × Tree) → Bool
  | [] => true
  | (_, t) :: d => plain t && plainDict d
end

mutual
theorem plain_sound : ∀ t : Tree, plain t = true → Plain t
  | .atom _, _ => trivial
  | .list l, h => by rw [plain] at h; rw [Plain]; exact plainList_sound l h
  | .dict d, h => by
    rw [plain, Bool.and_eq_true] at h
    rw [Plain]
    exact ⟨of_decide_eq_true h.1, plainDict_sound d h.2⟩
  | .obj _ _, h => by rw [plain] at h; cases h
theorem plainList_sound : ∀ l : List Tree, plainList l = true → PlainList l
  | [], _ => trivial
  | t :: l, h => by
    rw [plainList, Bool.and_eq_true] at h
    rw [PlainList]
    exact ⟨plain_sound t h.1, plainList_sound l h.2⟩
theorem plainDict_sound : ∀ d : List (Str × Tree), plainDict d = true → PlainDict d
  | [], _ => trivial
  | (_, t) :: d, h => by
    rw [plainDict, Bool.and_eq_true] at h
    rw [PlainDict]
    exact ⟨plain_sound t h.1, plainDict_sound d h.2⟩
end

/-- the class an object is expected of -/
def takes : Kind → Option Nat
  | .one c => some c
  | .boolOr c => some c
  | _ => none

theorem takes_iff {k : Kind} {c : Nat} : takes k = some c ↔ Takes k c := by
  cases k <;> simp [takes, Takes]

/-- a null where an object is expected -/
def nullSpot : Spot → Bool
  | (_, .one _, .atom .none) => true
  | _ => false

/-- the reference names one of the places, of the same class -/
def targeted (l : List Spot) (url : Str) (c : Nat) (r : Str) : Bool :=
  l.any fun x => !x.1.isEmpty && (r == pointer x.1 || r == url ++ pointer x.1) && (takes x.2.1 == some c) &&
    match x.2.2 with
    | .dict _ => true
    | _ => false

def sound (l : List Spot) (url : Str) (x : Spot) : Bool :=
  match takes x.2.1, x.2.2 with
  | some c, .dict q =>
    match Dict.get? (v20 c).fields c!"$ref", Dict.get? q c!"$ref" with
    | some _, some (.atom (.str r)) => targeted l url c r
    | some _, some _ => false
    | _, _ => true
  | _, _ => true

/-- does the document speak about itself only? -/
def selfContained (D : Tree) (url : Str) : Bool :=
  plain D && (places (.one cSwagger) D).all fun x => !nullSpot x && sound (places (.one cSwagger) D) url x

theorem checked {D : Tree} {url : Str} (h : selfContained D url = true) : SelfContained D url := by
  rw [selfContained, Bool.and_eq_true, List.all_eq_true] at h
  obtain ⟨hp, hall⟩ := h
  have hp := plain_sound D hp
  refine ⟨hp, fun ts c hpl => ?_, fun ts c q v hw hf hr => ?_⟩
  · have := hall _ (place_mem hpl)
    simp [nullSpot] at this
  · obtain ⟨k, hk, hpl⟩ := hw
    have := hall _ (place_mem hpl)
    rw [Bool.and_eq_true] at this
    have hs := this.2
    unfold sound at hs
    dsimp only at hs
    rw [takes_iff.2 hk] at hs
    dsimp only at hs
    cases hfd : Dict.get? (v20 c).fields c!"$ref" with
    | none => exact absurd hfd hf
    | some dflt =>
      rw [hfd, hr] at hs
      cases v with
      | atom a =>
        cases a with
        | str r =>
          dsimp only at hs
          unfold targeted at hs
          rw [List.any_eq_true] at hs
          obtain ⟨⟨us, k', u⟩, hm, hx⟩ := hs
          simp only [Bool.and_eq_true, Bool.or_eq_true, beq_iff_eq] at hx
          obtain ⟨⟨⟨h1, h2⟩, h3⟩, h4⟩ := hx
          cases u with
          | dict q' =>
            refine ⟨r, us, q', rfl, ⟨?_, h2⟩, k', takes_iff.1 h3, mem_place D _ hp _ hm⟩
            intro e
            rw [e] at h1
            cases h1
          | _ => cases h4
        | _ => cases hs
      | _ => cases hs

/-- a dict written somewhere, from the list of places -/
theorem written_mem {D : Tree} (hp : plain D = true) {ts : List Str} {c : Nat} {q : Dict Str Tree} {k : Kind}
    (hk : takes k = some c) (h : (ts, k, .dict q) ∈ places (.one cSwagger) D) : Written D ts c q :=
  ⟨k, takes_iff.1 hk, mem_place D _ (plain_sound D hp) _ h⟩

end Proofs.Checked

namespace Proofs.Checked
open Py Tree _root_.Doc Spec.Places Spec.Pointed Proofs.Placed

/-! ## what the references lead to -/

theorem takes_unique {k : Kind} {c c' : Nat} (h : Takes k c) (h' : Takes k c') : c = c' := by
  have := takes_iff.2 h
  rw [takes_iff.2 h'] at this
  exact (Option.some.inj this).symm

/-- a place holds one value, read in one way -/
theorem place_unique {k k1 k2 : Kind} {t u1 u2 : Tree} {ts : List Str} (h1 : Place k t ts k1 u1) :
    Place k t ts k2 u2 → k1 = k2 ∧ u1 = u2 := by
  induction h1 with
  | here => intro h2; cases h2; exact ⟨rfl, rfl⟩
  | field htk hd hk _ ih =>
    intro h2
    cases h2 with
    | field htk' hd' hk' h2 =>
      cases takes_unique htk htk'
      rw [hd] at hd'; cases hd'
      rw [hk] at hk'; cases hk'
      exact ih h2
    | key _ _ => rcases htk with h | h <;> cases h
  | item hi _ ih =>
    intro h2
    generalize hn : natStr _ :: _ = us at h2
    cases h2 with
    | item hi' h2 =>
      injection hn with hn hts
      have := congrArg intOf? hn
      rw [intOf_natStr, intOf_natStr] at this
      have : _ = _ := Int.ofNat.inj (Option.some.inj this)
      subst this
      subst hts
      rw [hi] at hi'; cases hi'
      exact ih h2
    | here => cases hn
  | key hd _ ih =>
    intro h2
    cases h2 with
    | field htk' => rcases htk' with h | h <;> cases h
    | key hd' h2 =>
      rw [hd] at hd'; cases hd'
      exact ih h2

theorem pointer_inj {ts us : List Str} (h : pointer ts = pointer us) : ts = us := by
  have h1 := Proofs.ScanTree.split_pointer ts
  rw [h, Proofs.ScanTree.split_pointer] at h1
  injection h1 with _ h1
  exact h1.symm

theorem names_unique {url r : Str} (hu : '#' ∉ url) (hne : url ≠ []) {ts us : List Str} (h1 : Names url r ts)
    (h2 : Names url r us) : ts = us := by
  have key : ∀ a b : List Str, pointer a ≠ url ++ pointer b := by
    intro a b h
    cases url with
    | nil => exact hne rfl
    | cons x url =>
      injection h with h _
      exact hu (by rw [← h]; exact List.mem_cons_self ..)
  rcases h1.2 with rfl | rfl
  · rcases h2.2 with h | h
    · exact pointer_inj h
    · exact absurd h (key _ _)
  · rcases h2.2 with h | h
    · exact absurd h.symm (key _ _)
    · exact pointer_inj (List.append_cancel_left h)

/-- the schema at a place, if the reference names the place -/
def schemaAt (url r : Str) (x : Spot) : Option (Dict Str Tree) :=
  if !x.1.isEmpty && (r == pointer x.1 || r == url ++ pointer x.1) && takes x.2.1 == some cSchema then
    match x.2.2 with
    | .dict q => some q
    | _ => none
  else none

/-- the schema a reference leads to -/
def lookIn (D : Tree) (url r : Str) : Option (Dict Str Tree) := (places (.one cSwagger) D).findSome? (schemaAt url r)

theorem schemaAt_some {url r : Str} {x : Spot} {q : Dict Str Tree} :
    schemaAt url r x = some q ↔ Names url r x.1 ∧ Takes x.2.1 cSchema ∧ x.2.2 = .dict q := by
  unfold schemaAt Names
  rw [← takes_iff]
  by_cases h : (!x.1.isEmpty && (r == pointer x.1 || r == url ++ pointer x.1) && takes x.2.1 == some cSchema) = true
  · rw [if_pos h]
    simp only [Bool.and_eq_true, Bool.or_eq_true, beq_iff_eq, Bool.not_eq_true', List.isEmpty_eq_false_iff] at h
    obtain ⟨⟨h1, h2⟩, h3⟩ := h
    cases x.2.2 with
    | dict q' => simp [h1, h2, h3]
    | _ => simp
  · rw [if_neg h]
    simp only [Bool.and_eq_true, Bool.or_eq_true, beq_iff_eq, Bool.not_eq_true', List.isEmpty_eq_false_iff] at h
    constructor
    · intro h'; cases h'
    · rintro ⟨⟨h1, h2⟩, h3, -⟩
      exact absurd ⟨⟨h1, h2⟩, h3⟩ h

theorem findSome_mem {α β : Type} {f : α → Option β} {b : β} : ∀ {l : List α}, (∃ a ∈ l, f a = some b) →
    (∀ a ∈ l, ∀ b', f a = some b' → b' = b) → l.findSome? f = some b
  | [], h, _ => by obtain ⟨a, ha, -⟩ := h; cases ha
  | a :: l, h, hu => by
    rw [List.findSome?_cons]
    cases hf : f a with
    | some b' => rw [hu a (List.mem_cons_self ..) b' hf]
    | none =>
      obtain ⟨x, hx, hfx⟩ := h
      rcases List.mem_cons.1 hx with rfl | hx
      · rw [hf] at hfx; cases hfx
      · exact findSome_mem ⟨x, hx, hfx⟩ fun y hy => hu y (List.mem_cons_of_mem _ hy)

theorem looks {D : Tree} {url : Str} (hD : Plain D) (hu : '#' ∉ url) (hne : url ≠ []) (r : Str) (ts : List Str)
    (q : Dict Str Tree) (hn : Names url r ts) (hw : Written D ts cSchema q) : lookIn D url r = some q := by
  obtain ⟨k, hk, hp⟩ := hw
  refine findSome_mem ⟨_, place_mem hp, schemaAt_some.2 ⟨hn, hk, rfl⟩⟩ fun x hx b' hb => ?_
  obtain ⟨h1, h2, h3⟩ := schemaAt_some.1 hb
  have hp' := mem_place D _ hD x hx
  rw [names_unique hu hne h1 hn] at hp'
  have := (place_unique hp hp').2
  rw [h3] at this
  cases this; rfl

end Proofs.Checked
