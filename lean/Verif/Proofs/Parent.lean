import Verif.Spec.Parents
import Verif.Proofs.Dict
/-!
# Parents: lemmas
-/

namespace Parent
open Py Tree Doc Spec.Parents

theorem eraseD_eq (d : List (Str × LTree)) : eraseD d = d.map fun e => (e.1, erase e.2) := by
  induction d with
  | nil => rfl
  | cons e d ih => obtain ⟨n, v⟩ := e; simp [eraseD, ih]

theorem eraseL_eq (l : List LTree) : eraseL l = l.map erase := by
  induction l with
  | nil => rfl
  | cons e d ih => simp [eraseL, ih]

theorem get_eraseD (d : List (Str × LTree)) (n : Str) : Dict.get? (eraseD d) n = (Dict.get? d n).map erase := by
  induction d with
  | nil => rfl
  | cons e d ih =>
    obtain ⟨m, v⟩ := e
    unfold eraseD
    unfold Dict.get?
    by_cases h : m = n
    · simp [h]
    · simp only [h, if_false]
      exact ih

theorem mem_heldD {d : List (Str × LTree)} {j : Nat} : j ∈ heldD d ↔ ∃ e ∈ d, j ∈ held e.2 := by
  induction d with
  | nil => simp [heldD]
  | cons e d ih => obtain ⟨n, v⟩ := e; simp [heldD, ih]

theorem mem_heldL {l : List LTree} {j : Nat} : j ∈ heldL l ↔ ∃ v ∈ l, j ∈ held v := by
  induction l with
  | nil => simp [heldL]
  | cons e d ih => simp [heldL, ih]

theorem mem_objectsD {d : List (Str × LTree)} {o : Item} : o ∈ objectsD d ↔ ∃ e ∈ d, o ∈ objects e.2 := by
  induction d with
  | nil => simp [objectsD]
  | cons e d ih => obtain ⟨n, v⟩ := e; simp [objectsD, ih]

/-- the objects held by the objects of a list -/
def inner (os : List Item) : List Nat := os.flatMap fun o => heldD o.fields

theorem inner_append (a b : List Item) : inner (a ++ b) = inner a ++ inner b := by simp [inner]

theorem mem_inner {os : List Item} {j : Nat} : j ∈ inner os ↔ ∃ o ∈ os, j ∈ heldD o.fields := by simp [inner]

theorem perm_mix {a b c d x y : List Nat} (h : (a ++ c).Perm x) (h' : (b ++ d).Perm y) :
    ((a ++ b) ++ (c ++ d)).Perm (x ++ y) := by
  rw [List.perm_iff_count] at *
  intro n
  have := h n
  have := h' n
  simp only [List.count_append] at *
  omega

mutual
/-- an object is held by the value or by one object of it -/
theorem perm_ids : ∀ v : LTree, (held v ++ inner (objects v)).Perm ((objects v).map Item.id)
  | .plain _ => by simp [held, objects, inner]
  | .list l => by simpa only [held, objects] using perm_idsL l
  | .dict d => by simpa only [held, objects] using perm_idsD d
  | .obj i c fs => by
    have := perm_idsD fs
    simp only [held, objects, inner, List.flatMap_cons, List.map_cons, List.cons_append, List.nil_append]
    exact List.Perm.cons _ this
theorem perm_idsL : ∀ l : List LTree, (heldL l ++ inner (objectsL l)).Perm ((objectsL l).map Item.id)
  | [] => by simp [heldL, objectsL, inner]
  | v :: l => by
    simp only [heldL, objectsL, inner_append, List.map_append]
    exact perm_mix (perm_ids v) (perm_idsL l)
theorem perm_idsD : ∀ d : List (Str × LTree), (heldD d ++ inner (objectsD d)).Perm ((objectsD d).map Item.id)
  | [] => by simp [heldD, objectsD, inner]
  | (n, v) :: d => by
    simp only [heldD, objectsD, inner_append, List.map_append]
    exact perm_mix (perm_ids v) (perm_idsD d)
end

/-! ## assigning -/

theorem assignAll_eq (s c : Nat) (l : List LTree) (hl : ∀ v ∈ l, ∃ i fs, v = .obj i c fs) (h : Heap) :
    ∃ h', assignAll s c l h = some h' ∧ h'.next = h.next ∧
      ∀ j, h'.parent j = if j ∈ heldL l then some s else h.parent j := by
  induction l generalizing h with
  | nil => exact ⟨h, rfl, rfl, fun j => by simp [heldL]⟩
  | cons v l ih =>
    obtain ⟨i, fs, rfl⟩ := hl v (by simp)
    obtain ⟨h', e, n, p⟩ := ih (fun w hw => hl w (by simp [hw])) (h.set i s)
    refine ⟨h', by simpa [assignAll, assignOne] using e, n, fun j => ?_⟩
    rw [p]
    by_cases hj : j ∈ heldL l
    · simp [hj, heldL]
    · by_cases hi : j = i
      · simp [hj, hi, heldL, held, Heap.set]
      · simp [hj, hi, heldL, held, Heap.set]

theorem assignField_eq (s : Nat) {k : Kind} {v : LTree} (hf : Fits k v) (h : Heap) :
    ∃ h', assignField s k v h = some h' ∧ h'.next = h.next ∧
      ∀ j, h'.parent j = if j ∈ held v then some s else h.parent j := by
  cases hf with
  | none => exact ⟨h, by cases k <;> rfl, rfl, fun j => by simp [held]⟩
  | one c i fs => exact ⟨h.set i s, by simp [assignField, assignOne], rfl, fun j => by simp [held, Heap.set]⟩
  | bool c b => exact ⟨h, rfl, rfl, fun j => by simp [held]⟩
  | boolOr c i fs => exact ⟨h.set i s, by simp [assignField, assignOne], rfl, fun j => by simp [held, Heap.set]⟩
  | emptyList c => exact ⟨h, rfl, rfl, fun j => by simp [held]⟩
  | list c l hl =>
    obtain ⟨h', e, n, p⟩ := assignAll_eq s c l hl h
    exact ⟨h', e, n, p⟩
  | emptyDict c => exact ⟨h, rfl, rfl, fun j => by simp [held]⟩
  | dict c d hd =>
    obtain ⟨h', e, n, p⟩ := assignAll_eq s c (d.map Prod.snd) (by
      intro v hv
      obtain ⟨x, hx, rfl⟩ := List.mem_map.1 hv
      exact hd x hx) h
    refine ⟨h', e, n, fun j => ?_⟩
    rw [p]
    have : j ∈ heldL (d.map Prod.snd) ↔ j ∈ heldD d := by
      rw [mem_heldL, mem_heldD]
      constructor
      · rintro ⟨v, hv, hj⟩
        obtain ⟨x, hx, rfl⟩ := List.mem_map.1 hv
        exact ⟨x, hx, hj⟩
      · rintro ⟨x, hx, hj⟩
        exact ⟨x.2, List.mem_map_of_mem hx, hj⟩
    by_cases hj : j ∈ heldD d
    · rw [if_pos (this.2 hj), if_pos (by simpa only [held] using hj)]
    · rw [if_neg (fun hc => hj (this.1 hc)), if_neg (fun hc => hj (by simpa only [held] using hc))]

theorem assignParent_eq (s : Nat) (fs : List (Str × LTree)) (child : List (Str × Kind))
    (hc : ∀ e ∈ child, ∃ v, Dict.get? fs e.1 = some v ∧ Fits e.2 v) (h : Heap) :
    ∃ h', assignParent s fs child h = some h' ∧ h'.next = h.next ∧
      ∀ j, ((∃ e ∈ child, ∃ v, Dict.get? fs e.1 = some v ∧ j ∈ held v) → h'.parent j = some s) ∧
        ((¬ ∃ e ∈ child, ∃ v, Dict.get? fs e.1 = some v ∧ j ∈ held v) → h'.parent j = h.parent j) := by
  induction child generalizing h with
  | nil => exact ⟨h, rfl, rfl, fun j => ⟨fun ⟨_, m, _⟩ => by simp at m, fun _ => rfl⟩⟩
  | cons e child ih =>
    obtain ⟨n, k⟩ := e
    obtain ⟨v, hv, hf⟩ := hc (n, k) (by simp)
    obtain ⟨h1, e1, n1, p1⟩ := assignField_eq s hf h
    obtain ⟨h2, e2, n2, p2⟩ := ih (fun e he => hc e (by simp [he])) h1
    simp only at hv
    refine ⟨h2, by simp only [assignParent, hv, e1, e2], n2.trans n1, fun j => ?_⟩
    by_cases hj : ∃ e ∈ child, ∃ v, Dict.get? fs e.1 = some v ∧ j ∈ held v
    · refine ⟨fun _ => (p2 j).1 hj, fun hn => absurd ?_ hn⟩
      obtain ⟨e, he, x⟩ := hj
      exact ⟨e, by simp [he], x⟩
    · have := (p2 j).2 hj
      rw [this, p1 j]
      constructor
      · rintro ⟨e, he, w, hw, hjw⟩
        rcases List.mem_cons.1 he with rfl | he
        · simp only [hv, Option.some.injEq] at hw
          subst hw
          simp [hjw]
        · exact absurd ⟨e, he, w, hw, hjw⟩ hj
      · intro hn
        have : j ∉ held v := fun hjv => hn ⟨(n, k), by simp, v, hv, hjv⟩
        simp [this]

theorem get_of_names {fs : List (Str × LTree)} (hn : (fs.map Prod.fst).Nodup) {e : Str × LTree} (he : e ∈ fs) :
    Dict.get? fs e.1 = some e.2 := Dict.get?_of_mem hn he

/-- the children of an object as its class says -/
theorem assign_shaped {G : Grammar} (hG : Sane G) {i c : Nat} {fs : List (Str × LTree)}
    (hs : ShapedItem G ⟨i, c, fs⟩) (s : Nat) (h : Heap) :
    ∃ h', assignParent s fs (G c).child h = some h' ∧ h'.next = h.next ∧
      ∀ j, h'.parent j = if j ∈ heldD fs then some s else h.parent j := by
  obtain ⟨hnames, hfields⟩ := hs
  simp only at hnames hfields
  obtain ⟨hnd, hcn, hsub, -⟩ := hG c
  have hfn : (fs.map Prod.fst).Nodup := hnames ▸ hnd
  obtain ⟨h', e, n, p⟩ := assignParent_eq s fs (G c).child (by
    intro e he
    have := hsub e he
    rw [← hnames] at this
    obtain ⟨x, hx, hxe⟩ := List.mem_map.1 this
    have hk : Dict.get? (G c).child e.1 = some e.2 := Dict.get?_of_mem hcn he
    have := hfields x hx
    rw [hxe, hk] at this
    exact ⟨x.2, by rw [← hxe]; exact get_of_names hfn hx, this⟩) h
  refine ⟨h', e, n, fun j => ?_⟩
  by_cases hj : j ∈ heldD fs
  · rw [if_pos hj]
    apply (p j).1
    obtain ⟨x, hx, hjx⟩ := mem_heldD.1 hj
    have hf := hfields x hx
    cases hk : Dict.get? (G c).child x.1 with
    | none =>
      rw [hk] at hf
      obtain ⟨t, ht⟩ := hf
      rw [ht] at hjx
      simp [held] at hjx
    | some k => exact ⟨(x.1, k), Dict.mem_of_get? hk, x.2, get_of_names hfn hx, hjx⟩
  · rw [if_neg hj]
    apply (p j).2
    rintro ⟨e, he, v, hv, hjv⟩
    exact hj (mem_heldD.2 ⟨(e.1, v), Dict.mem_of_get? hv, hjv⟩)

/-! ## new objects -/

/-- The objects are new between two states of the heap, and as they should be. -/
structure Inv (G : Grammar) (h h' : Heap) (os : List Item) : Prop where
  le : h.next ≤ h'.next
  range : ∀ o ∈ os, h.next ≤ o.id ∧ o.id < h'.next
  nodup : (os.map Item.id).Nodup
  frame : ∀ i, i < h.next → h'.parent i = h.parent i
  right : ∀ o ∈ os, ∀ j ∈ heldD o.fields, h'.parent j = some o.id
  shaped : ∀ o ∈ os, ShapedItem G o

/-- what the objects hold is among them -/
def Closed (os : List Item) : Prop := ∀ j ∈ inner os, ∃ o ∈ os, o.id = j

theorem closed_of_perm {a : List Nat} {os : List Item} (h : (a ++ inner os).Perm (os.map Item.id)) : Closed os := by
  intro j hj
  have := h.subset (List.mem_append_right a hj)
  obtain ⟨o, ho, e⟩ := List.mem_map.1 this
  exact ⟨o, ho, e⟩

theorem Inv.nil (G : Grammar) (h : Heap) : Inv G h h [] :=
  ⟨Nat.le_refl _, by simp, by simp, fun _ _ => rfl, by simp, by simp⟩

theorem Inv.append {G : Grammar} {h h1 h2 : Heap} {a b : List Item} (ha : Inv G h h1 a) (hb : Inv G h1 h2 b)
    (hc : Closed a) : Inv G h h2 (a ++ b) := by
  refine ⟨Nat.le_trans ha.le hb.le, ?_, ?_, ?_, ?_, ?_⟩
  · intro o ho
    have hl := ha.le
    have hl' := hb.le
    rcases List.mem_append.1 ho with ho | ho
    · have := ha.range o ho; omega
    · have := hb.range o ho; omega
  · rw [List.map_append]
    refine List.nodup_append.2 ⟨ha.nodup, hb.nodup, ?_⟩
    intro x hx y hy
    obtain ⟨o, ho, rfl⟩ := List.mem_map.1 hx
    obtain ⟨o', ho', rfl⟩ := List.mem_map.1 hy
    have := ha.range o ho
    have := hb.range o' ho'
    omega
  · intro i hi
    have := ha.le
    rw [hb.frame i (by omega), ha.frame i hi]
  · intro o ho j hj
    rcases List.mem_append.1 ho with ho | ho
    · obtain ⟨o', ho', rfl⟩ := hc j (mem_inner.2 ⟨o, ho, hj⟩)
      rw [hb.frame _ (ha.range o' ho').2]
      exact ha.right o ho _ hj
    · exact hb.right o ho j hj
  · intro o ho
    rcases List.mem_append.1 ho with ho | ho
    · exact ha.shaped o ho
    · exact hb.shaped o ho

theorem Inv.sub {G : Grammar} {h h' : Heap} {a b : List Item} (ha : Inv G h h' a) (hs : ∀ o ∈ b, o ∈ a)
    (hn : (b.map Item.id).Nodup) : Inv G h h' b :=
  ⟨ha.le, fun o ho => ha.range o (hs o ho), hn, ha.frame, fun o ho => ha.right o (hs o ho),
    fun o ho => ha.shaped o (hs o ho)⟩

theorem Inv.comm {G : Grammar} {h h' : Heap} {a b : List Item} (hi : Inv G h h' (a ++ b)) : Inv G h h' (b ++ a) := by
  refine hi.sub (fun o ho => ?_) ?_
  · rcases List.mem_append.1 ho with ho | ho <;> simp [ho]
  · have := hi.nodup
    exact ((List.perm_append_comm.map Item.id).nodup_iff).1 this

/-- a new object over new objects -/
theorem construct_inv {G : Grammar} (hG : Sane G) {h0 h : Heap} {c : Nat} {fs : List (Str × LTree)}
    (hi : Inv G h0 h (objectsD fs)) (hs : ∀ i, ShapedItem G ⟨i, c, fs⟩) :
    ∃ h', construct G c fs h = some (.obj h.next c fs, h') ∧ Inv G h0 h' (objects (.obj h.next c fs)) ∧
      h'.parent h.next = none := by
  obtain ⟨h', e, n, p⟩ := assign_shaped hG (hs 0) h.next
    ⟨h.next + 1, fun j => if j = h.next then none else h.parent j⟩
  have hle := hi.le
  have hheld : ∀ j ∈ heldD fs, ∃ o ∈ objectsD fs, o.id = j := by
    intro j hj
    obtain ⟨o, ho, e⟩ := List.mem_map.1 ((perm_idsD fs).subset (List.mem_append_left _ hj))
    exact ⟨o, ho, e⟩
  have hout : ∀ j ∈ heldD fs, h0.next ≤ j ∧ j < h.next := by
    intro j hj
    obtain ⟨o, ho, rfl⟩ := hheld j hj
    exact hi.range o ho
  have hnew : h.next ∉ heldD fs := fun hc => by have := hout _ hc; omega
  have hdis : ∀ j ∈ heldD fs, j ∉ inner (objectsD fs) := by
    intro j hj hj'
    have := ((perm_idsD fs).nodup_iff).2 hi.nodup
    exact (List.nodup_append.1 this).2.2 j hj j hj' rfl
  refine ⟨h', by simp [construct, e], ⟨?_, ?_, ?_, ?_, ?_, ?_⟩, ?_⟩
  · rw [n]; simp only; omega
  · intro o ho
    simp only [objects, List.mem_cons] at ho
    rw [n]
    rcases ho with rfl | ho
    · simp only; omega
    · have := hi.range o ho
      simp only; omega
  · simp only [objects, List.map_cons]
    refine List.nodup_cons.2 ⟨fun hc => ?_, hi.nodup⟩
    obtain ⟨o, ho, e⟩ := List.mem_map.1 hc
    have := hi.range o ho
    omega
  · intro i hlt
    rw [p, if_neg (fun hc => by have := hout i hc; omega)]
    simp only
    rw [if_neg (by omega)]
    exact hi.frame i hlt
  · intro o ho j hj
    simp only [objects, List.mem_cons] at ho
    rcases ho with rfl | ho
    · simp only at hj ⊢
      rw [p, if_pos hj]
    · have hin : j ∈ inner (objectsD fs) := mem_inner.2 ⟨o, ho, hj⟩
      obtain ⟨o', ho', rfl⟩ := closed_of_perm (perm_idsD fs) j hin
      rw [p, if_neg (fun hc => hdis _ hc hin)]
      have := hi.range o' ho'
      simp only
      rw [if_neg (by omega)]
      exact hi.right o ho _ hj
  · intro o ho
    simp only [objects, List.mem_cons] at ho
    rcases ho with rfl | ho
    · exact hs _
    · exact hi.shaped o ho
  · rw [p, if_neg hnew]
    simp

/-! ## reading -/

theorem nodup_objects_get {e : List (Str × LTree)} (hn : ((objectsD e).map Item.id).Nodup) {n m : Str} {v w : LTree}
    (hv : Dict.get? e n = some v) (hw : Dict.get? e m = some w) {o o' : Item} (ho : o ∈ objects v)
    (ho' : o' ∈ objects w) (hid : o.id = o'.id) : n = m := by
  induction e with
  | nil => simp [Dict.get?] at hv
  | cons x e ih =>
    obtain ⟨k, u⟩ := x
    simp only [objectsD, List.map_append] at hn
    obtain ⟨n1, n2, n3⟩ := List.nodup_append.1 hn
    unfold Dict.get? at hv hw
    by_cases h1 : k = n
    · by_cases h2 : k = m
      · rw [← h1, ← h2]
      · simp only [h1, if_true, Option.some.injEq] at hv
        simp only [h2, if_false] at hw
        subst hv
        exact absurd hid (n3 _ (List.mem_map_of_mem ho) _ (List.mem_map_of_mem
          (mem_objectsD.2 ⟨(m, w), Dict.mem_of_get? hw, ho'⟩)))
    · by_cases h2 : k = m
      · simp only [h1, if_false] at hv
        simp only [h2, if_true, Option.some.injEq] at hw
        subst hw
        exact absurd hid.symm (n3 _ (List.mem_map_of_mem ho') _ (List.mem_map_of_mem
          (mem_objectsD.2 ⟨(n, v), Dict.mem_of_get? hv, ho⟩)))
      · simp only [h1, if_false] at hv
        simp only [h2, if_false] at hw
        exact ih n2 hv hw

theorem nodup_objects_one {e : List (Str × LTree)} (hn : ((objectsD e).map Item.id).Nodup) {n : Str} {v : LTree}
    (hv : Dict.get? e n = some v) : ((objects v).map Item.id).Nodup := by
  induction e with
  | nil => simp [Dict.get?] at hv
  | cons x e ih =>
    obtain ⟨k, u⟩ := x
    simp only [objectsD, List.map_append] at hn
    obtain ⟨n1, n2, n3⟩ := List.nodup_append.1 hn
    unfold Dict.get? at hv
    by_cases h1 : k = n
    · simp only [h1, if_true, Option.some.injEq] at hv
      exact hv ▸ n1
    · simp only [h1, if_false] at hv
      exact ih n2 hv

/-- taking fields out of entries: no object comes twice -/
theorem nodup_taken {e fs : List (Str × LTree)} (hn : ((objectsD e).map Item.id).Nodup)
    (hf : (fs.map Prod.fst).Nodup)
    (hfs : ∀ x ∈ fs, Dict.get? e x.1 = some x.2 ∨ objects x.2 = []) : ((objectsD fs).map Item.id).Nodup := by
  induction fs with
  | nil => simp [objectsD]
  | cons x fs ih =>
    obtain ⟨n, v⟩ := x
    simp only [List.map_cons, List.nodup_cons] at hf
    simp only [objectsD, List.map_append]
    refine List.nodup_append.2 ⟨?_, ih hf.2 (fun x hx => hfs x (by simp [hx])), ?_⟩
    · rcases hfs (n, v) (by simp) with h | h
      · exact nodup_objects_one hn h
      · simp only at h; simp [h]
    · intro a ha b hb hab
      obtain ⟨o, ho, rfl⟩ := List.mem_map.1 ha
      obtain ⟨o', ho', rfl⟩ := List.mem_map.1 hb
      obtain ⟨y, hy, hoy⟩ := mem_objectsD.1 ho'
      rcases hfs (n, v) (by simp) with h | h
      · rcases hfs y (by simp [hy]) with h' | h'
        · have := nodup_objects_get hn h h' ho hoy hab
          simp only at this
          exact hf.1 (this ▸ List.mem_map_of_mem hy)
        · rw [h'] at hoy; simp at hoy
      · simp only at h; rw [h] at ho; simp at ho

theorem objects_taken {e fs : List (Str × LTree)}
    (hfs : ∀ x ∈ fs, Dict.get? e x.1 = some x.2 ∨ objects x.2 = []) : ∀ o ∈ objectsD fs, o ∈ objectsD e := by
  intro o ho
  obtain ⟨x, hx, hox⟩ := mem_objectsD.1 ho
  rcases hfs x hx with h | h
  · exact mem_objectsD.2 ⟨(x.1, x.2), Dict.mem_of_get? h, hox⟩
  · rw [h] at hox; simp at hox

/-- what entries of a dict are for a class -/
def Entries (cls : Cls) (e : List (Str × LTree)) : Prop :=
  ∀ x ∈ e, match Dict.get? cls.child x.1 with
    | none => ∃ t, x.2 = .plain t
    | some k => Fits k x.2

theorem emptyOf_fits {k : Kind} {t : Tree} (h : emptyOf k = some t) : Fits k (.plain t) := by
  cases k <;> simp [emptyOf] at h <;> subst h
  · exact .emptyList _
  · exact .emptyDict _

theorem assemble_taken (cls : Cls) (e : List (Str × LTree)) :
    ∀ x ∈ assemble cls e, Dict.get? e x.1 = some x.2 ∨ objects x.2 = [] := by
  intro x hx
  obtain ⟨f, hf, rfl⟩ := List.mem_map.1 hx
  simp only
  cases h : Dict.get? e f.1 with
  | some v => exact .inl rfl
  | none => exact .inr rfl

theorem assemble_shaped {G : Grammar} (hG : Sane G) {c : Nat} {e : List (Str × LTree)} (he : Entries (G c) e) (i : Nat) :
    ShapedItem G ⟨i, c, assemble (G c) e⟩ := by
  refine ⟨?_, ?_⟩
  · simp [assemble, Function.comp_def]
  · intro x hx
    simp only at hx ⊢
    obtain ⟨f, hf, rfl⟩ := List.mem_map.1 hx
    simp only
    cases h : Dict.get? e f.1 with
    | some v => exact he (f.1, v) (Dict.mem_of_get? h)
    | none =>
      cases hk : Dict.get? (G c).child f.1 with
      | none => exact ⟨_, rfl⟩
      | some k =>
        simp only [Option.bind_some]
        cases hm : emptyOf k with
        | none => exact (hG c).2.2.2 f hf k hk
        | some t => exact emptyOf_fits hm

theorem erase_assemble (cls : Cls) (e : List (Str × LTree)) :
    eraseD (assemble cls e) = Doc.assemble cls (eraseD e) := by
  rw [eraseD_eq]
  simp only [assemble, Doc.assemble, List.map_map]
  apply List.map_congr_left
  intro f _
  simp only [Function.comp_apply, get_eraseD]
  cases Dict.get? e f.1 <;> rfl

theorem defaults_shaped {G : Grammar} (hG : Sane G) (c i : Nat) :
    ShapedItem G ⟨i, c, (G c).fields.map fun f => (f.1, .plain f.2)⟩ := by
  refine ⟨by simp [Function.comp_def], ?_⟩
  intro x hx
  simp only at hx ⊢
  obtain ⟨f, hf, rfl⟩ := List.mem_map.1 hx
  simp only
  cases hk : Dict.get? (G c).child f.1 with
  | none => exact ⟨_, rfl⟩
  | some k => exact (hG c).2.2.2 f hf k hk

theorem objectsD_plain (l : List (Str × Tree)) : objectsD (l.map fun f => (f.1, .plain f.2)) = [] := by
  induction l with
  | nil => rfl
  | cons f l ih => simp [objectsD, objects, ih]

/-- reading with identities does what reading does, and more -/
def Reads (G : Grammar) (k : Kind) (h : Heap) (r : Option Tree) (r' : Option (LTree × Heap)) : Prop :=
  (r = none ∧ r' = none) ∨
  ∃ v h', r' = some (v, h') ∧ r = some (erase v) ∧ Inv G h h' (objects v) ∧ Fits k v ∧
    ∀ c, k = .one c → ∃ i fs, v = .obj i c fs ∧ h'.parent i = none

def ReadsL (G : Grammar) (c : Nat) (h : Heap) (r : Option (List Tree)) (r' : Option (List LTree × Heap)) : Prop :=
  (r = none ∧ r' = none) ∨
  ∃ v h', r' = some (v, h') ∧ r = some (eraseL v) ∧ Inv G h h' (objectsL v) ∧ ∀ w ∈ v, ∃ i fs, w = .obj i c fs

def ReadsD (G : Grammar) (c : Nat) (h : Heap) (r : Option (List (Str × Tree)))
    (r' : Option (List (Str × LTree) × Heap)) : Prop :=
  (r = none ∧ r' = none) ∨
  ∃ v h', r' = some (v, h') ∧ r = some (eraseD v) ∧ Inv G h h' (objectsD v) ∧ ∀ e ∈ v, ∃ i fs, e.2 = .obj i c fs

def ReadsE (G : Grammar) (cls : Cls) (h : Heap) (r : Option (List (Str × Tree)))
    (r' : Option (List (Str × LTree) × Heap)) : Prop :=
  (r = none ∧ r' = none) ∨
  ∃ v h', r' = some (v, h') ∧ r = some (eraseD v) ∧ Inv G h h' (objectsD v) ∧ Entries cls v

theorem isNull_eq {t : Tree} (h : isNull t = true) : t = .atom .none := by
  cases t with
  | atom a => cases a <;> simp_all [isNull]
  | _ => simp [isNull] at h

theorem parse_obj {G : Grammar} (hG : Sane G) (c : Nat) (d : List (Str × Tree)) (h : Heap)
    (ih : ReadsE G (G c) h (Doc.parseEntries G (G c) d) (parseEntries G (G c) d h)) :
    ((Doc.parseEntries G (G c) d).map (fun e => Tree.obj c (Doc.assemble (G c) e)) = none ∧
      ((parseEntries G (G c) d h).bind fun r => construct G c (assemble (G c) r.1) r.2) = none) ∨
    ∃ i fs h', ((parseEntries G (G c) d h).bind fun r => construct G c (assemble (G c) r.1) r.2) =
        some (.obj i c fs, h') ∧
      (Doc.parseEntries G (G c) d).map (fun e => Tree.obj c (Doc.assemble (G c) e)) = some (.obj c (eraseD fs)) ∧
      Inv G h h' (objects (.obj i c fs)) ∧ h'.parent i = none := by
  rcases ih with ⟨h1, h2⟩ | ⟨v, h', h1, h2, hi, he⟩
  · left; rw [h1, h2]; exact ⟨rfl, rfl⟩
  · right
    have hi' : Inv G h h' (objectsD (assemble (G c) v)) :=
      hi.sub (objects_taken (assemble_taken (G c) v))
        (nodup_taken hi.nodup (by simpa [assemble, Function.comp_def] using (hG c).1) (assemble_taken (G c) v))
    obtain ⟨h'', e, hi'', hp⟩ := construct_inv hG hi' (fun i => assemble_shaped hG he i)
    refine ⟨h'.next, assemble (G c) v, h'', ?_, ?_, hi'', hp⟩
    · rw [h1]; exact e
    · rw [h2]; simp only [Option.map_some, erase_assemble]

mutual
theorem parse_reads {G : Grammar} (hG : Sane G) : ∀ (t : Tree) (k : Kind) (h : Heap),
    Reads G k h (Doc.parseAs G k t) (parseAs G k t h)
  | .atom a, k, h => by
    simp only [Doc.parseAs, parseAs]
    unfold Doc.parseAtom parseAtom
    split
    · rename_i c
      right
      obtain ⟨h', e, hi, hp⟩ := construct_inv hG (h := h) (h0 := h) (c := c)
        (by rw [objectsD_plain]; exact Inv.nil G h) (fun i => defaults_shaped hG c i)
      refine ⟨_, h', e, ?_, hi, .one _ _ _, fun c' hc => ?_⟩
      · simp [erase, eraseD_eq, Function.comp_def]
      · cases hc; exact ⟨_, _, rfl, hp⟩
    · right
      exact ⟨_, h, rfl, rfl, Inv.nil G h, .bool _ _, fun _ hc => by cases hc⟩
    · right
      exact ⟨_, h, rfl, rfl, Inv.nil G h, .list _ _ (by simp), fun _ hc => by cases hc⟩
    · left
      refine ⟨rfl, ?_⟩
      split
      · simp_all
      · simp_all
      · simp_all
      · rfl
  | .list l, k, h => by
    simp only [Doc.parseAs, parseAs]
    cases k with
    | list c =>
      dsimp only
      rcases parseList_reads hG l c h with ⟨h1, h2⟩ | ⟨v, h', h1, h2, hi, hv⟩
      · left; rw [h1, h2]; exact ⟨rfl, rfl⟩
      · right
        rw [h1, h2]
        exact ⟨_, h', rfl, rfl, hi, .list _ _ hv, fun _ hc => by cases hc⟩
    | _ => left; exact ⟨rfl, rfl⟩
  | .dict d, k, h => by
    simp only [Doc.parseAs, parseAs]
    cases k with
    | one c =>
      rcases parse_obj hG c d h (parseEntries_reads hG d (G c) h) with h1 | ⟨i, fs, h', h1, h2, hi, hp⟩
      · exact .inl h1
      · exact .inr ⟨_, h', h1, h2, hi, .one _ _ _, fun c' hc => by cases hc; exact ⟨_, _, rfl, hp⟩⟩
    | boolOr c =>
      rcases parse_obj hG c d h (parseEntries_reads hG d (G c) h) with h1 | ⟨i, fs, h', h1, h2, hi, hp⟩
      · exact .inl h1
      · exact .inr ⟨_, h', h1, h2, hi, .boolOr _ _ _, fun c' hc => by cases hc⟩
    | dict c =>
      dsimp only
      rcases parseDict_reads hG d c h with ⟨h1, h2⟩ | ⟨v, h', h1, h2, hi, hv⟩
      · left; rw [h1, h2]; exact ⟨rfl, rfl⟩
      · right
        rw [h1, h2]
        exact ⟨_, h', rfl, rfl, hi, .dict _ _ hv, fun _ hc => by cases hc⟩
    | list c =>
      by_cases hd : d.isEmpty
      · right
        simp only [hd, if_true]
        exact ⟨_, h, rfl, rfl, Inv.nil G h, .list _ _ (by simp), fun _ hc => by cases hc⟩
      · left
        simp [hd]
  | .obj _ _, k, h => by
    left
    exact ⟨by simp only [Doc.parseAs], by simp only [parseAs]⟩
theorem parseEntries_reads {G : Grammar} (hG : Sane G) : ∀ (d : List (Str × Tree)) (cls : Cls) (h : Heap),
    ReadsE G cls h (Doc.parseEntries G cls d) (parseEntries G cls d h)
  | [], cls, h => by
    right
    simp only [Doc.parseEntries, parseEntries]
    exact ⟨_, h, rfl, rfl, Inv.nil G h, fun x hx => by simp at hx⟩
  | (n, v) :: d, cls, h => by
    simp only [Doc.parseEntries, parseEntries]
    rcases parseEntries_reads hG d cls h with ⟨h1, h2⟩ | ⟨r, h', h1, h2, hi, he⟩
    · left; rw [h1, h2]; exact ⟨rfl, rfl⟩
    · rw [h1, h2]
      simp only
      cases hk : Dict.get? cls.child n with
      | none =>
        right
        refine ⟨_, h', rfl, rfl, ?_, ?_⟩
        · simpa [objectsD, objects] using hi
        · intro x hx
          rcases List.mem_cons.1 hx with rfl | hx
          · simp only [hk]; exact ⟨_, rfl⟩
          · exact he x hx
      | some k =>
        simp only
        by_cases hn : isNull v = true
        · simp only [hn, if_true]
          right
          refine ⟨_, h', rfl, rfl, ?_, ?_⟩
          · simpa [objectsD, objects] using hi
          · intro x hx
            rcases List.mem_cons.1 hx with rfl | hx
            · simp only [hk]
              cases hm : emptyOf k with
              | none =>
                rw [isNull_eq hn]
                exact .none k
              | some t => exact emptyOf_fits hm
            · exact he x hx
        · simp only [hn, if_false, Bool.false_eq_true]
          rcases parse_reads hG v k h' with ⟨h3, h4⟩ | ⟨w, h'', h3, h4, hi', hf, -⟩
          · left; rw [h3, h4]; exact ⟨rfl, rfl⟩
          · right
            rw [h3, h4]
            refine ⟨_, h'', rfl, rfl, ?_, ?_⟩
            · simp only [objectsD]
              exact (hi.append hi' (closed_of_perm (perm_idsD r))).comm
            · intro x hx
              rcases List.mem_cons.1 hx with rfl | hx
              · simp only [hk]; exact hf
              · exact he x hx
theorem parseList_reads {G : Grammar} (hG : Sane G) : ∀ (l : List Tree) (c : Nat) (h : Heap),
    ReadsL G c h (Doc.parseList G c l) (parseList G c l h)
  | [], c, h => by
    right
    simp only [Doc.parseList, parseList]
    exact ⟨_, h, rfl, rfl, Inv.nil G h, fun x hx => by simp at hx⟩
  | v :: l, c, h => by
    simp only [Doc.parseList, parseList]
    rcases parse_reads hG v (.one c) h with ⟨h3, h4⟩ | ⟨w, h', h3, h4, hi, -, hf⟩
    · left; rw [h3, h4]; exact ⟨rfl, rfl⟩
    · rw [h3, h4]
      simp only
      rcases parseList_reads hG l c h' with ⟨h1, h2⟩ | ⟨r, h'', h1, h2, hi', hv⟩
      · left; rw [h1, h2]; exact ⟨rfl, rfl⟩
      · right
        rw [h1, h2]
        refine ⟨_, h'', rfl, rfl, ?_, ?_⟩
        · simp only [objectsL]
          exact hi.append hi' (closed_of_perm (perm_ids w))
        · intro x hx
          rcases List.mem_cons.1 hx with rfl | hx
          · obtain ⟨i, fs, e, -⟩ := hf c rfl
            exact ⟨i, fs, e⟩
          · exact hv x hx
theorem parseDict_reads {G : Grammar} (hG : Sane G) : ∀ (d : List (Str × Tree)) (c : Nat) (h : Heap),
    ReadsD G c h (Doc.parseDict G c d) (parseDict G c d h)
  | [], c, h => by
    right
    simp only [Doc.parseDict, parseDict]
    exact ⟨_, h, rfl, rfl, Inv.nil G h, fun x hx => by simp at hx⟩
  | (n, v) :: l, c, h => by
    simp only [Doc.parseDict, parseDict]
    rcases parse_reads hG v (.one c) h with ⟨h3, h4⟩ | ⟨w, h', h3, h4, hi, -, hf⟩
    · left; rw [h3, h4]; exact ⟨rfl, rfl⟩
    · rw [h3, h4]
      simp only
      rcases parseDict_reads hG l c h' with ⟨h1, h2⟩ | ⟨r, h'', h1, h2, hi', hv⟩
      · left; rw [h1, h2]; exact ⟨rfl, rfl⟩
      · right
        rw [h1, h2]
        refine ⟨_, h'', rfl, rfl, ?_, ?_⟩
        · simp only [objectsD]
          exact hi.append hi' (closed_of_perm (perm_ids w))
        · intro x hx
          rcases List.mem_cons.1 hx with rfl | hx
          · obtain ⟨i, fs, e, -⟩ := hf c rfl
            exact ⟨i, fs, e⟩
          · exact hv x hx
end

end Parent
