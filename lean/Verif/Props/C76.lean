import Verif.Proofs.ParentMerge
/-!
# C76: the parent of an object is the object that holds it
-/

namespace Props.C76
open Py Tree Doc Parent Spec.Parents

/-! ## the classes of Swagger 2.0 -/

/-- `Fits` for a value without objects, as a test -/
def fitsB : Kind → Tree → Bool
  | _, .atom .none => true
  | .boolOr _, .atom (.bool _) => true
  | .list _, .list [] => true
  | .dict _, .dict [] => true
  | _, _ => false

theorem fits_of_test {k : Kind} {t : Tree} (h : fitsB k t = true) : Fits k (.plain t) := by
  unfold fitsB at h
  split at h
  · exact .none k
  · exact .bool _ _
  · exact .emptyList _
  · exact .emptyDict _
  · cases h

/-- `Sane` for one class, as a test -/
def saneB (k : Cls) : Bool :=
  decide ((k.fields.map Prod.fst).Nodup) && decide ((k.child.map Prod.fst).Nodup) &&
    (k.child.all fun e => (k.fields.map Prod.fst).contains e.1) &&
    k.fields.all fun f => match Dict.get? k.child f.1 with
      | none => true
      | some kind => fitsB kind f.2

theorem sane_table : (classes.all saneB) = true := by decide +kernel

/-- The classes of Swagger 2.0 are as the theorems below need them. -/
theorem sane_v20 : Sane v20 := by
  intro c
  have h : saneB (v20 c) = true := by
    by_cases hc : c < classes.length
    · have : v20 c = classes[c] := by simp [v20, List.getD, hc]
      rw [this]
      exact List.all_eq_true.1 sane_table _ (List.getElem_mem hc)
    · have : v20 c = ⟨[], []⟩ := by
        simp only [v20, List.getD]
        rw [List.getElem?_eq_none (by omega)]
        rfl
      rw [this]
      decide
  simp only [saneB, Bool.and_eq_true, decide_eq_true_eq, List.all_eq_true] at h
  obtain ⟨⟨⟨h1, h2⟩, h3⟩, h4⟩ := h
  refine ⟨h1, h2, fun e he => ?_, fun f hf k hk => ?_⟩
  · simpa using h3 e he
  · have := h4 f hf
    rw [hk] at this
    exact fits_of_test this

/-! ## reading a document -/

/-- Reading with identities reads the same document: it fails when reading fails, and gives the same value. -/
theorem C76_parse_same {G : Grammar} (hG : Sane G) (c : Nat) (j : Tree) (h : Heap) :
    (parseAs G (.one c) j h).map (fun r => erase r.1) = Doc.parse G c j := by
  unfold Doc.parse
  rcases parse_reads hG j (.one c) h with ⟨h1, h2⟩ | ⟨v, h', h1, h2, -⟩
  · rw [h1, h2]; rfl
  · rw [h1, h2]; rfl

/-- After reading a document: the objects are new and distinct and no other object has got another parent; the root has no
parent; and the parent of an object of the document is the object of it that holds it in a field. -/
theorem C76_parse {G : Grammar} (hG : Sane G) (c : Nat) (j : Tree) (h h' : Heap) (t : LTree)
    (hp : parseAs G (.one c) j h = some (t, h')) :
    (∀ i ∈ ids t, h.next ≤ i ∧ i < h'.next) ∧ (ids t).Nodup ∧ (∀ i, i < h.next → h'.parent i = h.parent i) ∧
    Shaped G t ∧
    (∃ r fs, t = .obj r c fs ∧ h'.parent r = none) ∧
    ∀ i ∈ ids t, ∀ p, h'.parent i = some p ↔ ∃ o ∈ objects t, o.id = p ∧ i ∈ heldD o.fields := by
  rcases parse_reads hG j (.one c) h with ⟨h1, h2⟩ | ⟨v, h1', h1, h2, hi, -, hr⟩
  · rw [hp] at h2; cases h2
  · rw [hp] at h1
    simp only [Option.some.injEq, Prod.mk.injEq] at h1
    obtain ⟨rfl, rfl⟩ := h1
    obtain ⟨r, fs, ht, hroot⟩ := hr c rfl
    refine ⟨?_, hi.nodup, hi.frame, hi.shaped, ⟨r, fs, ht, hroot⟩, ?_⟩
    · intro i hm
      obtain ⟨o, ho, rfl⟩ := List.mem_map.1 hm
      exact hi.range o ho
    · intro i hm p
      constructor
      · intro hpar
        have := (perm_ids t).symm.subset hm
        rcases List.mem_append.1 this with hh | hh
        · rw [ht] at hh
          simp only [held, List.mem_singleton] at hh
          rw [hh, hroot] at hpar
          cases hpar
        · obtain ⟨o, ho, hj⟩ := mem_inner.1 hh
          have := hi.right o ho i hj
          rw [hpar] at this
          exact ⟨o, ho, by cases this; rfl, hj⟩
      · rintro ⟨o, ho, rfl, hj⟩
        exact hi.right o ho i hj

/-! ## merging -/

/-- Merging with identities merges the same. -/
theorem C76_merge_same {G : Grammar} (hG : Sane G) (order : List Atom → List Atom) (exclude : List Str) (c i i' : Nat)
    (fs os : List (Str × LTree)) (h : Heap) (hs : Shaped G (.obj i c fs)) (ho : Shaped G (.obj i' c os))
    (hn : (ids (.obj i c fs)).Nodup) (hlt : ∀ j ∈ ids (.obj i c fs), j < h.next) :
    (Parent.merge G order exclude (.obj i c fs) (.obj i' c os) h).map (fun r => erase r.1) =
      Doc.merge G order exclude (erase (.obj i c fs)) (erase (.obj i' c os)) := by
  have hn' : ((objectsD fs).map Item.id).Nodup := by
    simp only [ids, objects, List.map_cons] at hn
    exact (List.nodup_cons.1 hn).2
  simp only [Parent.merge, Doc.merge, erase]
  rcases mergeFields_eq hG order exclude c os (objects_shaped_D ho) (ho ⟨i', c, os⟩ (by simp [objects])).2 fs h
    (hs ⟨i, c, fs⟩ (by simp [objects])).2 (fun o ho => hlt _ (List.mem_map_of_mem (by simp [objects, ho]))) hn' with
    ⟨h1, h2⟩ | ⟨fs', h', new, h1, h2, he', hnm, -⟩
  · rw [h1, h2]; rfl
  · rw [h1, h2]
    obtain ⟨h'', e, -⟩ := assign_shaped hG (i := i) (c := c) (fs := fs')
      ⟨hnm.trans (hs ⟨i, c, fs⟩ (by simp [objects])).1, he'⟩ i h'
    simp only [e, Option.map_some, erase]

/-- After merging an object into another: the objects of the result are those it had or new ones (copies, never an object
of the other), each once; every object held by one of them has it as its parent; and no object there was before has got
another parent, those of the other object included. -/
theorem C76_merge {G : Grammar} (hG : Sane G) (order : List Atom → List Atom) (exclude : List Str) (c i i' : Nat)
    (fs os : List (Str × LTree)) (h h' : Heap) (t : LTree)
    (hs : Shaped G (.obj i c fs)) (ho : Shaped G (.obj i' c os))
    (hn : (ids (.obj i c fs)).Nodup) (hlt : ∀ j ∈ ids (.obj i c fs), j < h.next)
    (hright : Right h.parent (.obj i c fs))
    (hm : Parent.merge G order exclude (.obj i c fs) (.obj i' c os) h = some (t, h')) :
    (∃ fs', t = .obj i c fs') ∧ Shaped G t ∧ (ids t).Nodup ∧
    (∀ j ∈ ids t, j ∈ ids (.obj i c fs) ∨ (h.next ≤ j ∧ j < h'.next)) ∧
    Right h'.parent t ∧ ∀ j, j < h.next → h'.parent j = h.parent j := by
  have hi : i < h.next := hlt i (by simp [ids, objects])
  have hn0 : i ∉ (objectsD fs).map Item.id ∧ ((objectsD fs).map Item.id).Nodup := by
    simp only [ids, objects, List.map_cons] at hn
    exact List.nodup_cons.1 hn
  have hltD : ∀ o ∈ objectsD fs, o.id < h.next := fun o ho => hlt _ (List.mem_map_of_mem (by simp [objects, ho]))
  simp only [Parent.merge] at hm
  rcases mergeFields_eq hG order exclude c os (objects_shaped_D ho) (ho ⟨i', c, os⟩ (by simp [objects])).2 fs h
    (hs ⟨i, c, fs⟩ (by simp [objects])).2 hltD hn0.2 with
    ⟨h1, h2⟩ | ⟨fs', h1', new, h1, -, he', hnm, hinv, hcl, hobj, hheld, hnd⟩
  · rw [h2] at hm; cases hm
  · rw [h1] at hm
    have hsh : ShapedItem G ⟨i, c, fs'⟩ := ⟨hnm.trans (hs ⟨i, c, fs⟩ (by simp [objects])).1, he'⟩
    obtain ⟨h'', e, hnx, p⟩ := assign_shaped hG hsh i h1'
    simp only [e, Option.some.injEq, Prod.mk.injEq] at hm
    obtain ⟨rfl, rfl⟩ := hm
    have hle := hinv.le
    -- the objects held by `fs` have `i` as their parent before
    have hold : ∀ j ∈ heldD fs, h.parent j = some i := fun j hj => hright ⟨i, c, fs⟩ (by simp [objects]) j hj
    have hheldlt : ∀ j ∈ heldD fs, j < h.next := by
      intro j hj
      obtain ⟨o, ho, rfl⟩ := List.mem_map.1 ((perm_idsD fs).subset (List.mem_append_left _ hj))
      exact hltD o ho
    have hframe : ∀ j, j < h.next → h''.parent j = h.parent j := by
      intro j hj
      rw [p]
      split
      · rename_i hin
        rcases hheld j hin with hh | ⟨o, ho, rfl⟩
        · rw [hold j hh]
        · have := (hinv.range o ho).1; omega
      · exact hinv.frame j hj
    refine ⟨⟨fs', rfl⟩, ?_, ?_, ?_, ?_, hframe⟩
    · intro o ho
      simp only [objects, List.mem_cons] at ho
      rcases ho with rfl | ho
      · exact hsh
      · rcases hobj o ho with h | h
        · exact objects_shaped_D hs o h
        · exact hinv.shaped o h
    · simp only [ids, objects, List.map_cons]
      refine List.nodup_cons.2 ⟨fun hc => ?_, hnd⟩
      obtain ⟨o, ho, hid⟩ := List.mem_map.1 hc
      rcases hobj o ho with h | h
      · exact hn0.1 (hid ▸ List.mem_map_of_mem h)
      · have := (hinv.range o h).1; omega
    · intro j hj
      simp only [ids, objects, List.map_cons, List.mem_cons] at hj ⊢
      rcases hj with rfl | hj
      · exact .inl (.inl rfl)
      · obtain ⟨o, ho, rfl⟩ := List.mem_map.1 hj
        rcases hobj o ho with h | h
        · exact .inl (.inr (List.mem_map_of_mem h))
        · have := hinv.range o h
          rw [hnx]
          exact .inr this
    · intro o ho j hj
      simp only [objects, List.mem_cons] at ho
      rcases ho with rfl | ho
      · simp only at hj ⊢
        rw [p, if_pos hj]
      · rcases hobj o ho with hh | hh
        · -- an object that was there
          have hjlt : j < h.next := by
            obtain ⟨o', ho', rfl⟩ := closed_of_perm (perm_idsD fs) j (mem_inner.2 ⟨o, hh, hj⟩)
            exact hltD o' ho'
          rw [hframe j hjlt]
          exact hright o (by simp [objects, hh]) j hj
        · -- a copy
          have hpar := hinv.right o hh j hj
          rw [p]
          split
          · rename_i hin
            exfalso
            -- held twice
            have hno := ((perm_idsD fs').nodup_iff).2 hnd
            exact (List.nodup_append.1 hno).2.2 j hin j (mem_inner.2 ⟨o, ho, hj⟩) rfl
          · exact hpar

/-! ## the scan -/

/-- what the scan does, for objects no two of which hold the same one -/
theorem scan_eq {G : Grammar} (hG : Sane G) (l : List Item) (hs : ∀ o ∈ l, ShapedItem G o) (hn : (inner l).Nodup) (h : Heap) :
    ∃ h', scan G l h = some h' ∧ h'.next = h.next ∧
      (∀ o ∈ l, ∀ j ∈ heldD o.fields, h'.parent j = if o.cls ∈ handled then some o.id else h.parent j) ∧
      ∀ j, j ∉ inner l → h'.parent j = h.parent j := by
  induction l generalizing h with
  | nil => exact ⟨h, rfl, rfl, by simp, fun _ _ => rfl⟩
  | cons o l ih =>
    have hn' : (heldD o.fields ++ inner l).Nodup := by simpa [inner] using hn
    obtain ⟨n1, n2, n3⟩ := List.nodup_append.1 hn'
    by_cases hc : o.cls ∈ handled
    · obtain ⟨h1, e1, x1, p1⟩ := assign_shaped hG (i := o.id) (c := o.cls) (fs := o.fields) (hs o (by simp)) o.id h
      obtain ⟨h2, e2, x2, p2, q2⟩ := ih (fun o ho => hs o (by simp [ho])) n2 h1
      refine ⟨h2, by simp [scan, hc, e1, e2], x2.trans x1, ?_, ?_⟩
      · intro o' ho' j hj
        rcases List.mem_cons.1 ho' with rfl | ho'
        · rw [q2 j (fun hin => n3 j hj j hin rfl), p1, if_pos hj, if_pos hc]
        · rw [p2 o' ho' j hj, p1, if_neg (fun hin => n3 j hin j (mem_inner.2 ⟨o', ho', hj⟩) rfl)]
      · intro j hj
        have : j ∉ heldD o.fields ∧ j ∉ inner l := by
          constructor
          · exact fun hin => hj (mem_inner.2 ⟨o, by simp, hin⟩)
          · intro hin
            obtain ⟨o', ho', hj'⟩ := mem_inner.1 hin
            exact hj (mem_inner.2 ⟨o', by simp [ho'], hj'⟩)
        rw [q2 j this.2, p1, if_neg this.1]
    · obtain ⟨h2, e2, x2, p2, q2⟩ := ih (fun o ho => hs o (by simp [ho])) n2 h
      refine ⟨h2, by simp [scan, hc, e2], x2, ?_, ?_⟩
      · intro o' ho' j hj
        rcases List.mem_cons.1 ho' with rfl | ho'
        · rw [q2 j (fun hin => n3 j hj j hin rfl), if_neg hc]
        · exact p2 o' ho' j hj
      · intro j hj
        exact q2 j (fun hin => by
          obtain ⟨o', ho', hj'⟩ := mem_inner.1 hin
          exact hj (mem_inner.2 ⟨o', by simp [ho'], hj'⟩))

/-- The scan that follows the upgrade of a 1.2 document. Whatever the parents were, and in whatever order the objects of
the document are visited (each once, C03): it succeeds, the objects held by items, schemas, parameters, headers, responses,
operations, path items and the root have those as parents, and all others keep the parent they had. -/
theorem C76_scan {G : Grammar} (hG : Sane G) (t : LTree) (hs : Shaped G t) (hn : (ids t).Nodup)
    (order : List Item) (ho : order.Perm (objects t)) (h : Heap) :
    ∃ h', scan G order h = some h' ∧ h'.next = h.next ∧
      (∀ o ∈ objects t, ∀ j ∈ heldD o.fields,
        h'.parent j = if o.cls ∈ [cItems, cSchema, cParameter, cHeader, cResponse, cOperation, cPathItem, cSwagger]
          then some o.id else h.parent j) ∧
      ∀ j, (∀ o ∈ objects t, j ∉ heldD o.fields) → h'.parent j = h.parent j := by
  have hin : (inner order).Nodup := by
    have h1 : (inner (objects t)).Nodup := by
      have := ((perm_ids t).nodup_iff).2 hn
      exact (List.nodup_append.1 this).2.1
    exact ((ho.flatMap_right _).nodup_iff).2 h1
  obtain ⟨h', e, x, p, q⟩ := scan_eq hG order (fun o hm => hs o (ho.subset hm)) hin h
  refine ⟨h', e, x, fun o hm j hj => p o (ho.symm.subset hm) j hj, fun j hj => q j (fun hm => ?_)⟩
  obtain ⟨o, hm, hj'⟩ := mem_inner.1 hm
  exact hj o (ho.subset hm) hj'

/-- The classes of Swagger 2.0 the scan passes over although they hold objects: tags and the info object. -/
theorem C76_scan_missing (c : Nat) : ((v20 c).child ≠ [] ∧ c ∉ handled) ↔ c = cTag ∨ c = cInfo := by
  by_cases hc : c < 15
  · have : ∀ c < 15, ((v20 c).child ≠ [] ∧ c ∉ handled) ↔ c = cTag ∨ c = cInfo := by decide +kernel
    exact this c hc
  · have : v20 c = ⟨[], []⟩ := by
      simp only [v20, List.getD]
      rw [List.getElem?_eq_none (by simp [classes]; omega)]
      rfl
    rw [this]
    constructor
    · rintro ⟨h, -⟩; exact absurd rfl h
    · rintro (rfl | rfl) <;> exact absurd (by decide) hc

/-! ## inherited parameters -/

theorem mem_inheritAll (name : LTree → Str) (up own : List LTree) :
    ∀ v ∈ inheritAll name up own, v ∈ own ∨ v ∈ up := by
  induction up generalizing own with
  | nil => intro v hv; exact .inl hv
  | cons p up ih =>
    intro v hv
    simp only [inheritAll] at hv
    rcases ih _ v hv with h | h
    · split at h
      · exact .inl h
      · rcases List.mem_append.1 h with h | h
        · exact .inl h
        · simp only [List.mem_singleton] at h
          exact .inr (by simp [h])
    · exact .inr (by simp [h])

theorem own_inheritAll (name : LTree → Str) (up own : List LTree) : ∀ v ∈ own, v ∈ inheritAll name up own := by
  induction up generalizing own with
  | nil => intro v hv; exact hv
  | cons p up ih =>
    intro v hv
    simp only [inheritAll]
    apply ih
    split
    · exact hv
    · simp [hv]

theorem names_inheritAll (name : LTree → Str) (up own : List LTree) :
    ∀ v ∈ up, ∃ w ∈ inheritAll name up own, name w = name v := by
  induction up generalizing own with
  | nil => intro v hv; simp at hv
  | cons p up ih =>
    intro v hv
    simp only [inheritAll]
    rcases List.mem_cons.1 hv with rfl | hv
    · by_cases h : (own.any fun pp => name v == name pp) = true
      · obtain ⟨w, hw, he⟩ := List.any_eq_true.1 h
        refine ⟨w, own_inheritAll name up _ w (by simp [h, hw]), ?_⟩
        exact (by simpa using he : name v = name w).symm
      · refine ⟨v, own_inheritAll name up _ v (by simp [h]), rfl⟩
    · exact ih _ v hv

/-- The parameters an operation takes over from its path item are the very objects of the path item: the operation keeps
its own, of each name of the path item's there is one, and a parameter of the operation that is not one of its own is a
parameter of the path item, whose parent the path item stays. -/
theorem C76_inherited (name : LTree → Str) (own up : List LTree) (parent : Nat → Option Nat) (op item : Nat)
    (hown : ∀ j ∈ heldL own, parent j = some op) (hup : ∀ j ∈ heldL up, parent j = some item) :
    (∀ v ∈ own, v ∈ inherit name own up) ∧ (∀ v ∈ up, ∃ w ∈ inherit name own up, name w = name v) ∧
    ∀ v ∈ inherit name own up, (v ∈ own ∧ ∀ j ∈ held v, parent j = some op) ∨
      (v ∈ up ∧ ∀ j ∈ held v, parent j = some item) := by
  have hmem : ∀ v ∈ inherit name own up, v ∈ own ∨ v ∈ up := by
    intro v hv
    unfold inherit at hv
    split at hv
    · exact .inr hv
    · exact mem_inheritAll name up own v hv
  refine ⟨?_, ?_, fun v hv => ?_⟩
  · intro v hv
    unfold inherit
    split
    · rename_i h
      simp only [List.isEmpty_iff] at h
      simp [h] at hv
    · exact own_inheritAll name up own v hv
  · intro v hv
    unfold inherit
    split
    · exact ⟨v, hv, rfl⟩
    · exact names_inheritAll name up own v hv
  · rcases hmem v hv with h | h
    · exact .inl ⟨h, fun j hj => hown j (mem_heldL.2 ⟨v, h, hj⟩)⟩
    · exact .inr ⟨h, fun j hj => hup j (mem_heldL.2 ⟨v, h, hj⟩)⟩

/-- So it is not true of a prepared document that the parent of an object is the object that holds it: as soon as an
operation without parameters of its own takes over one of its path item. -/
theorem C76_inherited_false (name : LTree → Str) (parent : Nat → Option Nat) (op item c p cp : Nat) (pfs : List (Str × LTree))
    (fs : List (Str × LTree)) (up : List LTree) (hne : op ≠ item) (hp : LTree.obj p cp pfs ∈ up)
    (hup : ∀ j ∈ heldL up, parent j = some item) :
    ¬ Right parent (.obj op c ((c!"parameters", .list (inherit name [] up)) :: fs)) := by
  intro h
  have hin : p ∈ heldL up := mem_heldL.2 ⟨.obj p cp pfs, hp, by simp [held]⟩
  have := h ⟨op, c, (c!"parameters", .list (inherit name [] up)) :: fs⟩ (by simp [objects]) p (by
    simp only [heldD, held]
    exact List.mem_append_left _ hin)
  rw [hup p hin] at this
  simp only [Option.some.injEq] at this
  exact hne this.symm

/-! ## examples -/

/-- a document with a path, an operation, two parameters and a contact -/
def doc : Tree := .dict [
  (c!"info", .dict [(c!"contact", .dict [(c!"name", .atom (.str c!"me"))])]),
  (c!"paths", .dict [(c!"/a", .dict [
    (c!"parameters", .list [.dict [(c!"name", .atom (.str c!"x"))]]),
    (c!"get", .dict [(c!"parameters", .list [.dict [(c!"name", .atom (.str c!"y"))]])])])])]

def start : Heap := ⟨0, fun _ => none⟩

/-- class, identity and parent of the objects, in the order of the fields -/
def family (r : Option (LTree × Heap)) : Option (List (Nat × Nat × Option Nat)) :=
  r.map fun r => (objects r.1).map fun o => (o.cls, o.id, r.2.parent o.id)

example : family (parseAs v20 (.one cSwagger) doc start) =
    some [(cSwagger, 6, none), (cInfo, 5, some 6), (cContact, 4, some 5), (cPathItem, 3, some 6),
      (cOperation, 1, some 3), (cParameter, 0, some 1), (cParameter, 2, some 3)] := by decide +kernel

example : Sane v20 := sane_v20

/-- two path items, the second with an operation the first has not, merged: the copy of the operation is new (6), its
parameter (5) too, and the second (4) has kept its own -/
example : (parseAs v20 (.one cPathItem) (.dict [(c!"put", .dict [(c!"operationId", .atom (.str c!"p"))])]) start).bind (fun a =>
      (parseAs v20 (.one cPathItem) (.dict [(c!"get", .dict [(c!"parameters", .list [.dict []])])]) a.2).bind (fun b =>
        (Parent.merge v20 id [] a.1 b.1 b.2).map (fun r =>
          ((objects r.1).map (fun o => (o.cls, o.id, r.2.parent o.id)),
           (objects b.1).map (fun o => (o.cls, o.id, r.2.parent o.id)))))) =
    some ([(cPathItem, 1, none), (cOperation, 6, some 1), (cParameter, 5, some 6), (cOperation, 0, some 1)],
      [(cPathItem, 4, none), (cOperation, 3, some 4), (cParameter, 2, some 3)]) := by decide +kernel

/-- an upgraded document, whose objects have been built without parents: the scan leaves the contact without one -/
example : (parseAs v20 (.one cSwagger) doc start).bind (fun r =>
      (scan v20 (objects r.1) ⟨r.2.next, fun _ => none⟩).map (fun h =>
        (objects r.1).map (fun o => (o.cls, o.id, h.parent o.id)))) =
    some [(cSwagger, 6, none), (cInfo, 5, some 6), (cContact, 4, none), (cPathItem, 3, some 6),
      (cOperation, 1, some 3), (cParameter, 0, some 1), (cParameter, 2, some 3)] := by decide +kernel

example : ¬ Right (fun j => if j = 5 then some 9 else none)
    (.obj 7 cOperation [(c!"parameters", .list (inherit (fun _ => []) [] [.obj 5 cParameter []]))]) :=
  C76_inherited_false (fun _ => []) _ 7 9 cOperation 5 cParameter [] [] _ (by decide) (by simp) (by simp [heldL, held])

end Props.C76
