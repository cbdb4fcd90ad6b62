import Verif.Proofs.Parent
/-!
# Parents: copying and merging
-/

namespace Parent
open Py Tree Doc Spec.Parents

theorem entries_of_shaped {G : Grammar} {o : Item} (h : ShapedItem G o) : Entries (G o.cls) o.fields := h.2

def Copies (G : Grammar) (k : Kind) (h : Heap) (v : LTree) (r : Option Tree) (r' : Option (LTree × Heap)) : Prop :=
  (r = none ∧ r' = none) ∨
  ∃ w h', r' = some (w, h') ∧ r = some (erase w) ∧ Inv G h h' (objects w) ∧ Fits k w ∧
    ∀ i c fs, v = .obj i c fs → k = .one c → ∃ i fs, w = .obj i c fs

theorem defaultOf_fits {G : Grammar} (hG : Sane G) {c : Nat} {n : Str} {k : Kind}
    (hn : ¬ (Dict.get? (G c).fields n).isNone) (hk : Dict.get? (G c).child n = some k) :
    Fits k (.plain (defaultOf (G c) n)) := by
  unfold defaultOf
  cases h : Dict.get? (G c).fields n with
  | none => simp [h] at hn
  | some t => exact (hG c).2.2.2 (n, t) (Dict.mem_of_get? h) k hk

theorem mergePlain_eq (order : List Atom → List Atom) (dflt t u : Tree) :
    (mergeField order dflt false t u none = none ∧ mergePlain order dflt (.plain t) (.plain u) = none) ∨
    ∃ w, mergePlain order dflt (.plain t) (.plain u) = some (.plain w) ∧ mergeField order dflt false t u none = some w := by
  unfold mergePlain
  simp only [erase]
  by_cases h : isDefault dflt u = true
  · right
    refine ⟨t, by simp [h], by simp [mergeField, h]⟩
  · simp only [h, Bool.false_eq_true, if_false]
    cases mergeField order dflt false t u none with
    | none => left; exact ⟨rfl, rfl⟩
    | some w => right; exact ⟨w, rfl, rfl⟩

theorem pick_eq (fields : List (Str × Tree)) (e : List (Str × LTree)) :
    (pick fields e = none ∧ Doc.pick fields (eraseD e) = none) ∨
    ∃ fs, pick fields e = some fs ∧ Doc.pick fields (eraseD e) = some (eraseD fs) ∧
      fs.map Prod.fst = fields.map Prod.fst ∧ ∀ x ∈ fs, Dict.get? e x.1 = some x.2 := by
  induction fields with
  | nil => right; exact ⟨[], rfl, rfl, rfl, by simp⟩
  | cons f fields ih =>
    simp only [pick, Doc.pick, get_eraseD]
    cases hv : Dict.get? e f.1 with
    | none => left; exact ⟨rfl, rfl⟩
    | some v =>
      rcases ih with ⟨h1, h2⟩ | ⟨fs, h1, h2, h3, h4⟩
      · left; rw [h1, h2]; exact ⟨rfl, rfl⟩
      · right
        rw [h1, h2]
        refine ⟨(f.1, v) :: fs, rfl, rfl, by simp [h3], ?_⟩
        intro x hx
        rcases List.mem_cons.1 hx with rfl | hx
        · exact hv
        · exact h4 x hx

theorem objects_shaped_D {G : Grammar} {i c : Nat} {fs : List (Str × LTree)} (h : Shaped G (.obj i c fs)) :
    ∀ o ∈ objectsD fs, ShapedItem G o := fun o ho => h o (by simp [objects, ho])

theorem copyObj_eq {G : Grammar} (hG : Sane G) (c : Nat) (h : Heap) {r : Option (List (Str × Tree))}
    {r' : Option (List (Str × LTree) × Heap)} (ih : ReadsE G (G c) h r r') :
    ((r.bind (Doc.pick (G c).fields)).map (Tree.obj c) = none ∧ copyObj G c r' = none) ∨
    ∃ i fs h', copyObj G c r' = some (.obj i c fs, h') ∧
      (r.bind (Doc.pick (G c).fields)).map (Tree.obj c) = some (.obj c (eraseD fs)) ∧
      Inv G h h' (objects (.obj i c fs)) := by
  rcases ih with ⟨h1, h2⟩ | ⟨e, h', h1, h2, hi, he⟩
  · left; rw [h1, h2]; exact ⟨rfl, by simp only [copyObj]⟩
  · rw [h1, h2]
    simp only [copyObj, Option.bind_some]
    rcases pick_eq (G c).fields e with ⟨h3, h4⟩ | ⟨fs, h3, h4, h5, h6⟩
    · left; rw [h3, h4]; exact ⟨rfl, rfl⟩
    · right
      rw [h3, h4]
      have ht : ∀ x ∈ fs, Dict.get? e x.1 = some x.2 ∨ objects x.2 = [] := fun x hx => .inl (h6 x hx)
      have hi' : Inv G h h' (objectsD fs) :=
        hi.sub (objects_taken ht) (nodup_taken hi.nodup (by rw [h5]; exact (hG c).1) ht)
      obtain ⟨h'', e1, hi'', -⟩ := construct_inv hG hi' (c := c) (fun i => ⟨h5, fun x hx => by
        exact he (x.1, x.2) (Dict.mem_of_get? (h6 x hx))⟩)
      exact ⟨_, fs, h'', e1, rfl, hi''⟩

mutual
theorem copy_eq {G : Grammar} (hG : Sane G) (order : List Atom → List Atom) : ∀ (v : LTree) (k : Kind) (h : Heap),
    Shaped G v → Fits k v → Copies G k h v (Doc.copyAs G order k (erase v)) (copyAs G order k v h)
  | .plain t, k, h, _, hf => by
    right
    cases hf with
    | none =>
      refine ⟨.plain (.atom .none), h, ?_, ?_, Inv.nil G h, .none k, fun _ _ _ e => by cases e⟩
      · cases k <;> simp [copyAs, copyAtom]
      · cases k <;> simp [erase, Doc.copyAs, copyAtom]
    | bool c b =>
      exact ⟨.plain (.atom (.bool b)), h, by simp [copyAs, copyAtom], by simp [erase, Doc.copyAs, copyAtom],
        Inv.nil G h, .bool c b, fun _ _ _ e => by cases e⟩
    | emptyList c =>
      exact ⟨.list [], h, by simp [copyAs], by simp [erase, eraseL, Doc.copyAs, Doc.copyList],
        Inv.nil G h, .list c [] (by simp), fun _ _ _ e => by cases e⟩
    | emptyDict c =>
      exact ⟨.dict [], h, by simp [copyAs], by simp [erase, eraseD, Doc.copyAs, Doc.copyDict],
        Inv.nil G h, .dict c [] (by simp), fun _ _ _ e => by cases e⟩
  | .list l, k, h, hs, hf => by
    cases hf with
    | list c _ hl =>
      simp only [erase, Doc.copyAs, copyAs]
      rcases copyList_eq hG order l c h (fun o ho => hs o (by simpa only [objects] using ho)) hl with
        ⟨h1, h2⟩ | ⟨w, h', h1, h2, hi, hv⟩
      · left; rw [h1, h2]; exact ⟨rfl, rfl⟩
      · right
        rw [h1, h2]
        exact ⟨_, h', rfl, rfl, hi, .list _ _ hv, fun _ _ _ e => by cases e⟩
  | .dict d, k, h, hs, hf => by
    cases hf with
    | dict c _ hl =>
      simp only [erase, Doc.copyAs, copyAs]
      rcases copyDict_eq hG order d c h (fun o ho => hs o (by simpa only [objects] using ho)) hl with
        ⟨h1, h2⟩ | ⟨w, h', h1, h2, hi, hv⟩
      · left; rw [h1, h2]; exact ⟨rfl, rfl⟩
      · right
        rw [h1, h2]
        exact ⟨_, h', rfl, rfl, hi, .dict _ _ hv, fun _ _ _ e => by cases e⟩
  | .obj i c os, k, h, hs, hf => by
    have he : Entries (G c) os := (hs ⟨i, c, os⟩ (by simp [objects])).2
    have ih := copyObj_eq hG c h (copyFields_eq hG order os c h (objects_shaped_D hs) he)
    cases hf with
    | one =>
      simp only [erase, Doc.copyAs, copyAs]
      rcases ih with h1 | ⟨i', fs, h', h1, h2, hi⟩
      · exact .inl h1
      · exact .inr ⟨_, h', h1, h2, hi, .one _ _ _, fun _ _ _ _ e => by cases e; exact ⟨_, _, rfl⟩⟩
    | boolOr =>
      simp only [erase, Doc.copyAs, copyAs]
      rcases ih with h1 | ⟨i', fs, h', h1, h2, hi⟩
      · exact .inl h1
      · exact .inr ⟨_, h', h1, h2, hi, .boolOr _ _ _, fun _ _ _ _ e => by cases e⟩
theorem copyList_eq {G : Grammar} (hG : Sane G) (order : List Atom → List Atom) : ∀ (l : List LTree) (c : Nat) (h : Heap),
    (∀ o ∈ objectsL l, ShapedItem G o) → (∀ v ∈ l, ∃ i fs, v = .obj i c fs) →
    ReadsL G c h (Doc.copyList G order c (eraseL l)) (copyList G order c l h)
  | [], c, h, _, _ => by
    right
    simp only [eraseL, Doc.copyList, copyList]
    exact ⟨_, h, rfl, rfl, Inv.nil G h, fun x hx => by simp at hx⟩
  | v :: l, c, h, hs, hl => by
    obtain ⟨i, fs, hv⟩ := hl v (by simp)
    have hnn : isNull (erase v) = false := by rw [hv]; rfl
    have hf : Fits (.one c) v := by rw [hv]; exact .one _ _ _
    simp only [eraseL, Doc.copyList, copyList, hnn, Bool.false_eq_true, if_false]
    rcases copy_eq hG order v (.one c) h (fun o ho => hs o (by simp [objectsL, ho])) hf with
      ⟨h3, h4⟩ | ⟨w, h', h3, h4, hi, -, hw⟩
    · left; rw [h3, h4]; exact ⟨rfl, rfl⟩
    · rw [h3, h4]
      simp only
      rcases copyList_eq hG order l c h' (fun o ho => hs o (by simp [objectsL, ho]))
        (fun v hv => hl v (by simp [hv])) with ⟨h1, h2⟩ | ⟨r, h'', h1, h2, hi', hr⟩
      · left; rw [h1, h2]; exact ⟨rfl, rfl⟩
      · right
        rw [h1, h2]
        refine ⟨_, h'', rfl, rfl, ?_, ?_⟩
        · simp only [objectsL]
          exact hi.append hi' (closed_of_perm (perm_ids w))
        · intro x hx
          rcases List.mem_cons.1 hx with rfl | hx
          · exact hw i c fs hv rfl
          · exact hr x hx
theorem copyDict_eq {G : Grammar} (hG : Sane G) (order : List Atom → List Atom) :
    ∀ (d : List (Str × LTree)) (c : Nat) (h : Heap),
    (∀ o ∈ objectsD d, ShapedItem G o) → (∀ e ∈ d, ∃ i fs, e.2 = .obj i c fs) →
    ReadsD G c h (Doc.copyDict G order c (eraseD d)) (copyDict G order c d h)
  | [], c, h, _, _ => by
    right
    simp only [eraseD, Doc.copyDict, copyDict]
    exact ⟨_, h, rfl, rfl, Inv.nil G h, fun x hx => by simp at hx⟩
  | (n, v) :: l, c, h, hs, hl => by
    obtain ⟨i, fs, hv⟩ := hl (n, v) (by simp)
    simp only at hv
    have hnn : isNull (erase v) = false := by rw [hv]; rfl
    have hf : Fits (.one c) v := by rw [hv]; exact .one _ _ _
    simp only [eraseD, Doc.copyDict, copyDict, hnn, Bool.false_eq_true, if_false]
    rcases copy_eq hG order v (.one c) h (fun o ho => hs o (by simp [objectsD, ho])) hf with
      ⟨h3, h4⟩ | ⟨w, h', h3, h4, hi, -, hw⟩
    · left; rw [h3, h4]; exact ⟨rfl, rfl⟩
    · rw [h3, h4]
      simp only
      rcases copyDict_eq hG order l c h' (fun o ho => hs o (by simp [objectsD, ho]))
        (fun v hv => hl v (by simp [hv])) with ⟨h1, h2⟩ | ⟨r, h'', h1, h2, hi', hr⟩
      · left; rw [h1, h2]; exact ⟨rfl, rfl⟩
      · right
        rw [h1, h2]
        refine ⟨_, h'', rfl, rfl, ?_, ?_⟩
        · simp only [objectsD]
          exact hi.append hi' (closed_of_perm (perm_ids w))
        · intro x hx
          rcases List.mem_cons.1 hx with rfl | hx
          · exact hw i c fs hv rfl
          · exact hr x hx
theorem copyFields_eq {G : Grammar} (hG : Sane G) (order : List Atom → List Atom) :
    ∀ (os : List (Str × LTree)) (c : Nat) (h : Heap),
    (∀ o ∈ objectsD os, ShapedItem G o) → Entries (G c) os →
    ReadsE G (G c) h (Doc.copyFields G order (G c) (eraseD os)) (copyFields G order (G c) os h)
  | [], c, h, _, _ => by
    right
    simp only [eraseD, Doc.copyFields, copyFields]
    exact ⟨_, h, rfl, rfl, Inv.nil G h, fun x hx => by simp at hx⟩
  | (n, v) :: os, c, h, hs, he => by
    have hx := he (n, v) (by simp)
    simp only at hx
    simp only [eraseD, Doc.copyFields, copyFields]
    rcases copyFields_eq hG order os c h (fun o ho => hs o (by simp [objectsD, ho]))
      (fun x hx => he x (by simp [hx])) with ⟨h1, h2⟩ | ⟨r, h', h1, h2, hi, hr⟩
    · left; rw [h1, h2]; exact ⟨rfl, rfl⟩
    · rw [h1, h2]
      simp only
      by_cases hn : (Dict.get? (G c).fields n).isNone
      · right
        simp only [hn, if_true]
        exact ⟨r, h', rfl, rfl, hi, hr⟩
      · simp only [hn, Bool.false_eq_true, if_false]
        cases hk : Dict.get? (G c).child n with
        | none =>
          rw [hk] at hx
          obtain ⟨t, rfl⟩ := hx
          simp only [erase]
          rcases mergePlain_eq order (defaultOf (G c) n) (defaultOf (G c) n) t with ⟨h3, h4⟩ | ⟨w, h3, h4⟩
          · left; rw [h3, h4]; exact ⟨rfl, rfl⟩
          · right
            rw [h3, h4]
            refine ⟨_, h', rfl, rfl, by simpa [objectsD, objects] using hi, ?_⟩
            intro x hx
            rcases List.mem_cons.1 hx with rfl | hx
            · simp only [hk]; exact ⟨_, rfl⟩
            · exact hr x hx
        | some k =>
          rw [hk] at hx
          have hplain : ReadsE G (G c) h (some ((n, defaultOf (G c) n) :: eraseD r))
              (some ((n, .plain (defaultOf (G c) n)) :: r, h')) := by
            right
            refine ⟨_, h', rfl, rfl, by simpa [objectsD, objects] using hi, ?_⟩
            intro x hx
            rcases List.mem_cons.1 hx with rfl | hx
            · simp only [hk]; exact defaultOf_fits hG hn hk
            · exact hr x hx
          simp only [mergeField, if_true]
          by_cases hd : isDefault (defaultOf (G c) n) (erase v) = true
          · simp only [hd, if_true]
            exact hplain
          · simp only [hd, Bool.false_eq_true, if_false]
            by_cases hd' : isDefault (defaultOf (G c) n) (defaultOf (G c) n) = true
            · simp only [hd', if_true]
              rcases copy_eq hG order v k h' (fun o ho => hs o (by simp [objectsD, ho])) hx with
                ⟨h3, h4⟩ | ⟨w, h'', h3, h4, hi', hf, -⟩
              · left; rw [h3, h4]; exact ⟨rfl, rfl⟩
              · right
                rw [h3, h4]
                refine ⟨_, h'', rfl, rfl, ?_, ?_⟩
                · simp only [objectsD]
                  exact (hi.append hi' (closed_of_perm (perm_idsD r))).comm
                · intro x hx
                  rcases List.mem_cons.1 hx with rfl | hx
                  · simp only [hk]; exact hf
                  · exact hr x hx
            · simp only [hd', Bool.false_eq_true, if_false]
              exact hplain
end

/-- merging fields: what is there stays, or is a copy -/
theorem mergeFields_eq {G : Grammar} (hG : Sane G) (order : List Atom → List Atom) (exclude : List Str) (c : Nat)
    (os : List (Str × LTree)) (hos : ∀ o ∈ objectsD os, ShapedItem G o) (heo : Entries (G c) os) :
    ∀ (fs : List (Str × LTree)) (h : Heap), Entries (G c) fs → (∀ o ∈ objectsD fs, o.id < h.next) →
    ((objectsD fs).map Item.id).Nodup →
    (Doc.mergeFields G order exclude (G c) (eraseD os) (eraseD fs) = none ∧
      mergeFields G order exclude (G c) os fs h = none) ∨
    ∃ fs' h' new, mergeFields G order exclude (G c) os fs h = some (fs', h') ∧
      Doc.mergeFields G order exclude (G c) (eraseD os) (eraseD fs) = some (eraseD fs') ∧
      Entries (G c) fs' ∧ fs'.map Prod.fst = fs.map Prod.fst ∧ Inv G h h' new ∧ Closed new ∧
      (∀ o ∈ objectsD fs', o ∈ objectsD fs ∨ o ∈ new) ∧
      (∀ j ∈ heldD fs', j ∈ heldD fs ∨ ∃ o ∈ new, o.id = j) ∧
      ((objectsD fs').map Item.id).Nodup := by
  intro fs
  induction fs with
  | nil =>
    intro h _ _ _
    right
    exact ⟨[], h, [], rfl, rfl, fun x hx => by simp at hx, rfl, Inv.nil G h, fun j hj => by simp [inner] at hj,
      by simp [objectsD], by simp [heldD], by simp [objectsD]⟩
  | cons x fs ih =>
    intro h he hr hn
    obtain ⟨n, own⟩ := x
    have hxo := he (n, own) (by simp)
    simp only at hxo
    simp only [objectsD, List.map_append] at hn
    obtain ⟨n1, n2, n3⟩ := List.nodup_append.1 hn
    simp only [eraseD, Doc.mergeFields, mergeFields]
    rcases ih h (fun x hx => he x (by simp [hx])) (fun o ho => hr o (by simp [objectsD, ho])) n2 with
      ⟨h1, h2⟩ | ⟨fs', h', new, h1, h2, he', hnm, hi, hc, ho, hj, hnd⟩
    · left; rw [h1, h2]; exact ⟨rfl, rfl⟩
    · rw [h1, h2]
      simp only
      -- the own value stays
      have keep : ∃ fs'' h'' new', some ((n, own) :: fs', h') = some (fs'', h'') ∧
          some ((n, erase own) :: eraseD fs') = some (eraseD fs'') ∧
          Entries (G c) fs'' ∧ fs''.map Prod.fst = ((n, own) :: fs).map Prod.fst ∧ Inv G h h'' new' ∧ Closed new' ∧
          (∀ o ∈ objectsD fs'', o ∈ objectsD ((n, own) :: fs) ∨ o ∈ new') ∧
          (∀ j ∈ heldD fs'', j ∈ heldD ((n, own) :: fs) ∨ ∃ o ∈ new', o.id = j) ∧
          ((objectsD fs'').map Item.id).Nodup := by
        refine ⟨_, _, new, rfl, rfl, ?_, by simp [hnm], hi, hc, ?_, ?_, ?_⟩
        · intro x hx
          rcases List.mem_cons.1 hx with rfl | hx
          · exact hxo
          · exact he' x hx
        · intro o h
          simp only [objectsD, List.mem_append] at h ⊢
          rcases h with h | h
          · exact .inl (.inl h)
          · rcases ho o h with h | h
            · exact .inl (.inr h)
            · exact .inr h
        · intro j h
          simp only [heldD, List.mem_append] at h ⊢
          rcases h with h | h
          · exact .inl (.inl h)
          · rcases hj j h with h | h
            · exact .inl (.inr h)
            · exact .inr h
        · simp only [objectsD, List.map_append]
          refine List.nodup_append.2 ⟨n1, hnd, ?_⟩
          intro a ha b hb hab
          obtain ⟨o, ho1, rfl⟩ := List.mem_map.1 ha
          obtain ⟨o', ho', rfl⟩ := List.mem_map.1 hb
          rcases ho o' ho' with h | h
          · exact n3 _ ha _ (List.mem_map_of_mem h) hab
          · have := hr o (by simp [objectsD, ho1])
            have := (hi.range o' h).1
            omega
      by_cases hex : n ∈ exclude
      · right
        simp only [hex, if_true]
        exact keep
      · simp only [hex, if_false, get_eraseD]
        cases hv : Dict.get? os n with
        | none => left; exact ⟨rfl, rfl⟩
        | some v =>
          have hxv := heo (n, v) (Dict.mem_of_get? hv)
          simp only at hxv
          simp only [Option.map_some, copyOf]
          cases hk : Dict.get? (G c).child n with
          | none =>
            rw [hk] at hxv hxo
            obtain ⟨t, rfl⟩ := hxv
            obtain ⟨u, rfl⟩ := hxo
            simp only [erase, Option.isSome_none]
            rcases mergePlain_eq order (defaultOf (G c) n) u t with ⟨h3, h4⟩ | ⟨w, h3, h4⟩
            · left; rw [h3, h4]; exact ⟨rfl, rfl⟩
            · right
              rw [h3, h4]
              refine ⟨_, h', new, rfl, rfl, ?_, by simp [hnm], hi, hc, ?_, ?_, ?_⟩
              · intro x hx
                rcases List.mem_cons.1 hx with rfl | hx
                · simp only [hk]; exact ⟨_, rfl⟩
                · exact he' x hx
              · intro o h
                simp only [objectsD, objects, List.nil_append] at h ⊢
                exact ho o h
              · intro j h
                simp only [heldD, held, List.nil_append] at h ⊢
                exact hj j h
              · simpa [objectsD, objects] using hnd
          | some k =>
            rw [hk] at hxv hxo
            simp only [mergeField, Option.isSome_some, if_true]
            by_cases hd : isDefault (defaultOf (G c) n) (erase v) = true
            · right
              simp only [hd, if_true]
              exact keep
            · simp only [hd, Bool.false_eq_true, if_false]
              by_cases hd' : isDefault (defaultOf (G c) n) (erase own) = true
              · simp only [hd', if_true]
                rcases copy_eq hG order v k h' (fun o ho => hos o (mem_objectsD.2 ⟨(n, v), Dict.mem_of_get? hv, ho⟩))
                  hxv with ⟨h3, h4⟩ | ⟨w, h'', h3, h4, hi', hf, -⟩
                · left; rw [h3, h4]; exact ⟨rfl, rfl⟩
                · right
                  rw [h3, h4]
                  refine ⟨_, h'', new ++ objects w, rfl, rfl, ?_, by simp [hnm], hi.append hi' hc, ?_, ?_, ?_, ?_⟩
                  · intro x hx
                    rcases List.mem_cons.1 hx with rfl | hx
                    · simp only [hk]; exact hf
                    · exact he' x hx
                  · intro j h
                    rw [inner_append, List.mem_append] at h
                    rcases h with h | h
                    · obtain ⟨o, h1, h2⟩ := hc j h
                      exact ⟨o, by simp [h1], h2⟩
                    · obtain ⟨o, h1, h2⟩ := closed_of_perm (perm_ids w) j h
                      exact ⟨o, by simp [h1], h2⟩
                  · intro o h
                    simp only [objectsD, List.mem_append] at h ⊢
                    rcases h with h | h
                    · exact .inr (.inr h)
                    · rcases ho o h with h | h
                      · exact .inl (.inr h)
                      · exact .inr (.inl h)
                  · intro j h
                    simp only [heldD, List.mem_append] at h ⊢
                    rcases h with h | h
                    · obtain ⟨o, h1, h2⟩ := List.mem_map.1 ((perm_ids w).subset (List.mem_append_left _ h))
                      exact .inr ⟨o, .inr h1, h2⟩
                    · rcases hj j h with h | ⟨o, h1, h2⟩
                      · exact .inl (.inr h)
                      · exact .inr ⟨o, .inl h1, h2⟩
                  · simp only [objectsD, List.map_append]
                    refine List.nodup_append.2 ⟨hi'.nodup, hnd, ?_⟩
                    intro a ha b hb hab
                    obtain ⟨o, ho1, rfl⟩ := List.mem_map.1 ha
                    obtain ⟨o', ho', rfl⟩ := List.mem_map.1 hb
                    have hl := hi.le
                    have := hi'.range o ho1
                    rcases ho o' ho' with h | h
                    · have := hr o' (by simp [objectsD, h]); omega
                    · have := hi.range o' h; omega
              · right
                simp only [hd', Bool.false_eq_true, if_false]
                exact keep

end Parent
