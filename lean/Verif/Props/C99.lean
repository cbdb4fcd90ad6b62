import Verif.Spec.Shared
import Verif.Proofs.MergeWF
import Verif.Props.C52
import Verif.Props.C98
/-!
# C99: a path given as a reference to another path

`pyswagger/scanner/v2_0/merge.py`:57-59 copies the operations of the path item that is referred to, with their ids and tags, and the
index of operations (`pyswagger/scanner/type_reducer.py`:19-34) has no place for two operations of the same name. So two paths of a
document cannot share a named operation by reference, although the standard has references for path items: `C99_index`: once the path
items are merged, indexing ends with `SchemaError`; `C99_refused`: no run of `App.create` ends with an application.

An operation with several tags is left out: the copy has the tags in the order of a Python set, so that the first of them, and with
it the name, may be another one.
-/

namespace Props.C99
open Py Utils Tree _root_.Doc Spec Spec.Places Spec.Pointed _root_.Loaded Proofs.Loaded Proofs.Origin Proofs.Placed Proofs.Index Proofs.Visited
open _root_.Create

variable {D T R : Tree} {p : Url} {o : Objects.Outside} {sq : Dict Str Tree} {sep url : Str} {order : List Atom → List Atom} {fuel : Nat}

/-! ## what a copy is called -/

/-- the operation id and the tag of an Operation object -/
structure Tells (os : List (Str × Tree)) (i : Str) (tg : Option Str) : Prop where
  id : Dict.get? os c!"operationId" = some (.atom (.str i))
  tags : tg = none ∧ (Dict.get? os c!"tags" = some (.atom .none) ∨ Dict.get? os c!"tags" = some (.list [])) ∨
    ∃ t, tg = some t ∧ Dict.get? os c!"tags" = some (.list [.atom (.str t)])

theorem equal_text {x : Tree} {t : Str} (h : Spec.Merge.Equal x (.atom (.str t))) : x = .atom (.str t) := by
  rcases h with h | ⟨a, b, q, rfl, h2, h3, h4⟩
  · exact h
  · cases h2; cases h4

theorem joined_nil {m : List Tree} (h : Spec.Merge.Joined [] [] m) : m = [] := by
  cases m with
  | nil => rfl
  | cons x m =>
    have := (h.1 x).1 ⟨x, by simp, .inl rfl⟩
    rcases this with ⟨u, hu, -⟩ | ⟨u, hu, -⟩ <;> cases hu

theorem joined_one {t : Str} {m : List Tree} (h : Spec.Merge.Joined [] [.atom (.str t)] m) : m = [.atom (.str t)] := by
  have hall : ∀ x ∈ m, x = .atom (.str t) := by
    intro x hx
    rcases (h.1 x).1 ⟨x, hx, .inl rfl⟩ with ⟨u, hu, -⟩ | ⟨u, hu, he⟩
    · cases hu
    · rw [List.mem_singleton] at hu
      subst hu
      exact equal_text he
  have hpw := h.2.1 (by intro x hx; simp at hx; exact ⟨_, hx⟩)
  match m, hall, hpw, h with
  | [], _, _, h =>
    obtain ⟨u, hu, -⟩ := (h.1 (.atom (.str t))).2 (.inr ⟨_, by simp, .inl rfl⟩)
    cases hu
  | [x], hall, _, _ => rw [hall x (by simp)]
  | x :: y :: m, hall, hpw, _ =>
    rw [List.pairwise_cons] at hpw
    exact absurd (.inl ((hall x (by simp)).trans (hall y (by simp)).symm)) (hpw.1 y (by simp))

/-- a copy has the same name -/
theorem copy_tells {c : Nat} {os : List (Str × Tree)} {w : Tree} {i : Str} {tg : Option Str} (hc : Spec.Merge.Copy v20 (.one cOperation) (.obj c os) w)
    (h : Tells os i tg) : ∃ ws, w = .obj cOperation ws ∧ Tells ws i tg := by
  generalize hk : Kind.one cOperation = k at hc
  generalize ho : Tree.obj c os = v at hc
  cases hc with
  | null => cases ho
  | bool => cases ho
  | list => cases ho
  | dict => cases ho
  | obj _ c0 c' fs gs hk' hg hall hdef hplain hchild =>
    cases ho
    subst hk
    have : c0 = cOperation := by rcases hk' with h | h <;> cases h; rfl
    subst this
    have some_ : ∀ n, n ∈ Dict.keys (v20 cOperation).fields → ∃ w, Dict.get? gs n = some w := by
      intro n hn
      rw [← hg] at hn
      exact Option.isSome_iff_exists.1 ((Dict.get?_isSome_iff gs n).2 hn)
    have f1 : Dict.get? (v20 cOperation).fields c!"operationId" = some (.atom .none) := by rfl
    have f2 : Dict.get? (v20 cOperation).fields c!"tags" = some (.atom .none) := by rfl
    obtain ⟨w1, h1⟩ := some_ c!"operationId" ((Dict.get?_isSome_iff _ _).1 (by rw [f1]; rfl))
    obtain ⟨w2, h2⟩ := some_ c!"tags" ((Dict.get?_isSome_iff _ _).1 (by rw [f2]; rfl))
    refine ⟨gs, rfl, ?_, ?_⟩
    · rw [h1, (hplain _ _ _ _ f1 h.id h1 rfl (by rfl)).2 (by intro l hl; cases hl)]
    · rcases h.tags with ⟨rfl, h3 | h3⟩ | ⟨t, rfl, h3⟩
      · exact .inl ⟨rfl, .inl (by rw [h2, hdef _ _ _ _ f2 h3 h2 rfl])⟩
      · obtain ⟨m, rfl, hm⟩ := (hplain _ _ _ _ f2 h3 h2 rfl (by rfl)).1 _ rfl
        exact .inl ⟨rfl, .inr (by rw [h2, joined_nil hm])⟩
      · obtain ⟨m, rfl, hm⟩ := (hplain _ _ _ _ f2 h3 h2 rfl (by rfl)).1 _ rfl
        exact .inr ⟨t, rfl, by rw [h2, joined_one hm]⟩

/-! ## path items of a document that is being merged -/

/-- the path item of a path -/
def Item (r : Tree) (k : Str) (gs : List (Str × Tree)) : Prop :=
  ∃ c fs d, r = .obj c fs ∧ Dict.get? fs c!"paths" = some (.dict d) ∧ Dict.get? d k = some (.obj cPathItem gs)

/-- the path has a named operation for the method -/
def Named (r : Tree) (k m i : Str) (tg : Option Str) : Prop :=
  ∃ gs os, Item r k gs ∧ Dict.get? gs m = some (.obj cOperation os) ∧ Tells os i tg

theorem item_put_ne {r t : Tree} {k k' : Str} {gs : List (Str × Tree)} (h : Item r k gs) (hne : k ≠ k') : Item (putItem r k' t) k gs := by
  obtain ⟨c, fs, d, rfl, h1, h2⟩ := h
  refine ⟨c, Dict.set fs c!"paths" (.dict (Dict.set d k' t)), Dict.set d k' t, ?_, Dict.get?_set_self _ _ _, ?_⟩
  · simp only [putItem, _root_.Effective.attr, h1, Option.getD_some]
  · rw [Dict.get?_set_ne _ _ hne]; exact h2

theorem item_put {r : Tree} {k : Str} {gs gs' : List (Str × Tree)} (h : Item r k gs) : Item (putItem r k (.obj cPathItem gs')) k gs' := by
  obtain ⟨c, fs, d, rfl, h1, h2⟩ := h
  refine ⟨c, Dict.set fs c!"paths" (.dict (Dict.set d k (.obj cPathItem gs'))), _, ?_, Dict.get?_set_self _ _ _, Dict.get?_set_self _ _ _⟩
  simp only [putItem, _root_.Effective.attr, h1, Option.getD_some]

theorem wfDict_set {d : Dict Str Tree} {k : Str} {t : Tree} (hn : Dict.WF d) (hd : WFDict d) (ht : WF t) : WFDict (Dict.set d k t) := by
  rw [wfDict_iff] at hd ⊢
  intro x hx
  have h1 := Dict.get?_of_mem (Dict.WF_set hn k t) hx
  by_cases he : x.1 = k
  · rw [he, Dict.get?_set_self] at h1
    cases h1
    exact ht
  · rw [Dict.get?_set_ne _ _ he] at h1
    exact hd _ (Dict.mem_of_get? h1)

theorem put_wf {r t : Tree} {k : Str} (hr : WF r) (ht : WF t) : WF (putItem r k t) := by
  unfold putItem
  split
  · next c fs =>
    split
    · next d hd =>
      rw [WF] at hr
      have hg : Dict.get? fs c!"paths" = some (.dict d) := by
        unfold _root_.Effective.attr at hd
        cases hg : Dict.get? fs c!"paths" with
        | none => rw [hg] at hd; cases hd
        | some v => rw [hg] at hd; cases hd; rfl
      have hdw := wfDict_iff.1 hr.2.2 _ (Dict.mem_of_get? hg)
      rw [WF] at hdw
      have hnew : WF (.dict (Dict.set d k t)) := by
        rw [WF]; exact ⟨Dict.WF_set hdw.1 _ _, wfDict_set hdw.1 hdw.2 ht⟩
      rw [WF]
      refine ⟨Dict.WF_set hr.1 _ _, ?_, wfDict_set hr.1 hr.2.2 hnew⟩
      intro hm
      rw [← Dict.get?_isSome_iff, Dict.get?_set_ne _ _ (by decide), Dict.get?_isSome_iff] at hm
      exact hr.2.1 hm
    · exact hr
  · exact hr

theorem resolve_wf : ∀ (ts : List Str) (t u : Tree), WF t → Tree.resolve ts t = .ok u → WF u
  | [], t, u, h, hr => by rw [Tree.resolve] at hr; cases hr; exact h
  | n :: ts, .atom a, u, h, hr => by rw [resolve_atom] at hr; cases hr; exact h
  | n :: ts, .obj c fs, u, h, hr => by
    rw [Tree.resolve] at hr
    rw [WF] at h
    cases hg : Dict.get? fs n with
    | none => rw [hg] at hr; cases hr
    | some v => rw [hg] at hr; exact resolve_wf ts v u (wfDict_iff.1 h.2.2 _ (Dict.mem_of_get? hg)) hr
  | n :: ts, .dict d, u, h, hr => by
    rw [Tree.resolve] at hr
    rw [WF] at h
    cases hg : Dict.get? d n with
    | none => rw [hg] at hr; cases hr
    | some v => rw [hg] at hr; exact resolve_wf ts v u (wfDict_iff.1 h.2 _ (Dict.mem_of_get? hg)) hr
  | n :: ts, .list l, u, h, hr => by
    rw [Tree.resolve] at hr
    rw [WF, wfList_iff] at h
    cases hi : intOf? n with
    | none => rw [hi] at hr; cases hr
    | some i =>
      rw [hi] at hr
      dsimp only at hr
      cases hg : pyIndex l i with
      | none => rw [hg] at hr; cases hr
      | some v =>
        rw [hg] at hr
        refine resolve_wf ts v u (h v ?_) hr
        unfold pyIndex at hg
        split at hg
        · exact List.mem_of_getElem? hg
        · split at hg
          · exact List.mem_of_getElem? hg
          · cases hg

theorem content_wf {r : Tree} (hr : WF r) (hf : ∀ i, WF (o.foreign i)) (j : Nat) : WF ((world o.toOutside url r).content j) := by
  simp only [world]
  split
  · next h => exact resolve_wf _ _ _ hr h
  · exact hf j

theorem item_resolve {r : Tree} {k : Str} {gs : List (Str × Tree)} (h : Item r k gs) : Tree.resolve [c!"paths", k] r = .ok (.obj cPathItem gs) := by
  obtain ⟨c, fs, d, rfl, h1, h2⟩ := h
  rw [Tree.resolve, h1]
  dsimp only
  rw [Tree.resolve, h2]
  dsimp only
  rw [Tree.resolve]

theorem item_locate {r : Tree} {k : Str} {gs : List (Str × Tree)} (h : Item r k gs) : locate [c!"paths", k] r = [c!"paths", k] := by
  obtain ⟨c, fs, d, rfl, h1, h2⟩ := h
  rw [locate, h1]
  dsimp only
  rw [locate, h2]
  dsimp only
  rw [locate]

theorem item_content {r : Tree} {k : Str} {gs : List (Str × Tree)} (h : Item r k gs) :
    (world o.toOutside url r).content (o.num [c!"paths", k]) = .obj cPathItem gs := by
  simp only [world, o.left, item_resolve h]

/-! ## one path item is merged -/

theorem method_table {m : Str} (h : m ∈ Refused.methods) : Dict.get? (v20 cPathItem).fields m = some (.atom .none) ∧
    Dict.get? (v20 cPathItem).child m = some (.one cOperation) := by
  revert m; decide +kernel

theorem merged_chain {W : MergeRefs.World} {i : Nat} {gs : List (Str × Tree)} {t : Tree} (hi : W.content i = .obj cPathItem gs)
    (h : MergeRefs.pathItem W order fuel i = some (.value t)) : ∃ gs' rest, t = .obj cPathItem gs' ∧
      Spec.MergeRefs.Chain W cPathItem [i] i rest .done := by
  have h0 := h
  unfold MergeRefs.pathItem at h
  split at h
  · next r hr =>
    split at h
    · cases h
    · next t' hm =>
      cases h
      obtain ⟨rest, es, hch, rfl, -⟩ := C52.C52_chain hr
      rw [hi] at hm
      obtain ⟨gs', rfl, -⟩ := C43.C43_fields hm
      exact ⟨gs', rest, rfl, hch⟩
  · next h' => exact absurd h (h' t)

/-- its own operations stay -/
theorem step_own (ho : ∀ l, (order l).Perm l) {W : MergeRefs.World} {i : Nat} {gs : List (Str × Tree)} {t : Tree} (hi : W.content i = .obj cPathItem gs)
    (h : MergeRefs.pathItem W order fuel i = some (.value t)) {m : Str} (hm : m ∈ Refused.methods) {c : Nat} {os : List (Str × Tree)}
    (hg : Dict.get? gs m = some (.obj c os)) : ∃ gs', t = .obj cPathItem gs' ∧ Dict.get? gs' m = some (.obj c os) := by
  obtain ⟨gs', rest, rfl, hch⟩ := merged_chain hi h
  exact ⟨gs', rfl, (C52.C52_pathItem ho hi h hch (method_table hm).1 (method_table hm).2).1 _ hg rfl⟩

/-- an operation of the path item referred to is copied -/
theorem step_copy (ho : ∀ l, (order l).Perm l) {W : MergeRefs.World} {i j : Nat} {gs hs : List (Str × Tree)} {t : Tree}
    (hi : W.content i = .obj cPathItem gs) (h : MergeRefs.pathItem W order fuel i = some (.value t)) {m : Str} (hm : m ∈ Refused.methods)
    (hg : Dict.get? gs m = some (.atom .none)) {r : Str} (hr : MergeRefs.refText (.obj cPathItem gs) = some r) (hj : W.resolve r = .ok j)
    (hne : j ≠ i) (hc : W.content j = .obj cPathItem hs) {c : Nat} {os : List (Str × Tree)} (hh : Dict.get? hs m = some (.obj c os)) :
    ∃ gs' u w, t = .obj cPathItem gs' ∧ Dict.get? gs' m = some w ∧ Spec.Merge.Copy v20 (.one cOperation) (.obj c os) u ∧
      Spec.Merge.Copy v20 (.one cOperation) u w := by
  obtain ⟨gs', rest, rfl, hch⟩ := merged_chain hi h
  have hto := Proofs.MergeRefs.refText_some.1 (hi.symm ▸ hr : MergeRefs.refText (W.content i) = some r)
  have same : ∀ r', Spec.MergeRefs.RefTo (W.content i) r' → r' = r := by
    intro r' h'
    have := h'.2.symm.trans hto.2
    cases this; rfl
  obtain ⟨rest', rfl⟩ : ∃ rest', rest = j :: rest' := by
    cases hch with
    | stop hn => exact absurd hto (hn r)
    | cycle h1 h2 h3 h4 =>
      rw [same _ h1, hj] at h2
      cases h2
      exact absurd (List.mem_singleton.1 h4) hne
    | step h1 h2 h3 h4 h5 =>
      rw [same _ h1, hj] at h2
      cases h2
      exact ⟨_, rfl⟩
  obtain ⟨u, w, h1, h2, h3⟩ := (C52.C52_pathItem ho hi h hch (method_table hm).1 (method_table hm).2).2 (.obj c os) _ hg rfl
    ⟨[], W.content j, rest'.map W.content, rfl, by rw [hc]; exact hh, rfl, by simp⟩
  exact ⟨gs', u, w, rfl, h1, h2, h3⟩

/-! ## all of them are -/

theorem num_ne {a b : List Str} (h : a ≠ b) : o.num a ≠ o.num b := by
  intro e
  have := congrArg o.pos e
  rw [o.left, o.left] at this
  exact h this

/-- a path that has the named operation keeps it -/
theorem named_kept (ho : ∀ l, (order l).Perm l) {r t : Tree} {k k0 m i : Str} {tg : Option Str} (hm : m ∈ Refused.methods) (h : Named r k m i tg)
    (ht : MergeRefs.pathItem (world o.toOutside url r) order fuel (o.num [c!"paths", k0]) = some (.value t)) :
    Named (putItem r k0 t) k m i tg := by
  obtain ⟨gs, os, h1, h2, h3⟩ := h
  by_cases he : k = k0
  · subst he
    obtain ⟨gs', rfl, h4⟩ := step_own ho (item_content h1) ht hm h2
    exact ⟨gs', os, item_put h1, h4, h3⟩
  · exact ⟨gs, os, item_put_ne h1 he, h2, h3⟩

theorem spreads (ho : ∀ l, (order l).Perm l) (hf : ∀ i, WF (o.foreign i)) {k k' m i ref : Str} {tg : Option Str} {gs : List (Str × Tree)}
    (hne : k ≠ k') (hm : m ∈ Refused.methods) (hr : MergeRefs.refText (.obj cPathItem gs) = some ref) (hg : Dict.get? gs m = some (.atom .none))
    (hfind : ∀ S hs, Item S k' hs → (world o.toOutside url S).resolve ref = .ok (o.num [c!"paths", k'])) :
    ∀ (ks : List Str) (r r' : Tree), mergeItems o url order fuel ks r = some r' → WF r → Named r k' m i tg →
      (Named r k m i tg ∨ Item r k gs ∧ k ∈ ks) → WF r' ∧ Named r' k m i tg ∧ Named r' k' m i tg
  | [], r, r', h, hw, h1, h2 => by
    rw [mergeItems] at h
    cases h
    rcases h2 with h2 | ⟨-, h2⟩
    · exact ⟨hw, h2, h1⟩
    · cases h2
  | k0 :: ks, r, r', h, hw, h1, h2 => by
    rw [mergeItems] at h
    split at h
    · next t ht =>
      refine spreads ho hf hne hm hr hg hfind ks _ r' h (put_wf hw (Proofs.MergeWF.pathItem_wf (content_wf hw hf) ht)) (named_kept ho hm h1 ht) ?_
      rcases h2 with h2 | ⟨h2, h3⟩
      · exact .inl (named_kept ho hm h2 ht)
      · by_cases he : k = k0
        · subst he
          obtain ⟨hs, os, h4, h5, h6⟩ := h1
          obtain ⟨gs', u, w, rfl, h7, h8, h9⟩ := step_copy ho (item_content h2) ht hm hg hr (hfind r hs h4)
            (num_ne (by simpa using hne.symm)) (item_content h4) h5
          obtain ⟨us, rfl, h10⟩ := copy_tells h8 h6
          obtain ⟨ws, rfl, h11⟩ := copy_tells h9 h10
          exact .inl ⟨gs', ws, item_put h2, h7, h11⟩
        · exact .inr ⟨item_put_ne h2 he, (List.mem_cons.1 h3).resolve_left he⟩
    · cases h

/-! ## the index -/

theorem filterMap_inj {α β : Type} {f : α → Option β} : ∀ {l : List α}, (l.filterMap f).Nodup → ∀ {x y : α} {b : β}, x ∈ l → y ∈ l →
    f x = some b → f y = some b → x = y
  | a :: l, hn, x, y, b, hx, hy, h1, h2 => by
    have hin : ∀ z ∈ l, f z = some b → b ∈ l.filterMap f := fun z hz h => List.mem_filterMap.2 ⟨z, hz, h⟩
    cases ha : f a with
    | none =>
      rw [List.filterMap_cons_none ha] at hn
      refine filterMap_inj hn ((List.mem_cons.1 hx).resolve_left ?_) ((List.mem_cons.1 hy).resolve_left ?_) h1 h2
      · rintro rfl; rw [ha] at h1; cases h1
      · rintro rfl; rw [ha] at h2; cases h2
    | some c =>
      rw [List.filterMap_cons_some ha, List.nodup_cons] at hn
      rcases List.mem_cons.1 hx with rfl | hx' <;> rcases List.mem_cons.1 hy with rfl | hy'
      · rfl
      · rw [h1] at ha; cases ha; exact absurd (hin _ hy' h2) hn.1
      · rw [h2] at ha; cases ha; exact absurd (hin _ hx' h1) hn.1
      · exact filterMap_inj hn.2 hx' hy' h1 h2

/-- the name of an operation -/
def nameOf (sep i : Str) : Option Str → Str
  | some t => if t = [] then i else t ++ sep ++ i
  | none => i

theorem tells_key {os : List (Str × Tree)} {i : Str} {tg : Option Str} (h : Tells os i tg) (hi : i ≠ []) (n : Nat) :
    C06.entryKey sep (Index.infoOf n os) = some (nameOf sep i tg) := by
  unfold C06.entryKey Index.infoOf _root_.Effective.attr
  rw [h.id]
  simp only [Option.getD_some, _root_.Effective.text?, if_neg hi]
  rcases h.tags with ⟨rfl, h1 | h1⟩ | ⟨t, rfl, h1⟩ <;> rw [h1]
  · rfl
  · rfl
  · simp only [Option.getD_some, Schemas.texts, List.filterMap_cons, _root_.Effective.text?, List.filterMap_nil, nameOf]
    split <;> rfl

theorem named_visited {r : Tree} {k m i : Str} {tg : Option Str} (hw : WF r) (h : Named r k m i tg) (hi : i ≠ []) :
    ∃ u, (pointer [c!"paths", k, m], u) ∈ Scan.traversal r [] ∧ ∃ x, Index.visit o (pointer [c!"paths", k, m], u) = some x ∧
      C06.entryKey sep x = some (nameOf sep i tg) := by
  obtain ⟨gs, os, ⟨c, fs, d, rfl, h1, h2⟩, h3, h4⟩ := h
  refine ⟨.obj cOperation os, (C03.C03_visited _ [] hw rfl _ _).2 ⟨rfl, _, rfl, ?_⟩, _, by simp only [Index.visit, if_true]; rfl, tells_key h4 hi _⟩
  exact .field _ _ _ _ _ _ (by simp) (Dict.mem_of_get? h1) (.key _ _ _ _ _ (Dict.mem_of_get? h2)
    (.field _ _ _ _ _ _ (by simp) (Dict.mem_of_get? h3) (.here _)))

theorem pointer_ne {ts us : List Str} (h : ts ≠ us) : pointer ts ≠ pointer us := by
  intro e
  have := congrArg (fun s => jp_split (some s)) e
  simp only [Proofs.ScanTree.split_pointer] at this
  exact h (List.cons.inj this).2

/-- two paths with an operation of the same name cannot be indexed -/
theorem clash {r : Tree} {k k' m i : Str} {tg : Option Str} (hw : WF r) (hne : k ≠ k') (hi : i ≠ []) (h : Named r k m i tg) (h' : Named r k' m i tg) :
    TypeReduce.run sep (Index.ops o r) = .error .SchemaError := by
  rw [C06.C06_index, if_neg]
  intro hn
  unfold Index.ops at hn
  rw [List.filterMap_filterMap] at hn
  obtain ⟨u, h1, x, h2, h3⟩ := named_visited (o := o) (sep := sep) hw h hi
  obtain ⟨u', h1', x', h2', h3'⟩ := named_visited (o := o) (sep := sep) hw h' hi
  have := filterMap_inj hn h1 h1' (by rw [h2]; exact h3) (by rw [h2']; exact h3')
  exact pointer_ne (by simpa using hne) (congrArg Prod.fst this)

/-! ## the document -/

theorem item_dict (hD : D = .dict sq) {k : Str} {iq : Dict Str Tree} (hw : Written D [c!"paths", k] cPathItem iq) :
    ∃ paths, Dict.get? sq c!"paths" = some (.dict paths) ∧ Dict.get? paths k = some (.dict iq) := by
  subst hD
  obtain ⟨k', ht, hp⟩ := hw
  cases hp with
  | field ht' hd hc hp =>
    cases takes_class ht'
    have : _ = some (Kind.dict cPathItem) := hc.symm.trans (by rfl : Dict.get? (v20 cSwagger).child c!"paths" = _)
    cases this
    cases hp with
    | field ht' => rcases ht' with h | h <;> cases h
    | key h1 h2 => cases h2; exact ⟨_, hd, h1⟩

/-- the path item of a path, as it is read -/
theorem item_of (hl : C98.Reads D p T R) (hD : D = .dict sq) {k : Str} {iq : Dict Str Tree} (hw : Written D [c!"paths", k] cPathItem iq) :
    ∃ ps, parse v20 cPathItem (.dict iq) = some (.obj cPathItem ps) ∧ Item R k (mapFields (absolute (urlunparse p)) ps) := by
  obtain ⟨paths, hp1, hp2⟩ := item_dict hD hw
  obtain ⟨ps, h1, -, h3⟩ := C98.seen hl hD hw
  obtain ⟨rs, hR⟩ := C98.root_obj hl hD
  refine ⟨ps, h1, cSwagger, rs, ?_⟩
  have hT := hl.read
  rw [hD] at hT
  obtain ⟨e, he, hT'⟩ := parse_fields hT
  obtain ⟨dflt, hf⟩ := child_field (by rfl : Dict.get? (v20 cSwagger).child c!"paths" = some (.dict cPathItem))
  obtain ⟨w, hw1, hw2⟩ := fieldOf_child he hp1 (by rfl : Dict.get? (v20 cSwagger).child c!"paths" = some (.dict cPathItem)) rfl dflt
  rw [parseAs] at hw1
  cases hd : parseDict v20 cPathItem paths with
  | none => rw [hd] at hw1; cases hw1
  | some d =>
    rw [hd] at hw1
    have hw1 : Tree.dict d = w := Option.some.inj hw1
    have hR' := C98.normal_form hl
    rw [hR, hT', mapRefs] at hR'
    have hrs : rs = _ := (Tree.obj.inj hR').2
    have hget : Dict.get? rs c!"paths" = some (.dict (mapDict (absolute (urlunparse p)) d)) := by
      rw [hrs, get_mapFields, get_map (fun n v => Proofs.Doc.fieldOf v20 (v20 cSwagger) sq (n, v)), hf]
      simp only [Option.map_some, mapField]
      rw [if_neg (by decide), hw2, ← hw1, mapRefs]
    refine ⟨_, hR, hget, ?_⟩
    rw [hR, Tree.resolve, hget] at h3
    dsimp only at h3
    rw [Tree.resolve] at h3
    cases hg : Dict.get? (mapDict (absolute (urlunparse p)) d) k with
    | none => rw [hg] at h3; cases h3
    | some v =>
      rw [hg] at h3
      dsimp only at h3
      rw [Tree.resolve] at h3
      cases h3
      rw [mapRefs]

/-- the first of at most one tag -/
theorem tells_of (f : Str → Str) {q : Dict Str Tree} {os : List (Str × Tree)} (hp : parse v20 cOperation (.dict q) = some (.obj cOperation os)) {l : Spec.Index.Label}
    (hl : l.In q) {i : Str} (hi : l.id = some i) (ht : l.tags.length ≤ 1) : Tells (mapFields f os) i l.tags.head? := by
  obtain ⟨fs, e, -, hf⟩ := C42.C42_fields _ q _ hp
  cases e
  have h1 := hf c!"operationId" (.atom .none) (by rfl) (by rfl)
  have h2 := hf c!"tags" (.atom .none) (by rfl) (by rfl)
  have hid := hl.id
  rw [hi] at hid
  have hid : Dict.get? q c!"operationId" = some (.atom (.str i)) := hid
  refine ⟨?_, ?_⟩
  · rw [get_mapFields, h1, hid]; rfl
  · rw [get_mapFields, h2]
    rcases hl.tags with (h | ⟨h, h'⟩) | ⟨h, h'⟩ <;> rw [h]
    · match l.tags, ht with
      | [], _ => exact .inl ⟨rfl, .inr rfl⟩
      | [t], _ => exact .inr ⟨t, rfl, rfl⟩
    · rw [h']; exact .inl ⟨rfl, .inl rfl⟩
    · rw [h']; exact .inl ⟨rfl, .inl rfl⟩

/-- a path item that refers to another one is not in its place -/
theorem not_inPlace {r : Tree} {k ref : Str} {gs : List (Str × Tree)} (h : Item r k gs) (hr : MergeRefs.refText (.obj cPathItem gs) = some ref) :
    Index.inPlace r = false := by
  obtain ⟨c, fs, d, rfl, h1, h2⟩ := h
  unfold Index.inPlace
  dsimp only
  rw [List.all_eq_false]
  refine ⟨(k, .obj cPathItem gs), ?_, ?_⟩
  · unfold _root_.Effective.attr
    rw [h1]
    exact Dict.mem_of_get? h2
  · obtain ⟨hne, hv⟩ := Proofs.MergeRefs.refText_some.1 hr
    have hv : Dict.get? gs c!"$ref" = some (.atom (.str ref)) := hv
    unfold Index.referring _root_.Effective.attr
    dsimp only
    rw [hv]
    cases ref with
    | nil => exact absurd rfl hne
    | cons a s => simp [falsy]

/-- **C99, the index.** When a path refers to another one that has a named operation, the operations of the document as it is after
merging cannot be indexed: `SchemaError`. -/
theorem C99_index (hl : C98.Reads D p T R) (hD : D = .dict sq) (ho : ∀ l, (order l).Perm l) (hf : ∀ i, WF (o.foreign i)) {k k' m : Str}
    {q : Dict Str Tree} {l : Spec.Index.Label} (h : Shares D (urlunparse p) k k' m q l) {S : Tree}
    (hS : spread o (urlunparse p) R order fuel = some S) : TypeReduce.run sep (Index.ops o S) = .error .SchemaError := by
  obtain ⟨iq, r, hw, hr, hn, hno⟩ := h.refers
  obtain ⟨iq', hw', hq⟩ := h.has
  obtain ⟨i, hi, hne⟩ := h.named
  obtain ⟨ps, h1, h2⟩ := item_of hl hD hw
  obtain ⟨ps', h1', h2'⟩ := item_of hl hD hw'
  have href : MergeRefs.refText (.obj cPathItem (mapFields (absolute (urlunparse p)) ps)) = some (absolute (urlunparse p) r) := by
    have := C98.ref_shown hl (by decide) h1 (names_ne hn) hr
    rwa [mapRefs] at this
  have hnul : Dict.get? (mapFields (absolute (urlunparse p)) ps) m = some (.atom .none) := by
    have := (C42.C42_nothing _ _ _ h1 m hno).2.2.1 _ (method_table h.method).2
    rw [get_mapFields, this]
    have : m ≠ c!"$ref" := by rintro rfl; exact absurd h.method (by decide)
    simp only [Option.map_some, mapField, if_neg this, mapRefs]
  have hnamed : Named R k' m i l.tags.head? := by
    obtain ⟨os, g1, -, g3⟩ := C98.seen hl hD (Proofs.Under.written_one hw' hq (method_table h.method).2 (.inl rfl))
    refine ⟨_, mapFields (absolute (urlunparse p)) os, h2', ?_, tells_of _ g1 h.label hi h.tags⟩
    obtain ⟨c, fs, d, e, e1, e2⟩ := h2'
    rw [e] at g3
    change Tree.resolve [c!"paths", k', m] _ = _ at g3
    rw [Tree.resolve, e1] at g3
    dsimp only at g3
    rw [Tree.resolve, e2] at g3
    dsimp only at g3
    rw [Tree.resolve] at g3
    cases hg : Dict.get? (mapFields (absolute (urlunparse p)) ps') m with
    | none => rw [hg] at g3; cases g3
    | some v =>
      rw [hg] at g3
      dsimp only at g3
      rw [Tree.resolve] at g3
      cases g3
      rw [mapRefs]
  unfold spread at hS
  rw [if_neg (by rw [not_inPlace h2 href]; simp)] at hS
  obtain ⟨h3, h4, h5⟩ := spreads ho hf h.other h.method href hnul (fun S hs hit => by
    rw [C98.found_in hl S hn, item_resolve hit]
    simp only [AppResolve.wrap, item_locate hit]) _ R S hS (C98.root_wf hl) hnamed (.inr ⟨h2, by
      obtain ⟨gs, g1, g2, -⟩ := C98.seen hl hD hw
      unfold itemNames visited
      refine List.mem_map.2 ⟨_, List.mem_filter.2 ⟨g2, by simp [mapRefs, cls?]⟩, ?_⟩
      simp [Proofs.ScanTree.split_pointer]⟩)
  exact clash h3 h.other hne h4 h5

/-- **C99.** A document in which a path refers to another one that has a named operation never becomes an application. -/
theorem C99_refused [LinearOrder Str] {names : Nat → Str} {strict : Bool} (hl : C98.Reads D p T R) (hD : D = .dict sq)
    (ho : ∀ l, (order l).Perm l) (hf : ∀ i, WF (o.foreign i)) {k k' m : Str} {q : Dict Str Tree} {l : Spec.Index.Label}
    (h : Shares D (urlunparse p) k k' m q l) (x : Dict Str Nat × Dict Str Nat) :
    create o (urlunparse p) D names order fuel sep strict ≠ some (.ok x) := by
  intro hx
  obtain ⟨checked, hx⟩ := C98.create_ok hl hx
  unfold prepare at hx
  split at hx
  · cases hx
  · split at hx
    · cases hx
    · split at hx
      · cases hx
      · split at hx
        · cases hx
        · cases hx
        · split at hx
          · cases hx
          · next S hS =>
            split at hx
            · cases hx
            · split at hx
              · unfold finish at hx
                rw [C99_index hl hD ho hf h hS] at hx
                cases hx
              · cases hx

end Props.C99
