import Verif.Model.MergeRefs
import Verif.Proofs.Index
/-! # Lemmas for C99: merging keeps objects well-formed -/

namespace Proofs.MergeWF
open Py Tree _root_.Doc Proofs.Index Proofs.Placed

variable {order : List Atom → List Atom}

theorem atoms_wf (l : List Atom) : WF (.list (l.map .atom)) := by
  rw [WF, wfList_iff]
  intro t ht
  obtain ⟨a, -, rfl⟩ := List.mem_map.1 ht
  trivial

theorem append_wf {l v : List Tree} (h : WFList l) (h' : WFList v) : WF (.list (l ++ v)) := by
  rw [wfList_iff] at h h'
  rw [WF, wfList_iff]
  intro t ht
  rcases List.mem_append.1 ht with ht | ht
  · exact h t ht
  · exact h' t ht

theorem joinLists_wf {own w : Tree} {v : List Tree} (ho : WF own) (hv : WFList v) (h : joinLists order own v = some w) : WF w := by
  unfold joinLists at h
  split at h
  · next l =>
    split at h
    · cases h; exact atoms_wf _
    · cases h; rw [WF] at ho; exact append_wf ho hv
  · split at h
    · split at h
      · cases h; exact atoms_wf _
      · cases h; rw [WF]; exact hv
    · cases h

theorem joinDicts_wf {own w : Tree} {v : Dict Str Tree} (ho : WF own) (hv : WF (.dict v)) (h : joinDicts own v = some w) : WF w := by
  unfold joinDicts at h
  split at h
  · next d =>
    cases h
    rw [WF] at ho hv ⊢
    have hu := Dict.WF_update (d := v) hv.1 d
    refine ⟨hu, wfDict_iff.2 fun x hx => ?_⟩
    have h1 := Dict.get?_of_mem hu hx
    rw [Dict.get?_update ho.1] at h1
    cases hd : Dict.get? d x.1 with
    | some y => rw [hd] at h1; cases h1; exact wfDict_iff.1 ho.2 _ (Dict.mem_of_get? hd)
    | none => rw [hd] at h1; exact wfDict_iff.1 hv.2 _ (Dict.mem_of_get? h1)
  · split at h
    · cases h; exact hv
    · cases h

theorem mergeField_wf {dflt own v w : Tree} {b : Bool} {copied : Option Tree} (ho : WF own) (hv : WF v)
    (hc : b = true → ∀ x, copied = some x → WF x) (h : mergeField order dflt b own v copied = some w) : WF w := by
  unfold mergeField at h
  split at h
  · cases h; exact ho
  · split at h
    · next hb =>
      split at h
      · exact hc hb _ h
      · cases h; exact ho
    · split at h
      · rw [WF] at hv; exact joinLists_wf ho hv h
      · exact joinDicts_wf ho hv h
      · split at h
        · cases h; exact hv
        · cases h; exact ho

theorem default_wf (c : Nat) (n : Str) : WF (defaultOf (v20 c) n) := by
  unfold defaultOf
  cases h : Dict.get? (v20 c).fields n with
  | none => trivial
  | some d => exact plain_wf _ (plain_default h)

theorem pick_wf {fields : List (Str × Tree)} {e out : List (Str × Tree)} (he : ∀ x ∈ e, WF x.2) (h : pick fields e = some out) :
    Dict.keys out = Dict.keys fields ∧ ∀ x ∈ out, WF x.2 := by
  induction fields generalizing out with
  | nil => rw [pick] at h; cases h; exact ⟨rfl, fun x hx => by cases hx⟩
  | cons f fs ih =>
    rw [pick] at h
    split at h
    · next v rest h1 h2 =>
      cases h
      obtain ⟨i1, i2⟩ := ih h2
      refine ⟨by simp only [Dict.keys, List.map_cons] at i1 ⊢; rw [i1], fun x hx => ?_⟩
      rcases List.mem_cons.1 hx with rfl | hx
      · exact he _ (Dict.mem_of_get? h1)
      · exact i2 x hx
    · cases h

theorem picked_wf {c : Nat} {e out : List (Str × Tree)} (he : ∀ x ∈ e, WF x.2) (h : pick (v20 c).fields e = some out) : WF (.obj c out) := by
  obtain ⟨h1, h2⟩ := pick_wf he h
  rw [WF, h1]
  exact ⟨(names_ok c).1, (names_ok c).2, wfDict_iff.2 h2⟩

mutual
theorem copyAs_wf : ∀ (t : Tree) (k : Kind) (w : Tree), WF t → copyAs v20 order k t = some w → WF w
  | .atom a, k, w, _, h => by
    rw [copyAs] at h
    unfold copyAtom at h
    split at h
    · cases h; trivial
    · cases h; trivial
    · cases h
  | .list l, k, w, ht, h => by
    rw [WF] at ht
    unfold copyAs at h
    split at h
    · next c =>
      cases hl : copyList v20 order c l with
      | none => rw [hl] at h; cases h
      | some l' => rw [hl] at h; cases h; rw [WF, wfList_iff]; exact copyList_wf l c l' ht hl
    · cases h
  | .dict d, k, w, ht, h => by
    rw [WF] at ht
    unfold copyAs at h
    split at h
    · next c =>
      cases hl : copyDict v20 order c d with
      | none => rw [hl] at h; cases h
      | some d' =>
        rw [hl] at h; cases h
        obtain ⟨h1, h2⟩ := copyDict_wf d c d' ht.2 hl
        rw [WF, h1]
        exact ⟨ht.1, wfDict_iff.2 h2⟩
    · cases h
  | .obj c' os, k, w, ht, h => by
    rw [WF] at ht
    unfold copyAs at h
    have key : ∀ c, ((copyFields v20 order (v20 c) os).bind (pick (v20 c).fields)).map (.obj c) = some w → WF w := by
      intro c h
      cases hf : copyFields v20 order (v20 c) os with
      | none => rw [hf] at h; cases h
      | some e =>
        rw [hf] at h
        simp only [Option.bind_some, Option.map_eq_some_iff] at h
        obtain ⟨out, h1, rfl⟩ := h
        exact picked_wf (copyFields_wf os c e ht.2.2 hf) h1
    split at h
    · exact key _ h
    · exact key _ h
    · cases h
theorem copyList_wf : ∀ (l : List Tree) (c : Nat) (l' : List Tree), WFList l → copyList v20 order c l = some l' → ∀ t ∈ l', WF t
  | [], c, l', _, h => by rw [copyList] at h; cases h; intro t ht; cases ht
  | v :: l, c, l', hl, h => by
    rw [WFList] at hl
    rw [copyList] at h
    split at h
    · cases h
    · split at h
      · next w rest h1 h2 =>
        cases h
        intro t ht
        rcases List.mem_cons.1 ht with rfl | ht
        · exact copyAs_wf v _ _ hl.1 h1
        · exact copyList_wf l c _ hl.2 h2 t ht
      · cases h
theorem copyDict_wf : ∀ (d : List (Str × Tree)) (c : Nat) (d' : List (Str × Tree)), WFDict d → copyDict v20 order c d = some d' →
    Dict.keys d' = Dict.keys d ∧ ∀ x ∈ d', WF x.2
  | [], c, d', _, h => by rw [copyDict] at h; cases h; exact ⟨rfl, fun x hx => by cases hx⟩
  | (n, v) :: d, c, d', hd, h => by
    rw [WFDict] at hd
    rw [copyDict] at h
    split at h
    · cases h
    · split at h
      · next w rest h1 h2 =>
        cases h
        obtain ⟨i1, i2⟩ := copyDict_wf d c _ hd.2 h2
        refine ⟨by simp only [Dict.keys, List.map_cons] at i1 ⊢; rw [i1], fun x hx => ?_⟩
        rcases List.mem_cons.1 hx with rfl | hx
        · exact copyAs_wf v _ _ hd.1 h1
        · exact i2 x hx
      · cases h
theorem copyFields_wf : ∀ (os : List (Str × Tree)) (c : Nat) (e : List (Str × Tree)), WFDict os → copyFields v20 order (v20 c) os = some e →
    ∀ x ∈ e, WF x.2
  | [], c, e, _, h => by rw [copyFields] at h; cases h; intro x hx; cases hx
  | (n, v) :: os, c, e, ho, h => by
    rw [WFDict] at ho
    rw [copyFields] at h
    split at h
    · cases h
    · next rest hr =>
      have ih := copyFields_wf os c rest ho.2 hr
      split at h
      · cases h; exact ih
      · split at h
        · split at h
          · cases h
          · next w hw =>
            cases h
            intro x hx
            rcases List.mem_cons.1 hx with rfl | hx
            · exact mergeField_wf (default_wf c n) ho.1 (by intro hb; cases hb) hw
            · exact ih x hx
        · next k _ =>
          split at h
          · cases h
          · next w hw =>
            cases h
            intro x hx
            rcases List.mem_cons.1 hx with rfl | hx
            · exact mergeField_wf (default_wf c n) ho.1 (fun _ y hy => copyAs_wf v k y ho.1 hy) hw
            · exact ih x hx
end

theorem mergeFields_wf {exclude : List Str} {c : Nat} {os : Dict Str Tree} (ho : WFDict os) : ∀ (fs out : List (Str × Tree)), WFDict fs →
    mergeFields v20 order exclude (v20 c) os fs = some out → Dict.keys out = Dict.keys fs ∧ ∀ x ∈ out, WF x.2
  | [], out, _, h => by rw [mergeFields] at h; cases h; exact ⟨rfl, fun x hx => by cases hx⟩
  | (n, own) :: fs, out, hf, h => by
    rw [WFDict] at hf
    rw [mergeFields] at h
    split at h
    · cases h
    · next rest hr =>
      obtain ⟨i1, i2⟩ := mergeFields_wf ho fs rest hf.2 hr
      have add : ∀ w, WF w → out = (n, w) :: rest → Dict.keys out = Dict.keys ((n, own) :: fs) ∧ ∀ x ∈ out, WF x.2 := by
        rintro w hw rfl
        refine ⟨by simp only [Dict.keys, List.map_cons] at i1 ⊢; rw [i1], fun x hx => ?_⟩
        rcases List.mem_cons.1 hx with rfl | hx
        · exact hw
        · exact i2 x hx
      split at h
      · cases h; exact add own hf.1 rfl
      · split at h
        · cases h
        · next v hv =>
          split at h
          · cases h
          · next w hw =>
            cases h
            have hvw := wfDict_iff.1 ho _ (Dict.mem_of_get? hv)
            refine add w (mergeField_wf hf.1 hvw (fun _ y hy => ?_) hw) rfl
            unfold copyOf at hy
            split at hy
            · cases hy
            · exact copyAs_wf v _ y hvw hy

theorem merge_wf {exclude : List Str} {t u w : Tree} (ht : WF t) (hu : WF u) (h : merge v20 order exclude t u = some w) : WF w := by
  unfold merge at h
  split at h
  · next c fs _ os =>
    rw [WF] at ht hu
    simp only [Option.map_eq_some_iff] at h
    obtain ⟨out, h1, rfl⟩ := h
    obtain ⟨h2, h3⟩ := mergeFields_wf hu.2.2 fs out ht.2.2 h1
    rw [WF, h2]
    exact ⟨ht.1, ht.2.1, wfDict_iff.2 h3⟩
  · cases h

theorem fresh_wf (c : Nat) : WF (fresh v20 c) := by
  rw [fresh, WF]
  exact ⟨(names_ok c).1, (names_ok c).2, wfDict_iff.2 fun x hx =>
    plain_wf _ (plain_default (Dict.get?_of_mem (Props.C42.C42_grammar c).1 hx))⟩

open _root_.MergeRefs

theorem follow_wf {W : _root_.MergeRefs.World} (hW : ∀ j, WF (W.content j)) {c : Nat} : ∀ (n : Nat) (seen : List Nat) (cur : Nat) (result t : Tree), WF result →
    follow W order c n seen cur result = some (.value t) → WF t
  | 0, _, _, _, _, _, h => by rw [follow] at h; cases h
  | n + 1, seen, cur, result, t, hr, h => by
    rw [follow] at h
    split at h
    · cases h; exact hr
    · split at h
      · cases h
      · split at h
        · cases h
        · split at h
          · cases h; exact hr
          · split at h
            · cases h
            · next hm => exact follow_wf hW n _ _ _ _ (merge_wf hr (hW _) hm) h

theorem pathItem_wf {W : _root_.MergeRefs.World} (hW : ∀ j, WF (W.content j)) {fuel i : Nat} {t : Tree} (h : pathItem W order fuel i = some (.value t)) : WF t := by
  unfold pathItem at h
  split at h
  · next r hr =>
    split at h
    · cases h
    · next hm =>
      cases h
      refine merge_wf (hW i) ?_ hm
      unfold effective at hr
      split at hr
      · cases hr
      · next hm' => exact follow_wf hW _ _ _ _ _ (merge_wf (fresh_wf _) (hW i) hm') hr
  · next h' => exact absurd h (h' t)

end Proofs.MergeWF
