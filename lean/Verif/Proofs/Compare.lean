import Verif.Model.Compare
import Verif.Spec.Compare
import Verif.Proofs.Scan
/-! # Helper lemmas for the comparison of documents (C44) -/

namespace Proofs.Compare
open Py Utils Tree Spec Spec.Same Proofs.ScanTree

theorem atom_eq {a b : Atom} (h : a.sameClass b = true) : a.eq b = true ↔ sameAtom a b := by
  unfold sameAtom
  cases a <;> cases b <;> simp [Atom.sameClass, Atom.eq, Atom.num] at h ⊢
  next x y => cases x <;> cases y <;> simp
  next x y => cases x <;> cases y <;> simp

theorem atom_class {a b : Atom} (h : a.sameClass b = false) : ¬ sameAtom a b := by
  rintro ⟨rfl, _⟩
  cases a <;> simp [Atom.sameClass] at h

/-- what a comparison below the tokens `pre` says -/
def Outcome (pre : List Str) (s o : Tree) : Except Exc (Bool × Str) → Prop
  | .ok (true, _) => Covers s o
  | .ok (false, n) => ∃ ts, Differ s o ts ∧ n = enc (pre ++ ts)
  | .error e => e = .IndexError ∧ Shorter s o

def OutcomeL (pre : List Str) (i : Nat) (l m : List Tree) : Except Exc (Bool × Str) → Prop
  | .ok (true, _) => (l ≠ [] → i + l.length ≤ m.length) ∧
      ∀ (j : Nat) v w, l[j]? = some v → m[i + j]? = some w → Covers v w
  | .ok (false, n) => ∃ (j : Nat) (v w : Tree) (ts : List Str), l[j]? = some v ∧ m[i + j]? = some w ∧ Differ v w ts ∧
      n = enc (pre ++ natStr (i + j) :: ts)
  | .error e => e = .IndexError ∧ (m.length < i + l.length ∨
      ∃ (j : Nat) (v w : Tree), l[j]? = some v ∧ m[i + j]? = some w ∧ Shorter v w)

def OutcomeD (pre : List Str) (d e : Dict Str Tree) : Except Exc (Bool × Str) → Prop
  | .ok (true, _) => ∀ k v w, (k, v) ∈ d → Dict.get? e k = some w → Covers v w
  | .ok (false, n) => ∃ k v w ts, (k, v) ∈ d ∧ Dict.get? e k = some w ∧ Differ v w ts ∧
      n = enc (pre ++ k :: ts)
  | .error e' => e' = .IndexError ∧ ∃ k v w, (k, v) ∈ d ∧ Dict.get? e k = some w ∧ Shorter v w

theorem head_of_order {order : List Str → List Str} (ho : ∀ l, (order l).Perm l) {l : List Str} {k : Str}
    {r : List Str} (h : order l = k :: r) : k ∈ l :=
  (ho l).mem_iff.1 (by rw [h]; exact List.mem_cons_self ..)

theorem nil_of_order {order : List Str → List Str} (ho : ∀ l, (order l).Perm l) {l : List Str}
    (h : order l = []) : l = [] := by
  have := ho l
  rw [h] at this
  exact this.nil_eq.symm

theorem typed_of_get {fields : Nat → List Str} {d : Dict Str Tree} {k : Str} {v : Tree}
    (h : TypedD fields d) (hk : Dict.get? d k = some v) : Typed fields v := by
  have := Dict.mem_of_get? hk
  clear hk
  induction d with
  | nil => cases this
  | cons e d ih =>
    obtain ⟨k', v'⟩ := e
    rw [TypedD] at h
    rcases List.mem_cons.1 this with e | hm
    · cases e; exact h.1
    · exact ih h.2 hm

theorem typed_of_getElem {fields : Nat → List Str} {l : List Tree} {i : Nat} {v : Tree}
    (h : TypedL fields l) (hi : l[i]? = some v) : Typed fields v := by
  induction l generalizing i with
  | nil => simp at hi
  | cons e l ih =>
    rw [TypedL] at h
    cases i with
    | zero => simp at hi; subst hi; exact h.1
    | succ i => exact ih h.2 (by simpa using hi)

theorem wf_get {d : Dict Str Tree} {k : Str} {v : Tree} (hw : WFDict d) (h : Dict.get? d k = some v) : WF v :=
  resolve_at.wf_of_mem hw (Dict.mem_of_get? h)

section
variable {order : List Str → List Str} (ho : ∀ l, (order l).Perm l) (fields : Nat → List Str)
include ho

mutual
theorem cmp_outcome : ∀ (s o : Tree) (t : Str) (ts : List Str), t ≠ [] → WF s → WF o → Typed fields s →
    Typed fields o → Outcome (t :: ts) s o (cmp order (enc (t :: ts)) s o)
  | .atom a, .atom b, t, ts, ht, _, _, _, _ => by
    rw [cmp]
    by_cases h : a.sameClass b = true
    · rw [if_pos h]
      by_cases he : a.eq b = true
      · rw [he]; exact .atom a b ((atom_eq h).1 he)
      · have he' : a.eq b = false := by simpa using he
        rw [he']
        exact ⟨[], .here _ _ (fun hs => he ((atom_eq h).2 hs)), by simp⟩
    · rw [if_neg h]
      exact ⟨[], .here _ _ (atom_class (by simpa using h)), by simp⟩
  | .obj c fs, .obj c' gs, t, ts, ht, hs, hw, hts, hto => by
    rw [cmp]
    by_cases hc : c = c'
    · subst hc
      rw [if_pos rfl]
      rw [WF] at hs hw
      rw [Typed] at hts hto
      have h := cmpFields_outcome fs gs t ts ht hs.2.2 hw.2.2 hts.2 hto.2
        (fun k hk => by rw [hto.1, ← hts.1]; exact hk)
      cases hr : cmpFields order (some (enc (t :: ts))) fs gs with
      | error e =>
        rw [hr] at h
        obtain ⟨h1, k, v, w, hk, hg, hx⟩ := h
        exact ⟨h1, .field c fs gs k v w (Dict.get?_of_mem hs.1 hk) hg hx⟩
      | ok r =>
        obtain ⟨b, n⟩ := r
        rw [hr] at h
        cases b with
        | true => exact .obj c fs gs fun k v w h1 h2 => h k v w (Dict.mem_of_get? h1) h2
        | false =>
          obtain ⟨k, v, w, us, hk, hg, hx, hn⟩ := h
          exact ⟨k :: us, .field c fs gs k v w us (Dict.get?_of_mem hs.1 hk) hg hx, hn⟩
    · rw [if_neg hc]
      exact ⟨[], .here _ _ hc, by simp⟩
  | .list l, .list m, t, ts, ht, hs, hw, hts, hto => by
    rw [cmp]
    rw [WF] at hs hw
    rw [Typed] at hts hto
    have h := cmpList_outcome l m 0 t ts ht hs hw hts hto
    cases hr : cmpList order (enc (t :: ts)) 0 l m with
    | error e =>
      rw [hr] at h
      obtain ⟨h1, hl | ⟨j, v, w, hv, hx, hy⟩⟩ := h
      · exact ⟨h1, .here l m (by omega)⟩
      · exact ⟨h1, .item l m j v w hv (by rwa [Nat.zero_add] at hx) hy⟩
    | ok r =>
      obtain ⟨b, n⟩ := r
      rw [hr] at h
      cases b with
      | true =>
        refine .list l m ?_ fun i v w h1 h2 => h.2 i v w h1 (by rwa [Nat.zero_add])
        cases l with
        | nil => simp
        | cons x l => have := h.1 (by simp); omega
      | false =>
        obtain ⟨j, v, w, us, hv, hx, hy, hn⟩ := h
        rw [Nat.zero_add] at hx hn
        exact ⟨natStr j :: us, .item l m j v w us hv hx hy, hn⟩
  | .dict d, .dict e, t, ts, ht, hs, hw, hts, hto => by
    rw [cmp]
    rw [WF] at hs hw
    rw [Typed] at hts hto
    cases h1 : order (keysBut d e) with
    | cons k r =>
      have hk := head_of_order ho h1
      simp only [keysBut, List.mem_filter, decide_eq_true_eq] at hk
      exact ⟨[k], .left d e k hk.1 hk.2, by rw [compose_some ts ht]⟩
    | nil =>
      cases h2 : order (keysBut e d) with
      | cons k r =>
        have hk := head_of_order ho h2
        simp only [keysBut, List.mem_filter, decide_eq_true_eq] at hk
        exact ⟨[k], .right d e k hk.2 hk.1, by rw [compose_some ts ht]⟩
      | nil =>
        have e1 : ∀ k ∈ Dict.keys d, k ∈ Dict.keys e := by
          have := nil_of_order ho h1
          simpa [keysBut, List.filter_eq_nil_iff] using this
        have e2 : ∀ k ∈ Dict.keys e, k ∈ Dict.keys d := by
          have := nil_of_order ho h2
          simpa [keysBut, List.filter_eq_nil_iff] using this
        have h := cmpDict_outcome d e t ts ht hs.2 hw.2 hts hto e1
        simp only []
        cases hr : cmpDict order (enc (t :: ts)) d e with
        | error e' =>
          rw [hr] at h
          obtain ⟨h1, k, v, w, hk, hg, hx⟩ := h
          exact ⟨h1, .key d e k v w (Dict.get?_of_mem hs.1 hk) hg hx⟩
        | ok r =>
          obtain ⟨b, n⟩ := r
          rw [hr] at h
          cases b with
          | true =>
            exact .dict d e (fun k => ⟨e1 k, e2 k⟩) fun k v w h1 h2 => h k v w (Dict.mem_of_get? h1) h2
          | false =>
            obtain ⟨k, v, w, us, hk, hg, hx, hn⟩ := h
            exact ⟨k :: us, .key d e k v w us (Dict.get?_of_mem hs.1 hk) hg hx, hn⟩
  | .atom a, .list _, t, ts, _, _, _, _, _ => by rw [cmp] <;> first | exact ⟨[], .here _ _ trivial, by simp⟩ | (intros; simp_all)
  | .atom a, .dict _, t, ts, _, _, _, _, _ => by rw [cmp] <;> first | exact ⟨[], .here _ _ trivial, by simp⟩ | (intros; simp_all)
  | .atom a, .obj _ _, t, ts, _, _, _, _, _ => by rw [cmp] <;> first | exact ⟨[], .here _ _ trivial, by simp⟩ | (intros; simp_all)
  | .list _, .atom _, t, ts, _, _, _, _, _ => by rw [cmp] <;> first | exact ⟨[], .here _ _ trivial, by simp⟩ | (intros; simp_all)
  | .list _, .dict _, t, ts, _, _, _, _, _ => by rw [cmp] <;> first | exact ⟨[], .here _ _ trivial, by simp⟩ | (intros; simp_all)
  | .list _, .obj _ _, t, ts, _, _, _, _, _ => by rw [cmp] <;> first | exact ⟨[], .here _ _ trivial, by simp⟩ | (intros; simp_all)
  | .dict _, .atom _, t, ts, _, _, _, _, _ => by rw [cmp] <;> first | exact ⟨[], .here _ _ trivial, by simp⟩ | (intros; simp_all)
  | .dict _, .list _, t, ts, _, _, _, _, _ => by rw [cmp] <;> first | exact ⟨[], .here _ _ trivial, by simp⟩ | (intros; simp_all)
  | .dict _, .obj _ _, t, ts, _, _, _, _, _ => by rw [cmp] <;> first | exact ⟨[], .here _ _ trivial, by simp⟩ | (intros; simp_all)
  | .obj _ _, .atom _, t, ts, _, _, _, _, _ => by rw [cmp] <;> first | exact ⟨[], .here _ _ trivial, by simp⟩ | (intros; simp_all)
  | .obj _ _, .list _, t, ts, _, _, _, _, _ => by rw [cmp] <;> first | exact ⟨[], .here _ _ trivial, by simp⟩ | (intros; simp_all)
  | .obj _ _, .dict _, t, ts, _, _, _, _, _ => by rw [cmp] <;> first | exact ⟨[], .here _ _ trivial, by simp⟩ | (intros; simp_all)
theorem cmpList_outcome : ∀ (l m : List Tree) (i : Nat) (t : Str) (ts : List Str), t ≠ [] → WFList l →
    WFList m → TypedL fields l → TypedL fields m →
    OutcomeL (t :: ts) i l m (cmpList order (enc (t :: ts)) i l m)
  | [], m, i, t, ts, _, _, _, _, _ => by
    rw [cmpList]
    exact ⟨fun h => absurd rfl h, fun j v w h => by simp at h⟩
  | v :: l, m, i, t, ts, ht, hs, hw, hts, hto => by
    rw [cmpList]
    rw [WFList] at hs
    rw [TypedL] at hts
    cases hm : m[i]? with
    | none =>
      refine ⟨rfl, Or.inl ?_⟩
      have := List.getElem?_eq_none_iff.1 hm
      simp
      omega
    | some w =>
      have h := cmp_outcome v w t (ts ++ [natStr i]) ht hs.1 (resolve_at.wf_of_getElem hw hm) hts.1
        (typed_of_getElem hto hm)
      simp only [compose_some ts ht, List.cons_append]
      cases hr : cmp order (enc (t :: (ts ++ [natStr i]))) v w with
      | error e =>
        rw [hr] at h
        exact ⟨h.1, Or.inr ⟨0, v, w, rfl, hm, h.2⟩⟩
      | ok r =>
        obtain ⟨b, n⟩ := r
        rw [hr] at h
        cases b with
        | false =>
          obtain ⟨us, hd, hn⟩ := h
          exact ⟨0, v, w, us, rfl, hm, hd, by simpa using hn⟩
        | true =>
          have h2 := cmpList_outcome l m (i + 1) t ts ht hs.2 hw hts.2 hto
          simp only []
          cases hr2 : cmpList order (enc (t :: ts)) (i + 1) l m with
          | error e =>
            rw [hr2] at h2
            refine ⟨h2.1, ?_⟩
            rcases h2.2 with hx | ⟨j, v', w', h3, h4, h5⟩
            · exact Or.inl (by simp; omega)
            · exact Or.inr ⟨j + 1, v', w', by simpa using h3, by rwa [← Nat.add_assoc, Nat.add_right_comm], h5⟩
          | ok r =>
            obtain ⟨b, n'⟩ := r
            rw [hr2] at h2
            cases b with
            | false =>
              obtain ⟨j, v', w', us, h3, h4, h5, h6⟩ := h2
              exact ⟨j + 1, v', w', us, by simpa using h3, by rwa [← Nat.add_assoc, Nat.add_right_comm], h5,
                by rwa [← Nat.add_assoc, Nat.add_right_comm]⟩
            | true =>
              have hi : i < m.length := (List.getElem?_eq_some_iff.1 hm).1
              refine ⟨fun _ => ?_, ?_⟩
              · by_cases hl : l = []
                · subst hl; simp; omega
                · have := h2.1 hl; simp; omega
              · intro j v' w' h3 h4
                cases j with
                | zero =>
                  simp at h3; subst h3
                  rw [Nat.add_zero, hm] at h4
                  cases h4
                  exact h
                | succ j =>
                  exact h2.2 j v' w' (by simpa using h3) (by rwa [Nat.add_right_comm])
theorem cmpDict_outcome : ∀ (d e : List (Str × Tree)) (t : Str) (ts : List Str), t ≠ [] → WFDict d →
    WFDict e → TypedD fields d → TypedD fields e → (∀ k ∈ Dict.keys d, k ∈ Dict.keys e) →
    OutcomeD (t :: ts) d e (cmpDict order (enc (t :: ts)) d e)
  | [], e, t, ts, _, _, _, _, _, _ => by
    rw [cmpDict]
    exact fun k v w h => by cases h
  | (k, v) :: d, e, t, ts, ht, hs, hw, hts, hto, hk => by
    rw [cmpDict]
    rw [WFDict] at hs
    rw [TypedD] at hts
    cases hm : Dict.get? e k with
    | none => exact absurd (hk k (by simp [Dict.keys])) ((Dict.get?_eq_none_iff e k).1 hm)
    | some w =>
      have h := cmp_outcome v w t (ts ++ [k]) ht hs.1 (wf_get hw hm) hts.1 (typed_of_get hto hm)
      simp only [compose_some ts ht, List.cons_append]
      cases hr : cmp order (enc (t :: (ts ++ [k]))) v w with
      | error e' =>
        rw [hr] at h
        exact ⟨h.1, k, v, w, List.mem_cons_self .., hm, h.2⟩
      | ok r =>
        obtain ⟨b, n⟩ := r
        rw [hr] at h
        cases b with
        | false =>
          obtain ⟨us, hd, hn⟩ := h
          exact ⟨k, v, w, us, List.mem_cons_self .., hm, hd, by simpa using hn⟩
        | true =>
          have h2 := cmpDict_outcome d e t ts ht hs.2 hw hts.2 hto
            (fun k' hk' => hk k' (by simp [Dict.keys] at hk' ⊢; exact Or.inr hk'))
          simp only []
          cases hr2 : cmpDict order (enc (t :: ts)) d e with
          | error e' =>
            rw [hr2] at h2
            obtain ⟨h1, k', v', w', h3, h4, h5⟩ := h2
            exact ⟨h1, k', v', w', List.mem_cons_of_mem _ h3, h4, h5⟩
          | ok r =>
            obtain ⟨b, n'⟩ := r
            rw [hr2] at h2
            cases b with
            | false =>
              obtain ⟨k', v', w', us, h3, h4, h5, h6⟩ := h2
              exact ⟨k', v', w', us, List.mem_cons_of_mem _ h3, h4, h5, h6⟩
            | true =>
              intro k' v' w' h3 h4
              rcases List.mem_cons.1 h3 with e | h3
              · cases e
                rw [hm] at h4
                cases h4
                exact h
              · exact h2 k' v' w' h3 h4
theorem cmpFields_outcome : ∀ (d e : List (Str × Tree)) (t : Str) (ts : List Str), t ≠ [] → WFDict d →
    WFDict e → TypedD fields d → TypedD fields e → (∀ k ∈ Dict.keys d, k ∈ Dict.keys e) →
    OutcomeD (t :: ts) d e (cmpFields order (some (enc (t :: ts))) d e)
  | [], e, t, ts, _, _, _, _, _, _ => by
    rw [cmpFields]
    exact fun k v w h => by cases h
  | (k, v) :: d, e, t, ts, ht, hs, hw, hts, hto, hk => by
    rw [cmpFields]
    rw [WFDict] at hs
    rw [TypedD] at hts
    cases hm : Dict.get? e k with
    | none => exact absurd (hk k (by simp [Dict.keys])) ((Dict.get?_eq_none_iff e k).1 hm)
    | some w =>
      have h := cmp_outcome v w t (ts ++ [k]) ht hs.1 (wf_get hw hm) hts.1 (typed_of_get hto hm)
      simp only [compose_some ts ht, List.cons_append]
      cases hr : cmp order (enc (t :: (ts ++ [k]))) v w with
      | error e' =>
        rw [hr] at h
        exact ⟨h.1, k, v, w, List.mem_cons_self .., hm, h.2⟩
      | ok r =>
        obtain ⟨b, n⟩ := r
        rw [hr] at h
        cases b with
        | false =>
          obtain ⟨us, hd, hn⟩ := h
          exact ⟨k, v, w, us, List.mem_cons_self .., hm, hd, by simpa using hn⟩
        | true =>
          have h2 := cmpFields_outcome d e t ts ht hs.2 hw hts.2 hto
            (fun k' hk' => hk k' (by simp [Dict.keys] at hk' ⊢; exact Or.inr hk'))
          simp only []
          cases hr2 : cmpFields order (some (enc (t :: ts))) d e with
          | error e' =>
            rw [hr2] at h2
            obtain ⟨h1, k', v', w', h3, h4, h5⟩ := h2
            exact ⟨h1, k', v', w', List.mem_cons_of_mem _ h3, h4, h5⟩
          | ok r =>
            obtain ⟨b, n'⟩ := r
            rw [hr2] at h2
            cases b with
            | false =>
              obtain ⟨k', v', w', us, h3, h4, h5, h6⟩ := h2
              exact ⟨k', v', w', us, List.mem_cons_of_mem _ h3, h4, h5, h6⟩
            | true =>
              intro k' v' w' h3 h4
              rcases List.mem_cons.1 h3 with e | h3
              · cases e
                rw [hm] at h4
                cases h4
                exact h
              · exact h2 k' v' w' h3 h4
end

/-- the fields of the outermost object -/
theorem cmpFields_top : ∀ (d e : List (Str × Tree)), [] ∉ Dict.keys d → WFDict d →
    WFDict e → TypedD fields d → TypedD fields e → (∀ k ∈ Dict.keys d, k ∈ Dict.keys e) →
    OutcomeD [] d e (cmpFields order none d e)
  | [], e, _, _, _, _, _, _ => by
    rw [cmpFields]
    exact fun k v w h => by cases h
  | (k, v) :: d, e, h0, hs, hw, hts, hto, hk => by
    rw [cmpFields]
    rw [WFDict] at hs
    rw [TypedD] at hts
    have h0' : ¬ [] = k ∧ [] ∉ Dict.keys d := by simpa [Dict.keys] using h0
    cases hm : Dict.get? e k with
    | none => exact absurd (hk k (by simp [Dict.keys])) ((Dict.get?_eq_none_iff e k).1 hm)
    | some w =>
      have h := cmp_outcome ho fields v w k [] (fun e => h0'.1 e.symm) hs.1 (wf_get hw hm) hts.1
        (typed_of_get hto hm)
      simp only [compose_none]
      cases hr : cmp order (enc [k]) v w with
      | error e' =>
        rw [hr] at h
        exact ⟨h.1, k, v, w, List.mem_cons_self .., hm, h.2⟩
      | ok r =>
        obtain ⟨b, n⟩ := r
        rw [hr] at h
        cases b with
        | false =>
          obtain ⟨us, hd, hn⟩ := h
          exact ⟨k, v, w, us, List.mem_cons_self .., hm, hd, by simpa using hn⟩
        | true =>
          have h2 := cmpFields_top d e h0'.2 hs.2 hw hts.2 hto
            (fun k' hk' => hk k' (by simp [Dict.keys] at hk' ⊢; exact Or.inr hk'))
          simp only []
          cases hr2 : cmpFields order none d e with
          | error e' =>
            rw [hr2] at h2
            obtain ⟨h1, k', v', w', h3, h4, h5⟩ := h2
            exact ⟨h1, k', v', w', List.mem_cons_of_mem _ h3, h4, h5⟩
          | ok r =>
            obtain ⟨b, n'⟩ := r
            rw [hr2] at h2
            cases b with
            | false =>
              obtain ⟨k', v', w', us, h3, h4, h5, h6⟩ := h2
              exact ⟨k', v', w', us, List.mem_cons_of_mem _ h3, h4, h5, h6⟩
            | true =>
              intro k' v' w' h3 h4
              rcases List.mem_cons.1 h3 with e | h3
              · cases e
                rw [hm] at h4
                cases h4
                exact h
              · exact h2 k' v' w' h3 h4

/-- comparing two objects -/
theorem compare_outcome (s o : Tree) (c c' : Nat) (fs gs : List (Str × Tree)) (hs : s = .obj c fs)
    (hg : o = .obj c' gs) (h1 : WF s) (h2 : WF o) (h3 : Typed fields s) (h4 : Typed fields o) :
    Outcome [] s o (compare order s o) := by
  subst hs hg
  unfold Tree.compare
  simp only []
  by_cases hc : c = c'
  · subst hc
    rw [if_pos rfl]
    rw [WF] at h1 h2
    rw [Typed] at h3 h4
    have h := cmpFields_top ho fields fs gs h1.2.1 h1.2.2 h2.2.2 h3.2 h4.2
      (fun k hk => by rw [h4.1, ← h3.1]; exact hk)
    cases hr : cmpFields order none fs gs with
    | error e =>
      rw [hr] at h
      obtain ⟨h5, k, v, w, hk, hg, hx⟩ := h
      exact ⟨h5, .field c fs gs k v w (Dict.get?_of_mem h1.1 hk) hg hx⟩
    | ok r =>
      obtain ⟨b, n⟩ := r
      rw [hr] at h
      cases b with
      | true => exact .obj c fs gs fun k v w h1 h2 => h k v w (Dict.mem_of_get? h1) h2
      | false =>
        obtain ⟨k, v, w, us, hk, hg, hx, hn⟩ := h
        exact ⟨k :: us, .field c fs gs k v w us (Dict.get?_of_mem h1.1 hk) hg hx, hn⟩
  · rw [if_neg hc]
    exact ⟨[], .here _ _ hc, by simp [enc]⟩

end

/-! ## the relations -/

theorem covers_not_differ {s o : Tree} (h : Covers s o) {ts : List Str} (hd : Differ s o ts) : False := by
  induction hd with
  | here s o hu =>
    cases h with
    | atom a b h => exact hu h
    | list => exact hu
    | dict => exact hu
    | obj => exact hu rfl
  | left d e k h1 h2 => cases h with | dict _ _ hk _ => exact h2 ((hk k).1 h1)
  | right d e k h1 h2 => cases h with | dict _ _ hk _ => exact h1 ((hk k).2 h2)
  | item l m i v w ts h1 h2 _ ih => cases h with | list _ _ _ hx => exact ih (hx i v w h1 h2)
  | key d e k v w ts h1 h2 _ ih => cases h with | dict _ _ _ hx => exact ih (hx k v w h1 h2)
  | field c fs gs k v w ts h1 h2 _ ih => cases h with | obj _ _ _ hx => exact ih (hx k v w h1 h2)

theorem covers_not_shorter {s o : Tree} (h : Covers s o) (hd : Shorter s o) : False := by
  induction hd with
  | here l m hl => cases h with | list _ _ hx _ => omega
  | item l m i v w h1 h2 _ ih => cases h with | list _ _ _ hx => exact ih (hx i v w h1 h2)
  | key d e k v w h1 h2 _ ih => cases h with | dict _ _ _ hx => exact ih (hx k v w h1 h2)
  | field c fs gs k v w h1 h2 _ ih => cases h with | obj _ _ _ hx => exact ih (hx k v w h1 h2)

theorem agree_covers {s o : Tree} (h : Agree s o) : Covers s o := by
  induction h with
  | atom a b h => exact .atom a b h
  | list l m h _ ih => exact .list l m (by omega) ih
  | dict d e h _ ih => exact .dict d e h ih
  | obj c fs gs _ ih => exact .obj c fs gs ih

theorem agree_symm {s o : Tree} (h : Agree s o) : Agree o s := by
  induction h with
  | atom a b h => exact .atom b a ⟨h.1.symm, h.1 ▸ h.2⟩
  | list l m h _ ih => exact .list m l h.symm fun i v w h1 h2 => ih i w v h2 h1
  | dict d e h _ ih => exact .dict e d (fun k => (h k).symm) fun k v w h1 h2 => ih k w v h2 h1
  | obj c fs gs _ ih => exact .obj c gs fs fun k v w h1 h2 => ih k w v h2 h1

theorem covers_both {s o : Tree} (h : Covers s o) (h2 : Covers o s) : Agree s o := by
  induction h with
  | atom a b h => exact .atom a b h
  | list l m h _ ih =>
    cases h2 with
    | list _ _ h' hx =>
      exact .list l m (by omega) fun i v w h1 h2 => ih i v w h1 h2 (hx i w v h2 h1)
  | dict d e h _ ih =>
    cases h2 with
    | dict _ _ _ hx => exact .dict d e h fun k v w h1 h2 => ih k v w h1 h2 (hx k w v h2 h1)
  | obj c fs gs _ ih =>
    cases h2 with
    | obj _ _ _ hx => exact .obj c fs gs fun k v w h1 h2 => ih k v w h1 h2 (hx k w v h2 h1)

end Proofs.Compare
