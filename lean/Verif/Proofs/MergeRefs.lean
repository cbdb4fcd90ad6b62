import Verif.Spec.MergeRefs
import Verif.Proofs.Merge
import Verif.Props.C42
import Mathlib.Data.List.Perm.Subperm
/-! # Helper lemmas for effective objects (C52) -/

namespace Proofs.MergeRefs
open Py Tree _root_.Doc _root_.MergeRefs Spec.Doc Spec.Merge Spec.MergeRefs Proofs.Merge

/-- one merge after the other -/
def mergeAll (order : List Atom → List Atom) : Tree → List Tree → Option Tree
  | t, [] => some t
  | t, o :: os => (merge v20 order [] t o).bind fun r => mergeAll order r os

theorem refText_some {t : Tree} {r : Str} : refText t = some r ↔ RefTo t r := by
  unfold refText refOf RefTo valueOf
  cases t with
  | obj c fs =>
    dsimp only
    cases Dict.get? fs c!"$ref" with
    | none => simp
    | some v =>
      cases v with
      | atom a =>
        cases a with
        | str s => cases s <;> simp <;> rintro rfl <;> simp
        | _ => simp
      | _ => simp
  | _ => simp

theorem refText_none {t : Tree} : refText t = none ↔ ∀ r, ¬ RefTo t r := by
  constructor
  · intro h r hr
    rw [refText_some.2 hr] at h; cases h
  · intro h
    cases hr : refText t with
    | none => rfl
    | some r => exact absurd (refText_some.1 hr) (h r)

theorem follow_chain {W : World} {order : List Atom → List Atom} {c : Nat} :
    ∀ (n : Nat) (vis : List Nat) (cur : Nat) (result : Tree) (o : Outcome),
      follow W order c n vis cur result = some o →
      (o = .failed ∧ ∃ pre, pre ≠ [] ∧ mergeAll order result (pre.map W.content) = none ∧
        (pre.Nodup ∧ ∀ j ∈ pre, cls? (W.content j) = some c ∧ j ∉ vis)) ∨
      ∃ rest e, Chain W c vis cur rest e ∧
        ((∃ x, o = .raised x ∧ e = .raised x) ∨
          ∃ t, o = .value t ∧ e = .done ∧ mergeAll order result (rest.map W.content) = some t) := by
  intro n
  induction n with
  | zero => intro vis cur result o h; cases h
  | succ n ih =>
    intro vis cur result o h
    rw [follow] at h
    cases hr : refText (W.content cur) with
    | none =>
      rw [hr] at h; cases h
      exact Or.inr ⟨[], .done, Chain.stop (refText_none.1 hr), Or.inr ⟨_, rfl, rfl, rfl⟩⟩
    | some r =>
      rw [hr] at h
      dsimp only at h
      cases hj : W.resolve r with
      | error e =>
        rw [hj] at h; cases h
        exact Or.inr ⟨[], .raised e, Chain.dangling (refText_some.1 hr) hj, Or.inl ⟨_, rfl, rfl⟩⟩
      | ok j =>
        rw [hj] at h
        dsimp only at h
        by_cases hc : cls? (W.content j) = some c
        · by_cases hv : j ∈ vis
          · simp only [hc, ne_eq, not_true_eq_false, if_false, hv, if_true] at h
            cases h
            exact Or.inr ⟨[], .done, Chain.cycle (refText_some.1 hr) hj hc hv, Or.inr ⟨_, rfl, rfl, rfl⟩⟩
          · simp only [hc, ne_eq, not_true_eq_false, if_false, hv] at h
            cases hm : merge v20 order [] result (W.content j) with
            | none =>
              rw [hm] at h; cases h
              refine Or.inl ⟨rfl, [j], by simp, by simp [mergeAll, hm], by simp, ?_⟩
              intro x hx
              rw [List.mem_singleton.1 hx]
              exact ⟨hc, hv⟩
            | some result' =>
              rw [hm] at h
              rcases ih _ _ _ _ h with ⟨ho, pre, hne, hf, hnd, hall⟩ | ⟨rest, e, hch, hout⟩
              · refine Or.inl ⟨ho, j :: pre, by simp, by simp [mergeAll, hm, hf], ?_, ?_⟩
                · exact List.nodup_cons.2 ⟨fun x => (hall j x).2 (List.mem_cons_self ..), hnd⟩
                · intro x hx
                  rcases List.mem_cons.1 hx with rfl | hx
                  · exact ⟨hc, hv⟩
                  · exact ⟨(hall x hx).1, fun y => (hall x hx).2 (List.mem_cons_of_mem _ y)⟩
              · refine Or.inr ⟨j :: rest, e, Chain.step (refText_some.1 hr) hj hc hv hch, ?_⟩
                rcases hout with h' | ⟨t, h1, h2, h3⟩
                · exact Or.inl h'
                · exact Or.inr ⟨t, h1, h2, by simp [mergeAll, hm, h3]⟩
        · simp only [hc, ne_eq, not_false_eq_true, if_true] at h
          cases h
          exact Or.inr ⟨[], _, Chain.mismatch (refText_some.1 hr) hj hc, Or.inl ⟨_, rfl, rfl⟩⟩

/-- a chain is determined -/
theorem chain_unique {W : World} {c : Nat} {vis : List Nat} {cur : Nat} {r1 r2 : List Nat} {e1 e2 : End}
    (h1 : Chain W c vis cur r1 e1) (h2 : Chain W c vis cur r2 e2) : r1 = r2 ∧ e1 = e2 := by
  have key : ∀ {t : Tree} {r r' : Str}, RefTo t r → RefTo t r' → r = r' := fun h h' =>
    Option.some.inj ((refText_some.2 h).symm.trans (refText_some.2 h'))
  induction h1 generalizing r2 e2 with
  | stop a =>
    cases h2 with
    | stop => exact ⟨rfl, rfl⟩
    | dangling a' | mismatch a' | cycle a' | step a' => exact absurd a' (a _)
  | dangling a b =>
    cases h2 with
    | stop a' => exact absurd a (a' _)
    | dangling a' | mismatch a' | cycle a' | step a' => cases key a a'; simp_all
  | mismatch a b d =>
    cases h2 with
    | stop a' => exact absurd a (a' _)
    | dangling a' | mismatch a' | cycle a' | step a' => cases key a a'; simp_all
  | cycle a b d e =>
    cases h2 with
    | stop a' => exact absurd a (a' _)
    | dangling a' | mismatch a' | cycle a' | step a' => cases key a a'; simp_all
  | step a b d e _ ih =>
    cases h2 with
    | step a' b' d' e' f' =>
      cases key a a'
      rw [b] at b'; cases b'
      obtain ⟨h, h'⟩ := ih f'
      exact ⟨by rw [h], h'⟩
    | stop a' => exact absurd a (a' _)
    | dangling a' | mismatch a' | cycle a' => cases key a a'; simp_all

theorem follow_terminates {W : World} {order : List Atom → List Atom} {c : Nat} (ids : List Nat)
    (hids : ∀ r j, W.resolve r = .ok j → j ∈ ids) :
    ∀ (n : Nat) (vis : List Nat) (cur : Nat) (result : Tree), vis.Nodup → (∀ v ∈ vis, v ∈ ids) →
      ids.length < n + vis.length → ∃ o, follow W order c n vis cur result = some o := by
  intro n
  induction n with
  | zero =>
    intro vis cur result hnd hsub hlt
    have := (List.Nodup.subperm hnd hsub).length_le
    omega
  | succ n ih =>
    intro vis cur result hnd hsub hlt
    rw [follow]
    cases hr : refText (W.content cur) with
    | none => exact ⟨_, rfl⟩
    | some r =>
      dsimp only
      cases hj : W.resolve r with
      | error e => exact ⟨_, rfl⟩
      | ok j =>
        dsimp only
        split
        · exact ⟨_, rfl⟩
        · split
          · exact ⟨_, rfl⟩
          · next hv =>
            cases hm : merge v20 order [] result (W.content j) with
            | none => exact ⟨_, rfl⟩
            | some result' =>
              dsimp only
              refine ih _ _ _ (List.nodup_cons.2 ⟨hv, hnd⟩) ?_ (by simp only [List.length_cons]; omega)
              intro v hvv
              rcases List.mem_cons.1 hvv with rfl | hvv
              · exact hids _ _ hj
              · exact hsub v hvv

/-- the fields after one merge -/
theorem merge_obj {order : List Atom → List Atom} {c : Nat} {fs : List (Str × Tree)} {o r : Tree}
    (h : merge v20 order [] (.obj c fs) o = some r) :
    ∃ c' os gs, o = .obj c' os ∧ r = .obj c gs ∧ ∀ n, Dict.get? gs n =
      (Dict.get? fs n).bind (mergedField v20 order [] (v20 c) os n) := by
  cases o with
  | obj c' os =>
    rw [merge] at h
    cases hg : mergeFields v20 order [] (v20 c) os fs with
    | none => rw [hg] at h; cases h
    | some gs =>
      rw [hg] at h; cases h
      exact ⟨c', os, gs, rfl, rfl, (mergeFields_spec hg).2⟩
  | _ => rw [merge] at h <;> first | cases h | exact nofun

theorem mergedField_nil {G : Grammar} {order : List Atom → List Atom} {cls : Cls} {os : Dict Str Tree}
    {n : Str} {own v dflt : Tree} (hf : Dict.get? cls.fields n = some dflt) (hv : Dict.get? os n = some v) :
    mergedField G order [] cls os n own =
      mergeField order dflt (Dict.get? cls.child n).isSome own v (copyOf G order cls n v) := by
  unfold mergedField
  simp [hv, defaultOf_eq hf]

/-- a property of the value of one field that every merge respects -/
theorem mergeAll_field {order : List Atom → List Atom} {c : Nat} {n : Str} {dflt : Tree}
    (hf : Dict.get? (v20 c).fields n = some dflt) {os : List Tree} {fs : List (Str × Tree)} {r own : Tree}
    (h : mergeAll order (.obj c fs) os = some r) (hown : Dict.get? fs n = some own) :
    (os = [] ∧ ∃ gs, r = .obj c gs ∧ Dict.get? gs n = some own) ∨
    ∃ o os' v own' gs', os = o :: os' ∧ valueOf n o = some v ∧
      mergeField order dflt (Dict.get? (v20 c).child n).isSome own v (copyOf v20 order (v20 c) n v) = some own' ∧
      Dict.get? gs' n = some own' ∧ mergeAll order (.obj c gs') os' = some r := by
  cases os with
  | nil => cases h; exact Or.inl ⟨rfl, fs, rfl, hown⟩
  | cons o os =>
    rw [mergeAll] at h
    cases hm : merge v20 order [] (.obj c fs) o with
    | none => rw [hm] at h; cases h
    | some r' =>
      rw [hm] at h
      simp only [Option.bind_some] at h
      obtain ⟨c', os', gs, rfl, rfl, hget⟩ := merge_obj hm
      have hn := hget n
      rw [hown] at hn
      simp only [Option.bind_some] at hn
      have hsome : (Dict.get? gs n).isSome := by
        rw [merge] at hm
        cases hg : mergeFields v20 order [] (v20 c) os' fs with
        | none => rw [hg] at hm; cases hm
        | some gs' =>
          rw [hg] at hm; cases hm
          rw [Dict.get?_isSome_iff, (mergeFields_spec hg).1, ← Dict.get?_isSome_iff, hown]; rfl
      cases hv : Dict.get? os' n with
      | none =>
        rw [hn] at hsome
        unfold mergedField at hsome
        simp [hv] at hsome
      | some v =>
        rw [mergedField_nil hf hv] at hn
        obtain ⟨own', ho'⟩ := Option.isSome_iff_exists.1 hsome
        exact Or.inr ⟨_, os, v, own', gs, rfl, hv, hn.symm.trans ho', ho', h⟩

theorem firstSet_cons {n : Str} {dflt : Tree} {o : Tree} {os : List Tree} {v x : Tree}
    (hx : valueOf n o = some x) :
    FirstSet n dflt (o :: os) v ↔
      (isDefault dflt x = false ∧ v = x) ∨ (isDefault dflt x = true ∧ FirstSet n dflt os v) := by
  constructor
  · rintro ⟨before, o', after, h, hv, hd, hb⟩
    cases before with
    | nil =>
      simp only [List.nil_append, List.cons.injEq] at h
      obtain ⟨rfl, rfl⟩ := h
      rw [hx] at hv; cases hv
      exact Or.inl ⟨hd, rfl⟩
    | cons b before =>
      simp only [List.cons_append, List.cons.injEq] at h
      obtain ⟨rfl, rfl⟩ := h
      obtain ⟨y, hy, hyd⟩ := hb _ (List.mem_cons_self ..)
      rw [hx] at hy; cases hy
      exact Or.inr ⟨hyd, before, o', after, rfl, hv, hd, fun z hz => hb z (List.mem_cons_of_mem _ hz)⟩
  · rintro (⟨hd, rfl⟩ | ⟨hd, before, o', after, rfl, hv, hd', hb⟩)
    · exact ⟨[], o, os, rfl, hx, hd, fun b hb => by cases hb⟩
    · refine ⟨o :: before, o', after, rfl, hv, hd', fun b hb' => ?_⟩
      rcases List.mem_cons.1 hb' with rfl | hb'
      · exact ⟨x, hx, hd⟩
      · exact hb b hb'

theorem noneSet_cons {n : Str} {dflt : Tree} {o : Tree} {os : List Tree} {x : Tree}
    (hx : valueOf n o = some x) :
    NoneSet n dflt (o :: os) ↔ isDefault dflt x = true ∧ NoneSet n dflt os := by
  constructor
  · intro h
    obtain ⟨y, hy, hd⟩ := h o (List.mem_cons_self ..)
    rw [hx] at hy; cases hy
    exact ⟨hd, fun b hb => h b (List.mem_cons_of_mem _ hb)⟩
  · rintro ⟨hd, h⟩ b hb
    rcases List.mem_cons.1 hb with rfl | hb
    · exact ⟨x, hx, hd⟩
    · exact h b hb

theorem set_or_not {n : Str} {dflt : Tree} {os : List Tree} (h : ∀ o ∈ os, ∃ x, valueOf n o = some x) :
    (∃ v, FirstSet n dflt os v) ∨ NoneSet n dflt os := by
  induction os with
  | nil => exact Or.inr fun b hb => by cases hb
  | cons o os ih =>
    obtain ⟨x, hx⟩ := h o (List.mem_cons_self ..)
    cases hd : isDefault dflt x with
    | false => exact Or.inl ⟨x, (firstSet_cons hx).2 (Or.inl ⟨hd, rfl⟩)⟩
    | true =>
      rcases ih fun o ho => h o (List.mem_cons_of_mem _ ho) with ⟨v, hv⟩ | hn
      · exact Or.inl ⟨v, (firstSet_cons hx).2 (Or.inr ⟨hd, hv⟩)⟩
      · exact Or.inr ((noneSet_cons hx).2 ⟨hd, hn⟩)

/-- scalars -/
theorem mergeAll_scalar {order : List Atom → List Atom} {c : Nat} {n : Str} {dflt : Tree}
    (hf : Dict.get? (v20 c).fields n = some dflt) (hc : Dict.get? (v20 c).child n = none) :
    ∀ {os : List Tree} {fs : List (Str × Tree)} {r own : Tree},
    mergeAll order (.obj c fs) os = some r → Dict.get? fs n = some own →
    (∀ o ∈ os, ∀ x, valueOf n o = some x → ∃ a, x = .atom a) →
    ∃ gs, r = .obj c gs ∧ (isDefault dflt own = false → Dict.get? gs n = some own) ∧
      (isDefault dflt own = true → (∀ v, FirstSet n dflt os v → Dict.get? gs n = some v) ∧
        (NoneSet n dflt os → Dict.get? gs n = some own)) := by
  intro os
  induction os with
  | nil =>
    intro fs r own h hown _
    cases h
    refine ⟨fs, rfl, fun _ => hown, fun _ => ⟨?_, fun _ => hown⟩⟩
    rintro v ⟨b, o, a, h, _⟩
    simp at h
  | cons o os ih =>
    intro fs r own h hown hat
    rcases mergeAll_field hf h hown with ⟨h', _⟩ | ⟨o', os', v, own', gs', h', hv, hm, hg', hr⟩
    · cases h'
    · cases h'
      obtain ⟨a, rfl⟩ := hat o (List.mem_cons_self ..) v hv
      obtain ⟨gs, rfl, h1, h2⟩ := ih hr hg' fun o ho => hat o (List.mem_cons_of_mem _ ho)
      refine ⟨gs, rfl, ?_, ?_⟩
      · intro hd
        unfold mergeField at hm
        rw [hc] at hm
        simp only [Option.isSome_none, Bool.false_eq_true, if_false, hd] at hm
        have : own' = own := by
          split at hm <;> (cases hm; rfl)
        subst this
        exact h1 hd
      · intro hd
        unfold mergeField at hm
        rw [hc] at hm
        simp only [Option.isSome_none, Bool.false_eq_true, if_false, hd, if_true] at hm
        cases hx : isDefault dflt (.atom a) with
        | true =>
          simp only [hx, if_true] at hm
          cases hm
          refine ⟨fun u hu => ?_, fun hn => (h2 hd).2 ((noneSet_cons hv).1 hn).2⟩
          rcases (firstSet_cons hv).1 hu with ⟨h, _⟩ | ⟨_, hu⟩
          · rw [hx] at h; cases h
          · exact (h2 hd).1 u hu
        | false =>
          simp only [hx, Bool.false_eq_true, if_false] at hm
          cases hm
          refine ⟨fun u hu => ?_, fun hn => ?_⟩
          · rcases (firstSet_cons hv).1 hu with ⟨_, rfl⟩ | ⟨h, _⟩
            · exact h1 hx
            · rw [hx] at h; cases h
          · have := ((noneSet_cons hv).1 hn).1
            rw [hx] at this; cases this

theorem copy_not_default {k : Kind} {dflt v w : Tree} (hk : okDefault k dflt = true) (h : Copy v20 k v w)
    (hd : isDefault dflt v = false) : isDefault dflt w = false := by
  cases h with
  | null => exact hd
  | bool => exact hd
  | list c l m hl _ =>
    cases m with
    | nil => cases l with
      | nil => exact hd
      | cons _ _ => simp at hl
    | cons _ _ =>
      cases dflt with
      | atom a => cases a <;> rfl
      | list l => cases l <;> rfl
      | dict l => cases l <;> rfl
      | _ => rfl
  | dict c l m hl _ =>
    cases m with
    | nil => cases l with
      | nil => exact hd
      | cons _ _ => simp [Dict.keys] at hl
    | cons _ _ =>
      cases dflt with
      | atom a => cases a <;> rfl
      | dict l => cases l <;> rfl
      | list l => cases l <;> rfl
      | _ => rfl
  | obj =>
    cases dflt with
    | atom a => cases a <;> rfl
    | dict l => cases l <;> rfl
    | list l => cases l <;> rfl
    | obj _ _ => rfl

/-- objects -/
theorem mergeAll_child {order : List Atom → List Atom} (ho : ∀ l, (order l).Perm l) {c : Nat} {n : Str}
    {dflt : Tree} {k : Kind}
    (hf : Dict.get? (v20 c).fields n = some dflt) (hc : Dict.get? (v20 c).child n = some k) :
    ∀ {os : List Tree} {fs : List (Str × Tree)} {r own : Tree},
    mergeAll order (.obj c fs) os = some r → Dict.get? fs n = some own →
    ∃ gs, r = .obj c gs ∧ (isDefault dflt own = false → Dict.get? gs n = some own) ∧
      (isDefault dflt own = true →
        (∀ v, FirstSet n dflt os v → ∃ w, Dict.get? gs n = some w ∧ Copy v20 k v w) ∧
        (NoneSet n dflt os → Dict.get? gs n = some own)) := by
  have hok : okDefault k dflt = true := (Props.C42.C42_grammar c).2.2.2 _ (Dict.mem_of_get? hf) k hc
  intro os
  induction os with
  | nil =>
    intro fs r own h hown
    cases h
    refine ⟨fs, rfl, fun _ => hown, fun _ => ⟨?_, fun _ => hown⟩⟩
    rintro v ⟨b, o, a, h, _⟩
    simp at h
  | cons o os ih =>
    intro fs r own h hown
    rcases mergeAll_field hf h hown with ⟨h', _⟩ | ⟨o', os', v, own', gs', h', hv, hm, hg', hr⟩
    · cases h'
    · cases h'
      obtain ⟨gs, rfl, h1, h2⟩ := ih hr hg'
      refine ⟨gs, rfl, ?_, ?_⟩
      · intro hd
        unfold mergeField at hm
        rw [hc] at hm
        simp only [Option.isSome_some, if_true, hd, Bool.false_eq_true, if_false] at hm
        have : own' = own := by
          split at hm <;> (cases hm; rfl)
        subst this
        exact h1 hd
      · intro hd
        unfold mergeField at hm
        rw [hc] at hm
        simp only [Option.isSome_some, hd, if_true] at hm
        cases hx : isDefault dflt v with
        | true =>
          simp only [hx, if_true] at hm
          cases hm
          refine ⟨fun u hu => ?_, fun hn => (h2 hd).2 ((noneSet_cons hv).1 hn).2⟩
          rcases (firstSet_cons hv).1 hu with ⟨h, _⟩ | ⟨_, hu⟩
          · rw [hx] at h; cases h
          · exact (h2 hd).1 u hu
        | false =>
          simp only [hx, Bool.false_eq_true, if_false] at hm
          unfold copyOf at hm
          rw [hc] at hm
          have hcp := copyAs_copy Props.C42.C42_grammar ho v k own' hm
          refine ⟨fun u hu => ?_, fun hn => ?_⟩
          · rcases (firstSet_cons hv).1 hu with ⟨_, rfl⟩ | ⟨h, _⟩
            · exact ⟨own', h1 (copy_not_default hok hcp hx), hcp⟩
            · rw [hx] at h; cases h
          · have := ((noneSet_cons hv).1 hn).1
            rw [hx] at this; cases this

/-- the elements of a list field -/
def elems : Tree → List Tree
  | .list l => l
  | _ => []

theorem in_append {t : Tree} {l m : List Tree} : In t (l ++ m) ↔ In t l ∨ In t m := by
  unfold In
  constructor
  · rintro ⟨u, hu, he⟩
    rcases List.mem_append.1 hu with hu | hu
    · exact Or.inl ⟨u, hu, he⟩
    · exact Or.inr ⟨u, hu, he⟩
  · rintro (⟨u, hu, he⟩ | ⟨u, hu, he⟩)
    · exact ⟨u, List.mem_append_left _ hu, he⟩
    · exact ⟨u, List.mem_append_right _ hu, he⟩

theorem elems_default {dflt v : Tree} (h : isDefault dflt v = true) : elems v = [] := by
  cases v with
  | list l => cases l with
    | nil => rfl
    | cons _ _ =>
      cases dflt with
      | atom a => cases a <;> cases h
      | list m => cases m <;> cases h
      | dict m => cases m <;> cases h
      | _ => cases h
  | _ => rfl

/-- lists -/
theorem mergeAll_list {order : List Atom → List Atom} (ho : ∀ l, (order l).Perm l) {c : Nat} {n : Str}
    {dflt : Tree} (hf : Dict.get? (v20 c).fields n = some dflt) (hc : Dict.get? (v20 c).child n = none) :
    ∀ {os : List Tree} {fs : List (Str × Tree)} {r own : Tree},
    mergeAll order (.obj c fs) os = some r → Dict.get? fs n = some own →
    (isDefault dflt own = true ∨ ∃ l, own = .list l) →
    (∀ o ∈ os, ∀ x, valueOf n o = some x → isDefault dflt x = true ∨ ∃ l, x = .list l) →
    ∃ gs w, r = .obj c gs ∧ Dict.get? gs n = some w ∧
      ∀ t, In t (elems w) ↔ In t (elems own) ∨ ∃ o ∈ os, ∃ x, valueOf n o = some x ∧ In t (elems x) := by
  intro os
  induction os with
  | nil =>
    intro fs r own h hown _ _
    cases h
    exact ⟨fs, own, rfl, hown, fun t => by simp⟩
  | cons o os ih =>
    intro fs r own h hown hol hall
    rcases mergeAll_field hf h hown with ⟨h', _⟩ | ⟨o', os', v, own', gs', h', hv, hm, hg', hr⟩
    · cases h'
    · cases h'
      have hall' : ∀ o ∈ os, ∀ x, valueOf n o = some x → isDefault dflt x = true ∨ ∃ l, x = .list l :=
        fun o ho => hall o (List.mem_cons_of_mem _ ho)
      have key : (isDefault dflt own' = true ∨ ∃ l, own' = .list l) ∧
          ∀ t, In t (elems own') ↔ In t (elems own) ∨ In t (elems v) := by
        unfold mergeField at hm
        rw [hc] at hm
        simp only [Option.isSome_none, Bool.false_eq_true, if_false] at hm
        cases hx : isDefault dflt v with
        | true =>
          simp only [hx, if_true] at hm
          cases hm
          refine ⟨hol, fun t => ?_⟩
          rw [elems_default hx]
          simp [In]
        | false =>
          rcases hall o (List.mem_cons_self ..) v hv with h | ⟨l, rfl⟩
          · rw [hx] at h; cases h
          · simp only [hx, Bool.false_eq_true, if_false] at hm
            obtain ⟨own0, m, rfl, hj, he⟩ := joinLists_spec ho hm
            refine ⟨Or.inr ⟨m, rfl⟩, fun t => ?_⟩
            have : elems own = own0 := by
              rcases he with rfl | ⟨hfal, rfl⟩
              · rfl
              · cases own with
                | list l => cases l with
                  | nil => rfl
                  | cons _ _ => cases hfal
                | _ => rfl
            rw [this]
            exact hj.1 t
      obtain ⟨gs, w, rfl, hw, hin⟩ := ih hr hg' key.1 hall'
      refine ⟨gs, w, rfl, hw, fun t => ?_⟩
      rw [hin t, key.2 t]
      constructor
      · rintro ((h | h) | ⟨o', ho', x, hx, h⟩)
        · exact Or.inl h
        · exact Or.inr ⟨o, List.mem_cons_self .., v, hv, h⟩
        · exact Or.inr ⟨o', List.mem_cons_of_mem _ ho', x, hx, h⟩
      · rintro (h | ⟨o', ho', x, hx, h⟩)
        · exact Or.inl (Or.inl h)
        · rcases List.mem_cons.1 ho' with rfl | ho'
          · rw [hv] at hx; cases hx; exact Or.inl (Or.inr h)
          · exact Or.inr ⟨o', ho', x, hx, h⟩

/-- the chain after the object itself -/
theorem effective_chain {W : World} {order : List Atom → List Atom} {c fuel i : Nat} {o : Outcome}
    (h : effective W order c fuel i = some o) :
    o = .failed ∨ ∃ rest e, Chain W c [i] i rest e ∧
      ((∃ x, o = .raised x ∧ e = .raised x) ∨
        ∃ t, o = .value t ∧ e = .done ∧ mergeAll order (fresh v20 c) ((i :: rest).map W.content) = some t) := by
  unfold effective at h
  cases hm : merge v20 order [] (fresh v20 c) (W.content i) with
  | none => rw [hm] at h; cases h; exact Or.inl rfl
  | some result =>
    rw [hm] at h
    dsimp only at h
    rcases follow_chain _ _ _ _ _ h with ⟨ho, _⟩ | ⟨rest, e, hch, hout⟩
    · exact Or.inl ho
    · refine Or.inr ⟨rest, e, hch, ?_⟩
      rcases hout with h' | ⟨t, h1, h2, h3⟩
      · exact Or.inl h'
      · exact Or.inr ⟨t, h1, h2, by simp only [List.map_cons, mergeAll, hm, Option.bind_some]; exact h3⟩

end Proofs.MergeRefs
