import Mathlib.Data.List.Basic
import Mathlib.Data.List.Nodup
import Mathlib.Data.List.Perm.Subperm
import Mathlib.Order.Lattice
import Mathlib.Order.MinMax
import Verif.Spec.Cycle
import Verif.Model.Walk
import Verif.Proofs.Dict
/-! # Lemmas for C07 -/

namespace Proofs.Walk
open Py Utils Spec
variable {α : Type} [LinearOrder α]

/-- the normalised cycle recorded when `n` is met again on the path -/
def norm (nc : List α) : List α :=
  match pyMin nc with
  | none => []
  | some m => nc.drop (nc.idxOf m) ++ nc.take (nc.idxOf m) ++ [m]

def addCyc (path : List α) (n : α) (cyc : List (List α)) : List (List α) :=
  let nc := norm (path.drop (path.idxOf n))
  if nc ∈ cyc then cyc else cyc ++ [nc]

/-- recursive reading of the loop: explore all edges `es` of the last vertex of `path` -/
def expl (ofn : α → List α) : Nat → List α → List α → List (List α) → List (List α)
  | 0, path, es, cyc => es.foldl (fun cyc n => if n ∈ path then addCyc path n cyc else cyc) cyc
  | m + 1, path, es, cyc =>
    es.foldl (fun cyc n => if n ∈ path then addCyc path n cyc
      else expl ofn m (path ++ [n]) (ofn n) cyc) cyc

/-! ### dictionary facts for frames -/

theorem get?_frame (fs : Dict α (List α)) (t : α) (es : List α) (h : t ∉ fs.keys) :
    Dict.get? (fs ++ [(t, es)]) t = some es := by
  rw [Dict.get?_append, (Dict.get?_eq_none_iff _ _).2 h]; simp [Dict.get?]

theorem set_frame (fs : Dict α (List α)) (t : α) (es es' : List α) (h : t ∉ fs.keys) :
    Dict.set (fs ++ [(t, es)]) t es' = fs ++ [(t, es')] := by
  induction fs with
  | nil => simp [Dict.set]
  | cons p fs ih =>
    obtain ⟨k, v⟩ := p
    simp only [Dict.keys, List.map_cons, List.mem_cons, not_or] at h
    have hk : ¬ k = t := fun e => h.1 e.symm
    simp [Dict.set, hk, ih h.2]

theorem del_frame (fs : Dict α (List α)) (t : α) (es : List α) (h : t ∉ fs.keys) :
    Dict.del (fs ++ [(t, es)]) t = fs := by
  induction fs with
  | nil => simp [Dict.del]
  | cons p fs ih =>
    obtain ⟨k, v⟩ := p
    simp only [Dict.keys, List.map_cons, List.mem_cons, not_or] at h
    have hk : ¬ k = t := fun e => h.1 e.symm
    simp [Dict.del, hk, ih h.2]

theorem has_frame (fs : Dict α (List α)) (t : α) (es : List α) :
    Dict.has (fs ++ [(t, es)]) t = true := by
  rw [Dict.has_iff]; simp [Dict.keys]

/-- state with frames `fs` below the top frame `(t, es)` -/
def mk (fs : Dict α (List α)) (t : α) (es : List α) (cyc : List (List α)) : WalkState α :=
  { ctx := fs ++ [(t, es)], stk := fs.keys ++ [t], cyc := cyc }

theorem step_cycle (ofn : α → List α) (fs : Dict α (List α)) (t n : α) (es : List α)
    (cyc : List (List α)) (h : t ∉ fs.keys) (hn : n ∈ fs.keys ++ [t]) :
    walkStep ofn (mk fs t (n :: es) cyc)
      = some (.ok (mk fs t es (addCyc (fs.keys ++ [t]) n cyc))) := by
  have hne : (fs.keys ++ [t]).drop ((fs.keys ++ [t]).idxOf n) ≠ [] := by
    simp only [ne_eq, List.drop_eq_nil_iff]
    exact Nat.not_le.2 (List.idxOf_lt_length_iff.2 hn)
  have hmin : ∃ m, pyMin ((fs.keys ++ [t]).drop ((fs.keys ++ [t]).idxOf n)) = some m := by
    revert hne
    cases (fs.keys ++ [t]).drop ((fs.keys ++ [t]).idxOf n) with
    | nil => intro h; exact absurd rfl h
    | cons x xs => intro _; exact ⟨_, rfl⟩
  obtain ⟨m, hm⟩ := hmin
  have hl : (fs.keys ++ [t]).getLast? = some t := by simp
  unfold walkStep
  simp only [mk, hl, has_frame, if_true, get?_frame fs t _ h, hn, hm, set_frame fs t _ _ h,
    addCyc, norm]
  rfl

theorem step_push (ofn : α → List α) (fs : Dict α (List α)) (t n : α) (es : List α)
    (cyc : List (List α)) (h : t ∉ fs.keys) (hn : n ∉ fs.keys ++ [t]) :
    walkStep ofn (mk fs t (n :: es) cyc)
      = some (.ok { ctx := fs ++ [(t, n :: es)], stk := fs.keys ++ [t] ++ [n], cyc := cyc }) := by
  have hl : (fs.keys ++ [t]).getLast? = some t := by simp
  unfold walkStep
  simp only [mk, hl, has_frame, if_true, get?_frame fs t _ h, hn, if_false]

/-- entering a vertex: creating its frame is part of the next step -/
theorem step_enter (ofn : α → List α) (fs : Dict α (List α)) (n : α) (cyc : List (List α))
    (h : n ∉ fs.keys) :
    walkStep ofn { ctx := fs, stk := fs.keys ++ [n], cyc := cyc }
      = walkStep ofn (mk fs n (ofn n) cyc) := by
  have hl : (fs.keys ++ [n]).getLast? = some n := by simp
  have hh : Dict.has fs n = false := by
    rw [Bool.eq_false_iff]; intro e; exact h ((Dict.has_iff _ _).1 e)
  unfold walkStep
  simp only [mk, hl, has_frame, if_true, hh, Bool.false_eq_true, if_false,
    Dict.set_of_not_mem _ h]
  rfl

theorem step_pop (ofn : α → List α) (fs : Dict α (List α)) (p t : α) (es : List α)
    (cyc : List (List α)) (hp : p ∉ fs.keys) (ht : t ∉ fs.keys ++ [p]) :
    walkStep ofn (mk (fs ++ [(p, t :: es)]) t [] cyc) = some (.ok (mk fs p es cyc)) := by
  have hk : Dict.keys (fs ++ [(p, t :: es)]) = fs.keys ++ [p] := by simp [Dict.keys]
  have ht' : t ∉ Dict.keys (fs ++ [(p, t :: es)]) := by rw [hk]; exact ht
  have hl : (fs.keys ++ [p] ++ [t]).getLast? = some t := by simp
  have hl2 : (fs.keys ++ [p]).getLast? = some p := by simp
  unfold walkStep
  simp only [mk, hl, has_frame, if_true, get?_frame _ t _ ht', del_frame _ t _ ht',
    List.dropLast_concat, hk, hl2, get?_frame fs p _ hp, set_frame fs p _ _ hp,
    List.mem_cons, true_or, List.erase_cons_head]

theorem step_finish (ofn : α → List α) (t : α) (cyc : List (List α)) :
    walkStep ofn (mk [] t [] cyc) = some (.ok { ctx := [], stk := [], cyc := cyc }) := by
  simp [walkStep, mk, Dict.has, Dict.get?, Dict.del, Dict.keys]

/-- `s` runs to `s'` in finitely many iterations -/
def Runs (ofn : α → List α) (s s' : WalkState α) : Prop :=
  ∃ k, ∀ j, walkRun ofn (k + j) s = walkRun ofn j s'

theorem Runs.refl (ofn : α → List α) (s : WalkState α) : Runs ofn s s :=
  ⟨0, fun j => by rw [Nat.zero_add]⟩

theorem Runs.trans {ofn : α → List α} {a b c : WalkState α} (h1 : Runs ofn a b)
    (h2 : Runs ofn b c) : Runs ofn a c := by
  obtain ⟨k1, h1⟩ := h1; obtain ⟨k2, h2⟩ := h2
  exact ⟨k1 + k2, fun j => by rw [Nat.add_assoc, h1, h2]⟩

theorem Runs.step {ofn : α → List α} {s s' : WalkState α}
    (h : walkStep ofn s = some (.ok s')) : Runs ofn s s' :=
  ⟨1, fun j => by rw [Nat.add_comm]; simp [walkRun, h]⟩

theorem Runs.of_step_eq {ofn : α → List α} {a b c : WalkState α}
    (h : walkStep ofn a = walkStep ofn b) (hc : a.cyc = b.cyc)
    (hb : ∃ k, 0 < k ∧ ∀ j, walkRun ofn (k + j) b = walkRun ofn j c) :
    Runs ofn a c := by
  obtain ⟨k, hk, hb⟩ := hb
  refine ⟨k, fun j => ?_⟩
  rw [← hb j]
  obtain ⟨k, rfl⟩ : ∃ k', k = k' + 1 := ⟨k - 1, by omega⟩
  have : k + 1 + j = (k + j) + 1 := by omega
  rw [this]
  simp only [walkRun, h, hc]

omit [LinearOrder α] in
theorem length_le_of_nodup_subset {l V : List α} (hn : l.Nodup) (hs : ∀ x ∈ l, x ∈ V) :
    l.length ≤ V.length := by
  exact (List.Nodup.subperm hn hs).length_le

/-- The loop computes `expl`. -/
theorem runs_expl (ofn : α → List α) (V : List α) (hV : ∀ v ∈ V, ∀ w ∈ ofn v, w ∈ V) :
    ∀ (m : Nat) (fs : Dict α (List α)) (t : α) (es : List α) (cyc : List (List α)),
      (fs.keys ++ [t]).Nodup → (∀ x ∈ fs.keys ++ [t], x ∈ V) → (∀ e ∈ es, e ∈ V) →
      V.length ≤ (fs.keys ++ [t]).length + m →
      Runs ofn (mk fs t es cyc) (mk fs t [] (expl ofn m (fs.keys ++ [t]) es cyc)) := by
  intro m
  induction m with
  | zero =>
    intro fs t es
    induction es with
    | nil => intro cyc _ _ _ _; exact Runs.refl _ _
    | cons n es ih =>
      intro cyc hnd hsub hes hlen
      have ht : t ∉ fs.keys := by
        intro h; rw [List.nodup_append] at hnd; exact hnd.2.2 t h t (by simp) rfl
      by_cases hn : n ∈ fs.keys ++ [t]
      · refine (Runs.step (step_cycle ofn fs t n es cyc ht hn)).trans ?_
        have := ih (addCyc (fs.keys ++ [t]) n cyc) hnd hsub (fun e he => hes e (by simp [he])) hlen
        simpa only [expl, List.foldl_cons, hn, if_true] using this
      · exfalso
        have h1 : (fs.keys ++ [t] ++ [n]).Nodup := by
          rw [List.nodup_append]
          refine ⟨hnd, by simp, ?_⟩
          intro a ha b hb; simp at hb; subst hb; rintro rfl; exact hn ha
        have h2 := length_le_of_nodup_subset h1 (V := V) (by
          intro x hx
          rcases List.mem_append.1 hx with hx | hx
          · exact hsub x hx
          · simp at hx; subst hx; exact hes _ (by simp))
        simp only [List.length_append, List.length_cons, List.length_nil] at h2 hlen
        omega
  | succ m IH =>
    intro fs t es
    induction es with
    | nil => intro cyc _ _ _ _; exact Runs.refl _ _
    | cons n es ih =>
      intro cyc hnd hsub hes hlen
      have ht : t ∉ fs.keys := by
        intro h; rw [List.nodup_append] at hnd; exact hnd.2.2 t h t (by simp) rfl
      by_cases hn : n ∈ fs.keys ++ [t]
      · refine (Runs.step (step_cycle ofn fs t n es cyc ht hn)).trans ?_
        have := ih (addCyc (fs.keys ++ [t]) n cyc) hnd hsub (fun e he => hes e (by simp [he])) hlen
        simpa only [expl, List.foldl_cons, hn, if_true] using this
      · have hnV : n ∈ V := hes n (by simp)
        refine (Runs.step (step_push ofn fs t n es cyc ht hn)).trans ?_
        have hk : Dict.keys (fs ++ [(t, n :: es)]) = fs.keys ++ [t] := by simp [Dict.keys]
        have hn' : n ∉ Dict.keys (fs ++ [(t, n :: es)]) := by rw [hk]; exact hn
        have h1 : (Dict.keys (fs ++ [(t, n :: es)]) ++ [n]).Nodup := by
          rw [hk, List.nodup_append]
          refine ⟨hnd, by simp, ?_⟩
          intro a ha b hb; simp at hb; subst hb; rintro rfl; exact hn ha
        have hrec := IH (fs ++ [(t, n :: es)]) n (ofn n) cyc h1 (by
            rw [hk]; intro x hx
            rcases List.mem_append.1 hx with hx | hx
            · exact hsub x hx
            · simp at hx; subst hx; exact hnV) (fun e he => hV n hnV e he) (by
            rw [hk]
            simp only [List.length_append, List.length_cons, List.length_nil] at hlen ⊢
            omega)
        rw [hk] at hrec
        have hpop := Runs.step (step_pop ofn fs t n es
          (expl ofn m (fs.keys ++ [t] ++ [n]) (ofn n) cyc) ht hn)
        have hent := step_enter ofn (fs ++ [(t, n :: es)]) n cyc hn'
        rw [hk] at hent
        have h3 : Runs ofn { ctx := fs ++ [(t, n :: es)], stk := fs.keys ++ [t] ++ [n], cyc := cyc }
            (mk fs t es (expl ofn m (fs.keys ++ [t] ++ [n]) (ofn n) cyc)) := by
          apply Runs.of_step_eq hent rfl
          obtain ⟨k1, hk1⟩ := hrec
          have hp2 := step_pop ofn fs t n es
            (expl ofn m (fs.keys ++ [t] ++ [n]) (ofn n) cyc) ht hn
          refine ⟨k1 + 1, by omega, fun j => ?_⟩
          have : k1 + 1 + j = k1 + (j + 1) := by omega
          rw [this, hk1]
          simp only [walkRun, hp2]
        refine h3.trans ?_
        have := ih (expl ofn m (fs.keys ++ [t] ++ [n]) (ofn n) cyc) hnd hsub
          (fun e he => hes e (by simp [he])) hlen
        simpa only [expl, List.foldl_cons, hn, if_false] using this

theorem walk_eq_expl (ofn : α → List α) (V : List α) (hV : ∀ v ∈ V, ∀ w ∈ ofn v, w ∈ V)
    (start : α) (hs : start ∈ V) (cyc : List (List α)) :
    ∃ k, ∀ j, walkRun ofn (k + j) { ctx := [], stk := [start], cyc := cyc }
      = some (.ok (expl ofn V.length [start] (ofn start) cyc)) := by
  obtain ⟨k, hk⟩ := runs_expl ofn V hV V.length [] start (ofn start) cyc
    (by simp [Dict.keys]) (by simpa [Dict.keys] using hs) (hV start hs)
    (by simp [Dict.keys])
  have hent := step_enter ofn ([] : Dict α (List α)) start cyc (by simp [Dict.keys])
  refine ⟨k + 2, fun j => ?_⟩
  have hk' := hk (j + 2)
  have e : k + 2 + j = (k + j + 1) + 1 := by omega
  have e2 : k + (j + 2) = (k + j + 1) + 1 := by omega
  rw [e2] at hk'
  rw [e]
  simp only [Dict.keys, List.map_nil, List.nil_append] at hk' hent
  have : walkRun ofn ((k + j + 1) + 1) { ctx := [], stk := [start], cyc := cyc }
      = walkRun ofn ((k + j + 1) + 1) (mk [] start (ofn start) cyc) := by
    simp only [walkRun, hent]
    rfl
  rw [this, hk']
  simp only [walkRun, step_finish]
  simp [walkStep]

/-! ### what `expl` finds -/

theorem pyMin_mem {l : List α} {m : α} (h : pyMin l = some m) : m ∈ l ∧ ∀ x ∈ l, m ≤ x := by
  cases l with
  | nil => simp [pyMin] at h
  | cons a l =>
    simp only [pyMin, Option.some.injEq] at h
    subst h
    induction l generalizing a with
    | nil => simp
    | cons b l ih =>
      simp only [List.foldl_cons]
      obtain ⟨h1, h2⟩ := ih (min a b)
      constructor
      · rcases List.mem_cons.1 h1 with h | h
        · rcases min_choice a b with e | e
          · rw [h, e]; simp
          · rw [h, e]; simp
        · simp [h]
      · intro x hx
        have hm := h2 (min a b) (by simp)
        rcases List.mem_cons.1 hx with rfl | hx
        · exact le_trans hm (min_le_left _ _)
        · rcases List.mem_cons.1 hx with rfl | hx
          · exact le_trans hm (min_le_right _ _)
          · exact h2 x (by simp [hx])

omit [LinearOrder α] in
theorem isWalk_append {E : α → List α} {l1 l2 : List α} {a b : α} :
    IsWalk E (l1 ++ [a] ++ b :: l2) ↔ IsWalk E (l1 ++ [a]) ∧ b ∈ E a ∧ IsWalk E (b :: l2) := by
  induction l1 with
  | nil => simp [IsWalk]
  | cons x l1 ih =>
    cases l1 with
    | nil => simp [IsWalk]
    | cons y l1 => simp only [List.cons_append, IsWalk] at ih ⊢; rw [ih]; tauto

omit [LinearOrder α] in
theorem isWalk_tail {E : α → List α} {l1 l2 : List α} (h : IsWalk E (l1 ++ l2)) : IsWalk E l2 := by
  induction l1 with
  | nil => exact h
  | cons x l1 ih =>
    apply ih
    cases hl : l1 ++ l2 with
    | nil => trivial
    | cons y r => rw [List.cons_append, hl] at h; exact h.2

omit [LinearOrder α] in
theorem isWalk_init {E : α → List α} {l1 l2 : List α} (h : IsWalk E (l1 ++ l2)) : IsWalk E l1 := by
  induction l1 with
  | nil => trivial
  | cons x l1 ih =>
    cases l1 with
    | nil => trivial
    | cons y l1 => exact ⟨h.1, ih h.2⟩

/-- Rotating a cycle to its minimum gives the canonical form. -/
theorem norm_rotation {v : α} {l a b : List α} (hnd : (v :: l).Nodup) (hmin : ∀ x ∈ l, v ≤ x)
    (hab : v :: l = a ++ b) : norm (b ++ a) = v :: l ++ [v] := by
  have hperm : (b ++ a).Perm (v :: l) := by rw [hab]; exact List.perm_append_comm
  have hne : b ++ a ≠ [] := by intro e; rw [e] at hperm; simpa using hperm.length_eq
  obtain ⟨m, hm⟩ : ∃ m, pyMin (b ++ a) = some m := by
    revert hne; cases b ++ a with
    | nil => intro h; exact absurd rfl h
    | cons x xs => intro _; exact ⟨_, rfl⟩
  obtain ⟨h1, h2⟩ := pyMin_mem hm
  have hmv : m = v := by
    apply le_antisymm
    · exact h2 v (hperm.mem_iff.2 (by simp))
    · rcases List.mem_cons.1 (hperm.mem_iff.1 h1) with h | h
      · rw [h]
      · exact hmin m h
  subst hmv
  simp only [norm, hm]
  cases a with
  | nil =>
    simp only [List.nil_append] at hab
    subst hab
    simp
  | cons x a =>
    simp only [List.cons_append, List.cons.injEq] at hab
    obtain ⟨rfl, rfl⟩ := hab
    have hb : m ∉ b := by
      intro hb
      simp only [List.nodup_cons, List.mem_append, not_or] at hnd
      exact hnd.1.2 hb
    have hi : (b ++ m :: a).idxOf m = b.length := by
      rw [List.idxOf_append_of_notMem hb]; simp
    rw [hi]
    simp

/-- What closes at the end of a path: the suffix from `n` on is a closed walk; its normal form
is a simple cycle. -/
theorem norm_isCycle {E : α → List α} {path : List α} {t n : α} (hnd : (path ++ [t]).Nodup)
    (hw : IsWalk E (path ++ [t])) (hn : n ∈ path ++ [t]) (hedge : n ∈ E t) :
    ∃ v l, norm ((path ++ [t]).drop ((path ++ [t]).idxOf n)) = v :: l ++ [v] ∧ IsCycle E v l ∧
      v ∈ path ++ [t] := by
  set p := path ++ [t] with hp
  have hlt : p.idxOf n < p.length := List.idxOf_lt_length_iff.2 hn
  have hdrop : ∃ c, p.drop (p.idxOf n) = n :: c := by
    refine ⟨p.drop (p.idxOf n + 1), ?_⟩
    rw [List.drop_eq_getElem_cons hlt]
    simp
  obtain ⟨c, hc⟩ := hdrop
  rw [hc]
  have hsuf : (n :: c) <:+ p := by rw [← hc]; exact List.drop_suffix _ _
  have hndc : (n :: c).Nodup := hnd.sublist hsuf.sublist
  have hwc : IsWalk E (n :: c) := by
    obtain ⟨q, hq⟩ := hsuf; rw [← hq] at hw; exact isWalk_tail hw
  have hlast : ∃ d, n :: c = d ++ [t] := by
    obtain ⟨q, hq⟩ := hsuf
    have hl : (n :: c).getLast (by simp) = t := by
      have : p.getLast? = some t := by simp [hp]
      rw [← hq, List.getLast?_append] at this
      simpa [List.getLast?_eq_getLast_of_ne_nil] using this
    exact ⟨(n :: c).dropLast, by rw [← hl]; exact (List.dropLast_append_getLast (by simp)).symm⟩
  -- rotate to the minimum
  obtain ⟨m, hm⟩ : ∃ m, pyMin (n :: c) = some m := ⟨_, rfl⟩
  obtain ⟨h1, h2⟩ := pyMin_mem hm
  obtain ⟨b, a, hba, hbm⟩ : ∃ b a, n :: c = b ++ m :: a ∧ m ∉ b := by
    obtain ⟨b, a, h⟩ := List.append_of_mem h1
    refine ⟨b, a, h, ?_⟩
    intro hb
    rw [h] at hndc
    rw [List.nodup_append] at hndc
    exact hndc.2.2 m hb m (by simp) rfl
  have hperm : (m :: (a ++ b)).Perm (n :: c) := by
    rw [hba]; exact (List.perm_append_comm (l₁ := m :: a) (l₂ := b))
  have hnd' : (m :: (a ++ b)).Nodup := hperm.nodup_iff.2 hndc
  have hmin' : ∀ x ∈ a ++ b, m ≤ x := fun x hx => h2 x (hperm.mem_iff.1 (by simp [hx]))
  refine ⟨m, a ++ b, ?_, ⟨?_, hnd', hmin'⟩, ?_⟩
  · rw [hba]
    exact norm_rotation hnd' hmin' (a := m :: a) (b := b) (by simp)
  · -- closed walk
    have hclosed : IsWalk E (n :: c ++ [n]) := by
      obtain ⟨d, hd⟩ := hlast
      rw [hd]
      rw [show d ++ [t] ++ [n] = d ++ [t] ++ n :: [] from rfl, isWalk_append]
      rw [← hd]; exact ⟨hwc, hedge, trivial⟩
    cases b with
    | nil =>
      simp only [List.nil_append, List.cons.injEq] at hba
      obtain ⟨rfl, rfl⟩ := hba
      simpa using hclosed
    | cons x b =>
      simp only [List.cons_append, List.cons.injEq] at hba
      obtain ⟨rfl, rfl⟩ := hba
      -- n :: b ++ m :: a ++ [n]  ↦  m :: a ++ n :: b ++ [m]
      have hw1 : IsWalk E (n :: b ++ [m]) := by
        apply isWalk_init (l2 := a ++ [n])
        simpa using hclosed
      have hw2 : IsWalk E (m :: a ++ [n]) := by
        apply isWalk_tail (l1 := n :: b)
        simpa using hclosed
      have hglue : ∀ (u : List α) (z : α) (w : List α), IsWalk E (u ++ [z]) → IsWalk E (z :: w) →
          IsWalk E (u ++ z :: w) := by
        intro u z w h1 h2
        induction u with
        | nil => exact h2
        | cons q u ih =>
          cases u with
          | nil => exact ⟨h1.1, h2⟩
          | cons r u => exact ⟨h1.1, ih h1.2⟩
      have := hglue (m :: a) n (b ++ [m]) hw2 (by simpa using hw1)
      simpa using this
  · exact hsuf.subset (hperm.mem_iff.1 (by simp))

theorem mem_addCyc {path : List α} {n : α} {cyc : List (List α)} {r : List α} :
    r ∈ addCyc path n cyc ↔ r ∈ cyc ∨ r = norm (path.drop (path.idxOf n)) := by
  unfold addCyc
  simp only
  split
  · rename_i h
    constructor
    · exact Or.inl
    · rintro (h' | rfl) <;> assumption
  · simp

/-- `cyc` is extended, never reordered; new entries are new. -/
def Ext (cyc cyc' : List (List α)) : Prop :=
  ∃ new, cyc' = cyc ++ new ∧ new.Nodup ∧ ∀ x ∈ new, x ∉ cyc

omit [LinearOrder α] in
theorem Ext.refl (c : List (List α)) : Ext c c := ⟨[], by simp, by simp, by simp⟩

omit [LinearOrder α] in
theorem Ext.trans {a b c : List (List α)} (h1 : Ext a b) (h2 : Ext b c) : Ext a c := by
  obtain ⟨n1, rfl, d1, e1⟩ := h1
  obtain ⟨n2, rfl, d2, e2⟩ := h2
  refine ⟨n1 ++ n2, by simp, ?_, ?_⟩
  · rw [List.nodup_append]
    refine ⟨d1, d2, ?_⟩
    rintro x hx y hy rfl
    exact e2 x hy (by simp [hx])
  · intro x hx hxa
    rcases List.mem_append.1 hx with h | h
    · exact e1 x h hxa
    · exact e2 x h (by simp [hxa])

theorem ext_addCyc (path : List α) (n : α) (cyc : List (List α)) : Ext cyc (addCyc path n cyc) := by
  unfold addCyc
  simp only
  split
  · exact Ext.refl _
  · rename_i h; exact ⟨[_], rfl, by simp, by simpa using h⟩

omit [LinearOrder α] in
theorem ext_foldl {f : List (List α) → α → List (List α)} (hf : ∀ c n, Ext c (f c n))
    (es : List α) (cyc : List (List α)) : Ext cyc (es.foldl f cyc) := by
  induction es generalizing cyc with
  | nil => exact Ext.refl _
  | cons e es ih => exact (hf cyc e).trans (ih _)

theorem ext_expl (ofn : α → List α) (m : Nat) (path es : List α) (cyc : List (List α)) :
    Ext cyc (expl ofn m path es cyc) := by
  induction m generalizing path es cyc with
  | zero =>
    apply ext_foldl
    intro c n
    split
    · exact ext_addCyc _ _ _
    · exact Ext.refl _
  | succ m ih =>
    apply ext_foldl
    intro c n
    split
    · exact ext_addCyc _ _ _
    · exact ih _ _ _

omit [LinearOrder α] in
theorem Ext.mem {a b : List (List α)} (h : Ext a b) {x : List α} (hx : x ∈ a) : x ∈ b := by
  obtain ⟨n, rfl, _⟩ := h; simp [hx]

/-- Soundness: everything found is a canonical simple cycle with a vertex reachable from the
end of the path. -/
theorem expl_sound (ofn : α → List α) (m : Nat) :
    ∀ (path : List α) (t : α) (es : List α) (cyc : List (List α)) (start : α),
      (path ++ [t]).Nodup → IsWalk ofn (path ++ [t]) → (∀ e ∈ es, e ∈ ofn t) →
      (∀ x ∈ path ++ [t], Reach ofn start x) →
      ∀ r ∈ expl ofn m (path ++ [t]) es cyc,
        r ∈ cyc ∨ ∃ v l, r = v :: l ++ [v] ∧ IsCycle ofn v l ∧ Reach ofn start v := by
  have hcyc : ∀ (path : List α) (t n : α) (cyc : List (List α)) (start : α),
      (path ++ [t]).Nodup → IsWalk ofn (path ++ [t]) → n ∈ ofn t →
      (∀ x ∈ path ++ [t], Reach ofn start x) → n ∈ path ++ [t] →
      ∀ r ∈ addCyc (path ++ [t]) n cyc,
        r ∈ cyc ∨ ∃ v l, r = v :: l ++ [v] ∧ IsCycle ofn v l ∧ Reach ofn start v := by
    intro path t n cyc start hnd hw he hr hn r hrm
    rcases mem_addCyc.1 hrm with h | rfl
    · exact Or.inl h
    · obtain ⟨v, l, h1, h2, h3⟩ := norm_isCycle hnd hw hn he
      exact Or.inr ⟨v, l, h1, h2, hr v h3⟩
  induction m with
  | zero =>
    intro path t es
    induction es with
    | nil => intro cyc start _ _ _ _ r hr; exact Or.inl hr
    | cons n es ih =>
      intro cyc start hnd hw he hre r hr
      simp only [expl, List.foldl_cons] at hr
      have := ih _ start hnd hw (fun e h => he e (by simp [h])) hre r hr
      rcases this with h | h
      · split at h
        · rename_i hn
          exact hcyc path t n cyc start hnd hw (he n (by simp)) hre hn r h
        · exact Or.inl h
      · exact Or.inr h
  | succ m IH =>
    intro path t es
    induction es with
    | nil => intro cyc start _ _ _ _ r hr; exact Or.inl hr
    | cons n es ih =>
      intro cyc start hnd hw he hre r hr
      simp only [expl, List.foldl_cons] at hr
      have := ih _ start hnd hw (fun e h => he e (by simp [h])) hre r hr
      rcases this with h | h
      · split at h
        · rename_i hn
          exact hcyc path t n cyc start hnd hw (he n (by simp)) hre hn r h
        · rename_i hn
          have hedge : n ∈ ofn t := he n (by simp)
          refine IH (path ++ [t]) n (ofn n) cyc start ?_ ?_ (fun _ h => h) ?_ r h
          · rw [List.nodup_append]
            refine ⟨hnd, by simp, ?_⟩
            intro a ha b hb; simp at hb; subst hb; rintro rfl; exact hn ha
          · rw [show path ++ [t] ++ [n] = path ++ [t] ++ n :: [] from rfl, isWalk_append]
            exact ⟨hw, hedge, trivial⟩
          · intro x hx
            rcases List.mem_append.1 hx with hx | hx
            · exact hre x hx
            · simp at hx; subst hx
              exact (hre t (by simp)).step hedge
      · exact Or.inr h

omit [LinearOrder α] in
theorem foldl_mem {f : List (List α) → α → List (List α)} (hf : ∀ c n, Ext c (f c n))
    {es : List α} {e : α} (he : e ∈ es) {r : List α} (h : ∀ c, r ∈ f c e) (cyc : List (List α)) :
    r ∈ es.foldl f cyc := by
  induction es generalizing cyc with
  | nil => simp at he
  | cons x es ih =>
    simp only [List.foldl_cons]
    rcases List.mem_cons.1 he with rfl | he
    · exact (ext_foldl hf es _).mem (h cyc)
    · exact ih he _

theorem ext_step (ofn : α → List α) (m : Nat) (path : List α) (c : List (List α)) (n : α) :
    Ext c (if n ∈ path then addCyc path n c else expl ofn m (path ++ [n]) (ofn n) c) := by
  split
  · exact ext_addCyc _ _ _
  · exact ext_expl _ _ _ _ _

/-- Completeness along a simple path: extending the current path by `q` and closing to `n`. -/
theorem expl_complete (ofn : α → List α) (V : List α) (hV : ∀ v ∈ V, ∀ w ∈ ofn v, w ∈ V) :
    ∀ (q path : List α) (t n : α) (m : Nat) (cyc : List (List α)),
      (path ++ [t] ++ q).Nodup → IsWalk ofn (t :: q) → (∀ x ∈ path ++ [t], x ∈ V) →
      V.length ≤ (path ++ [t]).length + m →
      n ∈ path ++ [t] ++ q → n ∈ ofn ((t :: q).getLast (by simp)) →
      norm ((path ++ [t] ++ q).drop ((path ++ [t] ++ q).idxOf n)) ∈
        expl ofn m (path ++ [t]) (ofn t) cyc := by
  intro q
  induction q with
  | nil =>
    intro path t n m cyc hnd hw hsub hlen hn hedge
    simp only [List.append_nil, List.getLast_singleton] at hn hedge ⊢
    cases m with
    | zero =>
      apply foldl_mem (e := n) _ hedge
      · intro c; rw [if_pos hn]; exact mem_addCyc.2 (Or.inr rfl)
      · intro c n
        split
        · exact ext_addCyc _ _ _
        · exact Ext.refl _
    | succ m =>
      apply foldl_mem (e := n) _ hedge
      · intro c; rw [if_pos hn]; exact mem_addCyc.2 (Or.inr rfl)
      · intro c n; exact ext_step _ _ _ _ _
  | cons u q ih =>
    intro path t n m cyc hnd hw hsub hlen hn hedge
    have hu : u ∉ path ++ [t] := by
      intro h; rw [List.nodup_append] at hnd; exact hnd.2.2 u h u (by simp) rfl
    have htV : t ∈ V := hsub t (by simp)
    have huV : u ∈ V := hV t htV u hw.1
    have hsub' : ∀ x ∈ path ++ [t] ++ [u], x ∈ V := by
      intro x hx
      rcases List.mem_append.1 hx with hx | hx
      · exact hsub x hx
      · simp at hx; subst hx; exact huV
    have hnd1 : (path ++ [t] ++ [u] ++ q).Nodup := by simpa using hnd
    cases m with
    | zero =>
      exfalso
      have hnd2 : (path ++ [t] ++ [u]).Nodup := hnd1.sublist (List.sublist_append_left _ _)
      have := length_le_of_nodup_subset hnd2 hsub'
      simp only [List.length_append, List.length_cons, List.length_nil] at this hlen
      omega
    | succ m =>
      apply foldl_mem (e := u) (fun c n => ext_step _ _ _ _ _) hw.1
      intro c
      rw [if_neg hu]
      have e : path ++ [t] ++ u :: q = path ++ [t] ++ [u] ++ q := by simp
      rw [e]
      apply ih (path ++ [t]) u n m c hnd1 hw.2 hsub'
      · simp only [List.length_append, List.length_cons, List.length_nil] at hlen ⊢; omega
      · rw [← e]; exact hn
      · simpa using hedge

omit [LinearOrder α] in
/-- From a reachable vertex with a property, a simple path from the start whose only vertex with
the property is the last. -/
theorem exists_simple_path [DecidableEq α] {E : α → List α} {start v : α} (h : Reach E start v)
    (P : α → Prop) (hv : P v) :
    ∃ p t, (p ++ [t]).Nodup ∧ IsWalk E (p ++ [t]) ∧ (p ++ [t]).head? = some start ∧ P t ∧
      ∀ x ∈ p, ¬ P x := by
  classical
  -- a walk exists; take the shortest prefix reaching P, and remove loops
  have key : ∀ w, Reach E start w → ∃ p, (p ++ [w]).Nodup ∧ IsWalk E (p ++ [w]) ∧
      (p ++ [w]).head? = some start := by
    intro w hw
    induction hw with
    | refl => exact ⟨[], by simp, trivial, rfl⟩
    | @step b c hab hbc ih =>
      obtain ⟨p, h1, h2, h3⟩ := ih
      by_cases hc : c ∈ p ++ [b]
      · obtain ⟨x, y, hxy⟩ := List.append_of_mem hc
        refine ⟨x, ?_, ?_, ?_⟩
        · rw [hxy] at h1
          exact h1.sublist (by simp)
        · rw [hxy] at h2
          apply isWalk_init (l2 := y); simpa using h2
        · rw [hxy] at h3
          cases x <;> simpa using h3
      · refine ⟨p ++ [b], ?_, ?_, ?_⟩
        · rw [List.nodup_append]
          refine ⟨h1, by simp, ?_⟩
          intro z hz w hw; simp at hw; subst hw; rintro rfl; exact hc hz
        · rw [show p ++ [b] ++ [c] = p ++ [b] ++ c :: [] from rfl, isWalk_append]
          exact ⟨h2, hbc, trivial⟩
        · rw [List.head?_append, h3]; rfl
  obtain ⟨p, h1, h2, h3⟩ := key v h
  -- first element with P
  have first : ∀ l : List α, (∃ x ∈ l, P x) → ∃ a t b, l = a ++ t :: b ∧ P t ∧ ∀ x ∈ a, ¬ P x := by
    intro l
    induction l with
    | nil => rintro ⟨x, hx, _⟩; simp at hx
    | cons y l ih =>
      intro hex
      by_cases hy : P y
      · exact ⟨[], y, l, rfl, hy, by simp⟩
      · obtain ⟨x, hx, hpx⟩ := hex
        rcases List.mem_cons.1 hx with rfl | hx
        · exact absurd hpx hy
        · obtain ⟨a, t, b, rfl, ht, ha⟩ := ih ⟨x, hx, hpx⟩
          refine ⟨y :: a, t, b, rfl, ht, ?_⟩
          intro z hz
          rcases List.mem_cons.1 hz with rfl | hz
          · exact hy
          · exact ha z hz
  obtain ⟨a, t, b, hab, ht, ha⟩ := first (p ++ [v]) ⟨v, by simp, hv⟩
  refine ⟨a, t, ?_, ?_, ?_, ht, ha⟩
  · rw [hab] at h1; exact h1.sublist (by simp)
  · rw [hab] at h2; apply isWalk_init (l2 := b); simpa using h2
  · rw [hab] at h3; cases a <;> simpa using h3

/-- Completeness: every canonical simple cycle with a vertex reachable from the start is found. -/
theorem expl_all (ofn : α → List α) (V : List α) (hV : ∀ v ∈ V, ∀ w ∈ ofn v, w ∈ V)
    (start : α) (hs : start ∈ V) (cyc : List (List α)) (v : α) (l : List α)
    (hc : IsCycle ofn v l) (hr : Reach ofn start v) :
    v :: l ++ [v] ∈ expl ofn V.length [start] (ofn start) cyc := by
  obtain ⟨hw, hnd, hmin⟩ := hc
  obtain ⟨p, t, h1, h2, h3, ht, hp⟩ := exists_simple_path hr (fun x => x ∈ v :: l) (by simp)
  obtain ⟨a, b, hab⟩ := List.append_of_mem ht
  -- the cycle read from t: t :: b ++ a, closing to t
  have hrot : IsWalk ofn (t :: b ++ a ++ [t]) := by
    have hw' : IsWalk ofn (a ++ t :: b ++ [v]) := by rw [← hab]; exact hw
    cases a with
    | nil =>
      simp only [List.nil_append, List.cons.injEq] at hab
      obtain ⟨rfl, rfl⟩ := hab
      simpa using hw
    | cons x a =>
      simp only [List.cons_append, List.cons.injEq] at hab
      obtain ⟨rfl, rfl⟩ := hab
      have hw1 : IsWalk ofn (v :: a ++ [t]) := by
        apply isWalk_init (l2 := b ++ [v]); simpa using hw'
      have hw2 : IsWalk ofn (t :: b ++ [v]) := by
        apply isWalk_tail (l1 := v :: a); simpa using hw'
      have hglue : ∀ (u : List α) (z : α) (w : List α), IsWalk ofn (u ++ [z]) →
          IsWalk ofn (z :: w) → IsWalk ofn (u ++ z :: w) := by
        intro u z w h1 h2
        induction u with
        | nil => exact h2
        | cons q u ih =>
          cases u with
          | nil => exact ⟨h1.1, h2⟩
          | cons r u => exact ⟨h1.1, ih h1.2⟩
      have := hglue (t :: b) v (a ++ [t]) hw2 (by simpa using hw1)
      simpa using this
  have hndrot : (t :: b ++ a).Nodup := by
    rw [hab] at hnd
    exact (List.perm_append_comm.nodup_iff).1 hnd
  set q := b ++ a with hq
  have hmemc : ∀ x, x ∈ t :: q ↔ x ∈ v :: l := by
    intro x; rw [hab, hq]; simp; tauto
  have hfull : (p ++ [t] ++ q).Nodup := by
    rw [List.nodup_append]
    refine ⟨h1, ?_, ?_⟩
    · have : (t :: q).Nodup := by rw [hq]; simpa using hndrot
      exact (List.nodup_cons.1 this).2
    · rintro x hx y hy rfl
      rcases List.mem_append.1 hx with hx | hx
      · exact hp x hx ((hmemc x).1 (by simp [hy]))
      · simp at hx; subst hx
        have : (x :: q).Nodup := by rw [hq]; simpa using hndrot
        exact (List.nodup_cons.1 this).1 hy
  have htq : IsWalk ofn (t :: q) := by
    apply isWalk_init (l2 := [t]); simpa [hq] using hrot
  have hclose : t ∈ ofn ((t :: q).getLast (by simp)) := by
    have e : t :: q ++ [t] = (t :: q).dropLast ++ [(t :: q).getLast (by simp)] ++ t :: [] := by
      rw [List.dropLast_append_getLast]
    have hr' : IsWalk ofn (t :: q ++ [t]) := by simpa [hq] using hrot
    rw [e, isWalk_append] at hr'
    exact hr'.2.1
  have hidx : (p ++ [t] ++ q).idxOf t = p.length := by
    have : t ∉ p := fun h => hp t h ht
    rw [List.append_assoc, List.idxOf_append_of_notMem this]; simp
  have hdrop : (p ++ [t] ++ q).drop ((p ++ [t] ++ q).idxOf t) = t :: q := by
    rw [hidx]; simp
  have hnorm : norm (t :: q) = v :: l ++ [v] := by
    have := norm_rotation hnd hmin (a := a) (b := t :: b) hab
    simpa [hq] using this
  -- the whole path starts at `start`
  have hsplit : ∃ p', p ++ [t] ++ q = [start] ++ p' := by
    cases hpt : p ++ [t] with
    | nil => simp at hpt
    | cons x r => rw [hpt] at h3; simp at h3; subst h3; exact ⟨r ++ q, by simp⟩
  obtain ⟨p', hp'⟩ := hsplit
  have hwfull : IsWalk ofn (start :: p') := by
    have : IsWalk ofn (p ++ [t] ++ q) := by
      clear_value q
      cases q with
      | nil => simpa using h2
      | cons z q => rw [isWalk_append]; exact ⟨h2, htq.1, htq.2⟩
    rw [hp'] at this; simpa using this
  have hlast : (start :: p').getLast (by simp) = (t :: q).getLast (by simp) := by
    have e1 : start :: p' = p ++ (t :: q) := by rw [← List.singleton_append, ← hp']; simp
    have : (start :: p').getLast? = (t :: q).getLast? := by
      rw [e1, List.getLast?_append_of_ne_nil _ (by simp)]
    simpa [List.getLast?_eq_getLast_of_ne_nil] using this
  have := expl_complete ofn V hV p' [] start t V.length cyc
    (by simpa [hp'] using hfull) hwfull (by simpa using hs) (by simp)
    (by rw [List.nil_append, ← hp']; simp) (by rw [hlast]; exact hclose)
  rw [List.nil_append, ← hp', hdrop, hnorm] at this
  exact this

end Proofs.Walk
