import Verif.Model.ModelEq
import Verif.Proofs.Dict
import Mathlib.Data.List.Forall2
/-!
# C38: model equality is an equivalence that treats None as absent
-/

namespace Props.C38
open Py ModelEq

variable {σ : Type}

/-- Agreement of two values: scalars are equal, lists agree element by element, models agree on
every property, an absent property counting as None. -/
inductive Agree (eq : σ → σ → Bool) : Tree σ → Tree σ → Prop
  | none : Agree eq .none .none
  | scalar {s t} : eq s t = true → Agree eq (.scalar s) (.scalar t)
  | array {l r} : List.Forall₂ (Agree eq) l r → Agree eq (.array l) (.array r)
  | model {m o} : (∀ k, Agree eq (look m k) (look o k)) → Agree eq (.model m) (.model o)

/-- Values that may be compared: no plain dicts, and a model is only ever compared with a model
or None; the names of properties are distinct (`WF`). -/
inductive Fits : Tree σ → Tree σ → Prop
  | noneLeft {b} : (∀ d, b ≠ .dict d) → Fits .none b
  | noneRight {a} : (∀ d, a ≠ .dict d) → Fits a .none
  | scalar {s t} : Fits (.scalar s) (.scalar t)
  | scalarArray {s r} : Fits (.scalar s) (.array r)
  | arrayScalar {l t} : Fits (.array l) (.scalar t)
  | array {l r} : (∀ x ∈ l, ∀ y ∈ r, Fits x y) → Fits (.array l) (.array r)
  | model {m o} : Dict.WF m → Dict.WF o → (∀ k, Fits (look m k) (look o k)) → Fits (.model m) (.model o)

theorem agree_model {eq : σ → σ → Bool} {m o : List (Str × Tree σ)} :
    Agree eq (.model m) (.model o) ↔ ∀ k, Agree eq (look m k) (look o k) :=
  ⟨fun h => by cases h; assumption, .model⟩

theorem agree_none {eq : σ → σ → Bool} {a : Tree σ} : Agree eq a .none ↔ a = .none :=
  ⟨fun h => by cases h; rfl, fun h => by subst h; exact .none⟩

theorem none_agree {eq : σ → σ → Bool} {a : Tree σ} : Agree eq .none a ↔ a = .none :=
  ⟨fun h => by cases h; rfl, fun h => by subst h; exact .none⟩

theorem size_look (m : List (Str × Tree σ)) (k : Str) (v : Tree σ) (h : Dict.get? m k = some v) :
    sizeOf v < sizeOf (Tree.model m) := by
  have h1 := Dict.mem_of_get? h
  have h2 := List.sizeOf_lt_of_mem h1
  simp only [Prod.mk.sizeOf_spec] at h2
  simp only [Tree.model.sizeOf_spec]
  omega

/-- comparing with None -/
theorem pyEq_none (eq : σ → σ → Bool) (n : Nat) (a : Tree σ) :
    ∃ b, pyEq eq (n + 1) a .none = .ok b ∧ (b = true ↔ a = .none) := by
  cases a <;> simp [pyEq, modelEq]

theorem ownEqual_spec (cmp : Cmp σ) (eq : σ → σ → Bool) (o l : List (Str × Tree σ))
    (h : ∀ e ∈ l, ∃ b, cmp e.2 (look o e.1) = .ok b ∧ (b = true ↔ Agree eq e.2 (look o e.1))) :
    ∃ b, ownEqual cmp o l = .ok b ∧ (b = true ↔ ∀ e ∈ l, Agree eq e.2 (look o e.1)) := by
  induction l with
  | nil => exact ⟨true, rfl, by simp⟩
  | cons e l ih =>
    obtain ⟨k, v⟩ := e
    obtain ⟨b, h1, h2⟩ := h _ (List.mem_cons_self ..)
    obtain ⟨c, h3, h4⟩ := ih fun e he => h e (List.mem_cons_of_mem _ he)
    simp only at h1 h2
    simp only [ownEqual, h1]
    cases b with
    | false =>
      refine ⟨false, rfl, ?_⟩
      simp only [Bool.false_eq_true, false_iff] at h2 ⊢
      intro hall
      exact h2 (hall _ (List.mem_cons_self ..))
    | true =>
      refine ⟨c, h3, ?_⟩
      rw [h4]
      have := h2.1 rfl
      constructor
      · intro hall e he
        rcases List.mem_cons.1 he with rfl | he
        · exact this
        · exact hall e he
      · intro hall e he
        exact hall e (List.mem_cons_of_mem _ he)

theorem restNone_spec (eq : σ → σ → Bool) (n : Nat) (m l : List (Str × Tree σ)) :
    ∃ b, restNone (pyEq eq (n + 1)) m l = .ok b ∧
      (b = true ↔ ∀ e ∈ l, Dict.has m e.1 = false → e.2 = .none) := by
  induction l with
  | nil => exact ⟨true, rfl, by simp⟩
  | cons e l ih =>
    obtain ⟨k, v⟩ := e
    obtain ⟨c, h3, h4⟩ := ih
    simp only [restNone]
    by_cases hm : Dict.has m k = true
    · rw [if_pos hm]
      refine ⟨c, h3, ?_⟩
      rw [h4]
      simp [hm]
    · rw [if_neg hm]
      obtain ⟨b, h1, h2⟩ := pyEq_none eq n v
      rw [h1]
      cases b with
      | false =>
        refine ⟨false, rfl, ?_⟩
        simp only [Bool.false_eq_true, false_iff] at h2 ⊢
        intro hall
        exact h2 (hall _ (List.mem_cons_self ..) (by simpa using hm))
      | true =>
        refine ⟨c, h3, ?_⟩
        rw [h4]
        have := h2.1 rfl
        simp [this]

theorem listEq_spec (cmp : Cmp σ) (eq : σ → σ → Bool) (l r : List (Tree σ)) (hl : l.length = r.length)
    (h : ∀ x ∈ l, ∀ y ∈ r, ∃ b, cmp x y = .ok b ∧ (b = true ↔ Agree eq x y)) :
    ∃ b, listEq cmp l r = .ok b ∧ (b = true ↔ List.Forall₂ (Agree eq) l r) := by
  induction l generalizing r with
  | nil =>
    cases r with
    | nil => exact ⟨true, rfl, by simp⟩
    | cons => simp at hl
  | cons x l ih =>
    cases r with
    | nil => simp at hl
    | cons y r =>
      obtain ⟨b, h1, h2⟩ := h x (List.mem_cons_self ..) y (List.mem_cons_self ..)
      obtain ⟨c, h3, h4⟩ := ih r (by simpa using hl) fun x hx y hy =>
        h x (List.mem_cons_of_mem _ hx) y (List.mem_cons_of_mem _ hy)
      simp only [listEq, h1, List.forall₂_cons]
      cases b with
      | false => exact ⟨false, rfl, by simp at h2; simp [h2]⟩
      | true => exact ⟨c, h3, by simp [h4, h2.1 rfl]⟩

theorem pyEq_spec (eq : σ → σ → Bool) (n : Nat) (a b : Tree σ) (hn : sizeOf a + 1 < n) (h : Fits a b) :
    ∃ c, pyEq eq n a b = .ok c ∧ (c = true ↔ Agree eq a b) := by
  induction n generalizing a b with
  | zero => omega
  | succ n ih =>
    cases h with
    | noneLeft hb =>
      rw [none_agree]
      cases b <;> simp [pyEq, modelEq]
    | noneRight ha =>
      rw [agree_none]
      exact pyEq_none eq n a
    | scalar =>
      rename_i s t
      refine ⟨eq s t, rfl, fun h => .scalar h, fun h => by cases h; assumption⟩
    | scalarArray => exact ⟨false, rfl, by simp; intro h; cases h⟩
    | arrayScalar => exact ⟨false, rfl, by simp; intro h; cases h⟩
    | array hf =>
      rename_i l r
      by_cases hl : l.length = r.length
      · obtain ⟨c, h1, h2⟩ := listEq_spec (pyEq eq n) eq l r hl (by
          intro x hx y hy
          refine ih x y ?_ (hf x hx y hy)
          have := List.sizeOf_lt_of_mem hx
          simp only [Tree.array.sizeOf_spec] at hn
          omega)
        refine ⟨c, by simp only [pyEq, hl, if_true]; exact h1, ?_⟩
        rw [h2]
        exact ⟨.array, fun h => by cases h; assumption⟩
      · refine ⟨false, by simp only [pyEq, hl, if_false], ?_⟩
        simp only [Bool.false_eq_true, false_iff]
        intro h
        cases h with
        | array h => exact hl h.length_eq
    | model hm ho hf =>
      rename_i m o
      have hsz : ∀ e ∈ m, sizeOf e.2 + 1 < n := by
        intro e he
        have h2 := List.sizeOf_lt_of_mem he
        obtain ⟨k, v⟩ := e
        simp only [Prod.mk.sizeOf_spec] at h2
        simp only [Tree.model.sizeOf_spec] at hn
        simp only
        omega
      have hlk : ∀ e ∈ m, look m e.1 = e.2 := by
        intro e he
        simp [look, Dict.get?_of_mem hm (k := e.1) (v := e.2) he]
      obtain ⟨b, h1, h2⟩ := ownEqual_spec (pyEq eq n) eq o m (by
        intro e he
        refine ih _ _ (hsz e he) ?_
        have := hf e.1
        rwa [hlk e he] at this)
      obtain ⟨n', rfl⟩ : ∃ n', n = n' + 1 := ⟨n - 1, by simp only [Tree.model.sizeOf_spec] at hn; omega⟩
      obtain ⟨c, h3, h4⟩ := restNone_spec eq n' m o
      rw [agree_model]
      have hiff : (∀ k, Agree eq (look m k) (look o k)) ↔
          (∀ e ∈ m, Agree eq e.2 (look o e.1)) ∧ ∀ e ∈ o, Dict.has m e.1 = false → e.2 = .none := by
        constructor
        · intro h
          refine ⟨fun e he => by have := h e.1; rwa [hlk e he] at this, ?_⟩
          intro e he hh
          have := h e.1
          have e1 : look m e.1 = .none := by
            simp only [Dict.has] at hh
            cases hx : Dict.get? m e.1 with
            | none => simp [look, hx]
            | some v => simp [hx] at hh
          have e2 : look o e.1 = e.2 := by simp [look, Dict.get?_of_mem ho (k := e.1) (v := e.2) he]
          rw [e1, e2, none_agree] at this
          exact this
        · rintro ⟨h1, h2⟩ k
          cases hx : Dict.get? m k with
          | some v =>
            have := h1 (k, v) (Dict.mem_of_get? hx)
            simpa [look, hx] using this
          | none =>
            have e1 : look m k = .none := by simp [look, hx]
            rw [e1, none_agree]
            cases hy : Dict.get? o k with
            | none => simp [look, hy]
            | some w =>
              have := h2 (k, w) (Dict.mem_of_get? hy) (by simp [Dict.has, hx])
              simpa [look, hy] using this
      simp only [pyEq, modelEq, h1]
      cases b with
      | false =>
        refine ⟨false, rfl, ?_⟩
        simp only [Bool.false_eq_true, false_iff] at h2 ⊢
        intro h
        exact h2 (hiff.1 h).1
      | true =>
        refine ⟨c, h3, ?_⟩
        rw [h4, hiff]
        exact ⟨fun h => ⟨h2.1 rfl, h⟩, fun h => h.2⟩

/-- **C38** (meaning). Two models that may be compared are equal exactly when they agree on every
property, an absent property counting as None; at the top this says: for every name the values are
equal. -/
theorem C38_meaning (eq : σ → σ → Bool) (n : Nat) (m o : List (Str × Tree σ))
    (hn : sizeOf (Tree.model m) + 1 < n) (h : Fits (.model m) (.model o)) :
    ∃ c, pyEq eq n (.model m) (.model o) = .ok c ∧
      (c = true ↔ ∀ k, Agree eq (look m k) (look o k)) ∧
      (c = true ↔ ∀ k, pyEq eq n (look m k) (look o k) = .ok true) := by
  obtain ⟨c, h1, h2⟩ := pyEq_spec eq n _ _ hn h
  rw [agree_model] at h2
  refine ⟨c, h1, h2, ?_⟩
  rw [h2]
  apply forall_congr'
  intro k
  have hk : Fits (look m k) (look o k) := by cases h; rename_i hf; exact hf k
  obtain ⟨d, h3, h4⟩ := pyEq_spec eq n (look m k) (look o k) (by
    cases hx : Dict.get? m k with
    | none => simp only [look, hx, Option.getD_none, Tree.none.sizeOf_spec]; simp only [Tree.model.sizeOf_spec] at hn; omega
    | some v =>
      have := size_look m k v hx
      simp only [look, hx, Option.getD_some]
      omega) hk
  rw [h3, ← h4]
  simp

/-- the value holds no plain dicts, and names are distinct -/
inductive Plain : Tree σ → Prop
  | none : Plain .none
  | scalar {s} : Plain (.scalar s)
  | array {l} : (∀ x ∈ l, Plain x) → Plain (.array l)
  | model {m} : Dict.WF m → (∀ k, Plain (look m k)) → Plain (.model m)

theorem agree_refl (eq : σ → σ → Bool) (hr : ∀ s, eq s s = true) {a : Tree σ} (h : Plain a) : Agree eq a a := by
  induction h with
  | none => exact .none
  | scalar => exact .scalar (hr _)
  | array _ ih => exact .array (List.forall₂_same.2 ih)
  | model _ _ ih => exact .model ih

/-- **C38** (reflexive). A model without plain dicts, whose lists hold values that may be compared,
equals itself. -/
theorem C38_reflexive (eq : σ → σ → Bool) (hr : ∀ s, eq s s = true) (n : Nat)
    (m : List (Str × Tree σ)) (hn : sizeOf (Tree.model m) + 1 < n) (hp : Plain (.model m))
    (h : Fits (.model m) (.model m)) :
    pyEq eq n (.model m) (.model m) = .ok true ∧ modelNe eq n m (.model m) = .ok false := by
  obtain ⟨c, h1, h2⟩ := pyEq_spec eq n _ _ hn h
  have : c = true := h2.2 (agree_refl eq hr hp)
  subst this
  exact ⟨h1, by simp [modelNe, h1]⟩

theorem agree_symm (eq : σ → σ → Bool) (hs : ∀ s t, eq s t = true → eq t s = true) (n : Nat)
    {a b : Tree σ} (hn : sizeOf a < n) (h : Agree eq a b) : Agree eq b a := by
  induction n generalizing a b with
  | zero => omega
  | succ n ih =>
    cases h with
    | none => exact .none
    | scalar h => exact .scalar (hs _ _ h)
    | array h =>
      rename_i l r
      have hsz : ∀ x ∈ l, sizeOf x < n := by
        intro x hx
        have := List.sizeOf_lt_of_mem hx
        simp only [Tree.array.sizeOf_spec] at hn
        omega
      refine .array ?_
      clear hn
      induction h with
      | nil => exact .nil
      | @cons x y l r hxy _ ih2 =>
        exact .cons (ih (hsz x (List.mem_cons_self ..)) hxy)
          (ih2 fun x hx => hsz x (List.mem_cons_of_mem _ hx))
    | model h =>
      rename_i m o
      refine .model fun k => ?_
      have hk := h k
      cases hx : Dict.get? m k with
      | none =>
        have e : look m k = .none := by simp [look, hx]
        rw [e, none_agree] at hk
        rw [e, hk]
        exact .none
      | some v =>
        refine ih ?_ hk
        have := size_look m k v hx
        simp only [look, hx, Option.getD_some]
        omega

/-- **C38** (symmetric). -/
theorem C38_symmetric (eq : σ → σ → Bool) (hs : ∀ s t, eq s t = true → eq t s = true) (n : Nat)
    (m o : List (Str × Tree σ)) (hn : sizeOf (Tree.model m) + 1 < n) (hn' : sizeOf (Tree.model o) + 1 < n)
    (h : Fits (.model m) (.model o)) (h' : Fits (.model o) (.model m)) :
    pyEq eq n (.model m) (.model o) = pyEq eq n (.model o) (.model m) := by
  obtain ⟨c, h1, h2⟩ := pyEq_spec eq n _ _ hn h
  obtain ⟨d, h3, h4⟩ := pyEq_spec eq n _ _ hn' h'
  rw [h1, h3]
  congr 1
  rw [Bool.eq_iff_iff, h2, h4]
  exact ⟨agree_symm eq hs _ (Nat.lt_succ_self _), agree_symm eq hs _ (Nat.lt_succ_self _)⟩

theorem agree_trans (eq : σ → σ → Bool) (ht : ∀ s t u, eq s t = true → eq t u = true → eq s u = true)
    (n : Nat) {a b c : Tree σ} (hn : sizeOf a < n) (h : Agree eq a b) (h' : Agree eq b c) : Agree eq a c := by
  induction n generalizing a b c with
  | zero => omega
  | succ n ih =>
    cases h with
    | none => exact h'
    | scalar h => cases h' with | scalar h' => exact .scalar (ht _ _ _ h h')
    | array h =>
      rename_i l r
      cases h' with
      | array h' =>
        rename_i q
        have hsz : ∀ x ∈ l, sizeOf x < n := by
          intro x hx
          have := List.sizeOf_lt_of_mem hx
          simp only [Tree.array.sizeOf_spec] at hn
          omega
        refine .array ?_
        clear hn
        induction h generalizing q with
        | nil => cases h'; exact .nil
        | @cons x y l r hxy _ ih2 =>
          cases h' with
          | cons hyz h' =>
            exact .cons (ih (hsz x (List.mem_cons_self ..)) hxy hyz)
              (ih2 h' fun x hx => hsz x (List.mem_cons_of_mem _ hx))
    | model h =>
      rename_i m o
      cases h' with
      | model h' =>
        refine .model fun k => ?_
        have hk := h k
        cases hx : Dict.get? m k with
        | none =>
          have e : look m k = .none := by simp [look, hx]
          rw [e, none_agree] at hk
          rw [e, ← hk]
          exact h' k
        | some v =>
          refine ih ?_ hk (h' k)
          have := size_look m k v hx
          simp only [look, hx, Option.getD_some]
          omega

/-- **C38** (transitive). -/
theorem C38_transitive (eq : σ → σ → Bool) (ht : ∀ s t u, eq s t = true → eq t u = true → eq s u = true)
    (n : Nat) (m o q : List (Str × Tree σ)) (hn : sizeOf (Tree.model m) + 1 < n)
    (hn' : sizeOf (Tree.model o) + 1 < n) (h1 : Fits (.model m) (.model o)) (h2 : Fits (.model o) (.model q))
    (h3 : Fits (.model m) (.model q)) (e1 : pyEq eq n (.model m) (.model o) = .ok true)
    (e2 : pyEq eq n (.model o) (.model q) = .ok true) : pyEq eq n (.model m) (.model q) = .ok true := by
  obtain ⟨b, b1, b2⟩ := pyEq_spec eq n _ _ hn h1
  obtain ⟨c, c1, c2⟩ := pyEq_spec eq n _ _ hn' h2
  obtain ⟨d, d1, d2⟩ := pyEq_spec eq n _ _ hn h3
  rw [b1] at e1; cases e1
  rw [c1] at e2; cases e2
  rw [d1, d2.2 (agree_trans eq ht _ (Nat.lt_succ_self _) (b2.1 rfl) (c2.1 rfl))]

/-- **C38** (`!=`). `!=` is the negation of `==`, and raises when `==` does. -/
theorem C38_ne (eq : σ → σ → Bool) (n : Nat) (m : List (Str × Tree σ)) (b : Tree σ) :
    (∀ c, modelNe eq n m b = .ok c ↔ pyEq eq n (.model m) b = .ok (!c)) ∧
    (∀ e, modelNe eq n m b = .error e ↔ pyEq eq n (.model m) b = .error e) := by
  unfold modelNe
  cases pyEq eq n (.model m) b with
  | error e => simp
  | ok d => cases d <;> simp

/-- **C38** (None). A model never equals None. -/
theorem C38_none (eq : σ → σ → Bool) (n : Nat) (m : List (Str × Tree σ)) :
    pyEq eq (n + 1) (.model m) .none = .ok false := rfl

/-! ## examples and refutations -/

/-- `{'a': 1, 'b': None}` equals `{'a': 1}`; they may be compared -/
example : pyEq (fun s t : Nat => s == t) 20 (.model [(c!"a", .scalar 1), (c!"b", .none)])
      (.model [(c!"a", .scalar 1)]) = .ok true ∧
    Fits (.model [(c!"a", .scalar 1), (c!"b", .none)] : Tree Nat) (.model [(c!"a", .scalar 1)]) := by
  refine ⟨by rfl, .model (by decide) (by decide) fun k => ?_⟩
  simp only [look, Dict.get?]
  by_cases h : c!"a" = k
  · simp only [h, if_true, Option.getD_some]; exact .scalar
  · simp only [h, if_false, Option.getD_none]
    exact .noneRight (by intro d h; split at h <;> cases h)

/-- Comparing a model with something that is no mapping raises, also inside. -/
theorem C38_nonmapping_false :
    ¬ ∀ (m o : List (Str × Tree Nat)), ∃ b, pyEq (fun s t => s == t) 50 (.model m) (.model o) = .ok b := by
  intro H
  obtain ⟨b, h⟩ := H [(c!"a", .model [])] [(c!"a", .scalar 1)]
  have : pyEq (fun s t : Nat => s == t) 50 (.model [(c!"a", .model [])]) (.model [(c!"a", .scalar 1)]) =
    .error .AttributeError := by rfl
  rw [this] at h; cases h

/-- Plain dicts as values break transitivity. -/
theorem C38_plain_dicts_false :
    ¬ ∀ (m o q : List (Str × Tree Nat)),
      pyEq (fun s t => s == t) 50 (.model m) (.model o) = .ok true →
      pyEq (fun s t => s == t) 50 (.model o) (.model q) = .ok true →
      pyEq (fun s t => s == t) 50 (.model m) (.model q) = .ok true := by
  intro H
  have := H [(c!"p", .dict [(c!"x", .none)])] [(c!"p", .model [])] [(c!"p", .dict [])] (by rfl) (by rfl)
  have e : pyEq (fun s t : Nat => s == t) 50 (.model [(c!"p", .dict [(c!"x", .none)])])
    (.model [(c!"p", .dict [])]) = .ok false := by rfl
  rw [e] at this; cases this

/-- A model that holds a value unequal to itself (NaN) does not equal itself. -/
theorem C38_nan_false :
    ¬ ∀ (eq : Nat → Nat → Bool) (m : List (Str × Tree Nat)),
      pyEq eq 50 (.model m) (.model m) = .ok true := by
  intro H
  have := H (fun _ _ => false) [(c!"x", .scalar 0)]
  have e : pyEq (fun _ _ : Nat => false) 50 (.model [(c!"x", .scalar 0)]) (.model [(c!"x", .scalar 0)]) =
    .ok false := by rfl
  rw [e] at this; cases this

end Props.C38
