import Verif.Proofs.Compare
/-!
# C44: `compare` reports equality exactly for equal objects

What holds: `compare` answers True exactly when every value of the first document is found again in
the second (`Covers`), a False answer names a place where the two differ, and the only exception is
an `IndexError` when a list of the first document is longer than its counterpart. What does not
hold: lists of different length are never reported as a difference.
-/

namespace Props.C44
open Py Utils Tree Spec Spec.Same Spec.Places Proofs.ScanTree Proofs.Compare

variable {order : List Str → List Str} {fields : Nat → List Str}

/-- An object of a document: names are proper, objects of one class have the same fields. -/
def Doc (fields : Nat → List Str) (s : Tree) : Prop := isObj s = true ∧ WF s ∧ Typed fields s

theorem outcome (ho : ∀ l, (order l).Perm l) {s o : Tree} (h1 : Doc fields s) (h2 : Doc fields o) :
    Outcome [] s o (Tree.compare order s o) := by
  cases s <;> first | cases h1.1 | skip
  cases o <;> first | cases h2.1 | skip
  exact compare_outcome ho fields _ _ _ _ _ _ rfl rfl h1.2.1 h2.2.1 h1.2.2 h2.2.2

/-- True exactly when `o` repeats `s` (with possibly longer lists). -/
theorem C44_true (ho : ∀ l, (order l).Perm l) {s o : Tree} (h1 : Doc fields s) (h2 : Doc fields o) :
    (∃ n, Tree.compare order s o = .ok (true, n)) ↔ Covers s o := by
  have h := outcome ho h1 h2
  constructor
  · rintro ⟨n, hn⟩
    rw [hn] at h
    exact h
  · intro hc
    cases hr : Tree.compare order s o with
    | error e => rw [hr] at h; exact absurd h.2 (covers_not_shorter hc)
    | ok r =>
      obtain ⟨b, n⟩ := r
      rw [hr] at h
      cases b with
      | true => exact ⟨n, rfl⟩
      | false =>
        obtain ⟨ts, hd, _⟩ := h
        exact (covers_not_differ hc hd).elim

/-- Equal objects compare equal. -/
theorem C44_equal (ho : ∀ l, (order l).Perm l) {s o : Tree} (h1 : Doc fields s) (h2 : Doc fields o)
    (h : Agree s o) : ∃ n, Tree.compare order s o = .ok (true, n) :=
  (C44_true ho h1 h2).2 (agree_covers h)

/-- Compared in both directions, the answer is exactly equality. -/
theorem C44_both (ho : ∀ l, (order l).Perm l) {s o : Tree} (h1 : Doc fields s) (h2 : Doc fields o) :
    ((∃ n, Tree.compare order s o = .ok (true, n)) ∧ ∃ n, Tree.compare order o s = .ok (true, n)) ↔
      Agree s o := by
  rw [C44_true ho h1 h2, C44_true ho h2 h1]
  exact ⟨fun h => covers_both h.1 h.2, fun h => ⟨agree_covers h, agree_covers (agree_symm h)⟩⟩

/-- A False answer names a place at which the two documents differ, by its JSON pointer; the empty
name is the documents themselves. -/
theorem C44_names (ho : ∀ l, (order l).Perm l) {s o : Tree} (h1 : Doc fields s) (h2 : Doc fields o)
    {n : Str} (h : Tree.compare order s o = .ok (false, n)) :
    ∃ ts, Differ s o ts ∧ (ts = [] ∧ n = [] ∨ ts ≠ [] ∧ '#' :: '/' :: n = pointer ts) := by
  have := outcome ho h1 h2
  rw [h] at this
  obtain ⟨ts, hd, rfl⟩ := this
  refine ⟨ts, hd, ?_⟩
  cases ts with
  | nil => exact Or.inl ⟨rfl, rfl⟩
  | cons t ts => exact Or.inr ⟨by simp, by simpa [pointer] using pointer_enc [] t ts⟩

/-- The only exception is an `IndexError`, and it means that a list of `s` is longer than its
counterpart in `o`. -/
theorem C44_error (ho : ∀ l, (order l).Perm l) {s o : Tree} (h1 : Doc fields s) (h2 : Doc fields o)
    {e : Exc} (h : Tree.compare order s o = .error e) : e = .IndexError ∧ Shorter s o := by
  have := outcome ho h1 h2
  rw [h] at this
  exact this

/-- Objects of different classes: False, and no place is named. -/
theorem C44_class {c c' : Nat} {fs gs : Dict Str Tree} (h : c ≠ c') :
    Tree.compare order (.obj c fs) (.obj c' gs) = .ok (false, []) := by
  simp [Tree.compare, h]

/-- When corresponding lists have the same lengths, `compare` decides equality and never raises. -/
theorem C44_decides (ho : ∀ l, (order l).Perm l) {s o : Tree} (h1 : Doc fields s) (h2 : Doc fields o)
    (hl : ¬ Shorter s o) (hl2 : ¬ Shorter o s) :
    ∃ b n, Tree.compare order s o = .ok (b, n) ∧ (b = true ↔ Agree s o) := by
  cases hr : Tree.compare order s o with
  | error e => exact absurd (C44_error ho h1 h2 hr).2 hl
  | ok r =>
    obtain ⟨b, n⟩ := r
    refine ⟨b, n, rfl, ?_, ?_⟩
    · rintro rfl
      exact level ((C44_true ho h1 h2).1 ⟨n, hr⟩) hl2
    · intro ha
      obtain ⟨n', hn⟩ := C44_equal ho h1 h2 ha
      rw [hr] at hn
      cases hn; rfl
where
  level {s o : Tree} (h : Covers s o) (hl : ¬ Shorter o s) : Agree s o := by
    induction h with
    | atom a b h => exact .atom a b h
    | list l m h _ ih =>
      refine .list l m ?_ fun i v w h1 h2 => ih i v w h1 h2 fun hs => hl (.item m l i w v h2 h1 hs)
      by_cases hx : l.length < m.length
      · exact absurd (.here m l hx) hl
      · omega
    | dict d e h _ ih =>
      exact .dict d e h fun k v w h1 h2 => ih k v w h1 h2 fun hs => hl (.key e d k w v h2 h1 hs)
    | obj c fs gs _ ih =>
      exact .obj c fs gs fun k v w h1 h2 => ih k v w h1 h2 fun hs => hl (.field c gs fs k w v h2 h1 hs)

/-! ## Cases -/

/-- an operation with tags and a dict of responses -/
def op (tags : List String) (resp : List (String × String)) : Tree :=
  .obj 1 [("tags".toList, .list (tags.map fun t => .atom (.str t.toList))),
    ("responses".toList, .dict (resp.map fun r => (r.1.toList, .obj 2 [("description".toList, .atom (.str r.2.toList))])))]

def opFields : Nat → List Str := fun c => if c = 1 then ["tags".toList, "responses".toList] else ["description".toList]

example : Doc opFields (op ["a", "b"] [("200", "ok"), ("404", "none")]) := by
  refine ⟨rfl, ?_, ?_⟩
  · simp [op, WF, WFDict, WFList]; decide
  · simp [op, Typed, TypedD, TypedL]; decide

example : Tree.compare id (op ["a", "b"] [("200", "ok"), ("404", "none")])
    (op ["a", "b"] [("404", "none"), ("200", "ok")]) = .ok (true, []) := by decide +kernel
example : Tree.compare id (op ["a", "b"] [("200", "ok"), ("404", "none")])
    (op ["a", "b"] [("200", "ok"), ("404", "gone")]) = .ok (false, "responses/404/description".toList) := by
  decide +kernel
example : Tree.compare id (op ["a", "b"] [("200", "ok")])
    (op ["a", "b"] [("200", "ok"), ("a/b", "x")]) = .ok (false, "responses/a~1b".toList) := by decide +kernel

/-- A longer list in the second object is reported as equal; seen from the other side, it is an
`IndexError`. -/
theorem C44_lists_false : ∃ s o : Tree, Doc opFields s ∧ Doc opFields o ∧ ¬ Agree s o ∧
    Tree.compare id s o = .ok (true, []) ∧ Tree.compare id o s = .error .IndexError := by
  refine ⟨op ["a"] [], op ["a", "b"] [], ⟨rfl, ?_, ?_⟩, ⟨rfl, ?_, ?_⟩, ?_, ?_, ?_⟩
  · simp [op, WF, WFDict, WFList]; decide
  · simp [op, Typed, TypedD, TypedL]; decide
  · simp [op, WF, WFDict, WFList]; decide
  · simp [op, Typed, TypedD, TypedL]; decide
  · intro h
    cases h with
    | obj _ _ _ hx =>
      have := hx ("tags".toList) _ _ rfl rfl
      cases this with
      | list _ _ hl _ => simp at hl
  · decide +kernel
  · decide +kernel

end Props.C44
