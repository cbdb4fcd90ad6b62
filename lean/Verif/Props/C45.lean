import Verif.Proofs.Diff
/-!
# C45: the document differ reports a difference iff there is one

`order` is the order of Python sets, `sortable` says on which lists `sorted` succeeds. What holds:
when `_diff_` returns, its entries are exactly the differences of the two documents, each once and
named by its JSON pointer, and there are none exactly when the documents are the same on the kept
keys. What does not hold: `_diff_` raises on lists that mix types or cannot be sorted, even for
equal documents, and it takes `1` and `True` for equal.
-/

namespace Props.C45
open Py Utils _root_.Diff Spec.Diff Spec.Places Proofs.ScanTree Proofs.Diff

variable {order : Str → List Str → List Str} {sortable : List Val → Bool} {incl excl : List Str}

/-- how the differ names the place with the tokens `ts`: its JSON pointer without the leading `#/` -/
def Names (n : Str) (ts : List Str) : Prop := ts = [] ∧ n = [] ∨ ts ≠ [] ∧ '#' :: '/' :: n = pointer ts

theorem names_enc {n : Str} {ts : List Str} : n = enc ts ↔ Names n ts := by
  cases ts with
  | nil => simp [Names, enc]
  | cons t ts =>
    have h := pointer_enc [] t ts
    simp only [List.nil_append] at h
    simp only [Names, reduceCtorEq, false_and, ne_eq, not_false_eq_true, true_and, false_or]
    rw [← h]
    simp [pointer]

/-- The entries are exactly the differences, each named by its place. -/
theorem C45_entries (ho : ∀ n l, (order n l).Perm l) {v w : Val} (hv : Proper v) (hw : Proper w)
    {r : List Entry} (h : _diff_ order sortable incl excl v w = .ok r) (n : Str) (x : Val × Val) :
    (n, x) ∈ r ↔ ∃ ts, Reports incl excl v w ts x ∧ Names n ts := by
  have := diff_verdict ho sortable incl excl v w [] (by simp) hv hw
  rw [show diff order sortable incl excl (enc []) v w = .ok r from h] at this
  simp only [this.2.1 n x, ← names_enc, List.nil_append]

/-- No place is reported twice. -/
theorem C45_once (ho : ∀ n l, (order n l).Perm l) {v w : Val} (hv : Proper v) (hw : Proper w)
    {r : List Entry} (h : _diff_ order sortable incl excl v w = .ok r) : (r.map Prod.fst).Nodup := by
  have := diff_verdict ho sortable incl excl v w [] (by simp) hv hw
  rw [show diff order sortable incl excl (enc []) v w = .ok r from h] at this
  exact this.2.2

/-- An exception is raised exactly when two lists are met that cannot be compared, and says why. -/
theorem C45_raises (ho : ∀ n l, (order n l).Perm l) {v w : Val} (hv : Proper v) (hw : Proper w) :
    (∀ e, _diff_ order sortable incl excl v w = .error e → Trouble sortable incl excl e v w) ∧
    ((∃ e, Trouble sortable incl excl e v w) → ∃ e, _diff_ order sortable incl excl v w = .error e) := by
  have := diff_verdict ho sortable incl excl v w [] (by simp) hv hw
  rw [show diff order sortable incl excl (enc []) v w = _diff_ order sortable incl excl v w from rfl] at this
  constructor
  · intro e h
    rw [h] at this; exact this
  · rintro ⟨e, ht⟩
    cases h : _diff_ order sortable incl excl v w with
    | error e => exact ⟨e, rfl⟩
    | ok r => rw [h] at this; exact absurd ht (this.1 e)

theorem same_no_report {v w : Val} (h : Same incl excl v w) : ∀ ts x, ¬ Reports incl excl v w ts x := by
  induction h with
  | scalar v w h1 h2 =>
    intro ts x hr
    cases hr <;> first | exact absurd h2 ‹_› | simp [Scalar, typeName] at h1
  | list l m h1 h2 h3 ih =>
    intro ts x hr
    cases hr with
    | scalar _ _ h => simp [Scalar, typeName] at h
    | notList _ _ h => exact h rfl
    | length _ _ h => exact h h1
    | types v w l m _ h => exact h (h2 v (by simp) w (by simp))
    | item _ _ i v w ts x _ _ g1 g2 g3 => exact ih i v w g1 g2 ts x g3
  | dict d e h1 h2 ih =>
    intro ts x hr
    cases hr with
    | scalar _ _ h => simp [Scalar, typeName] at h
    | notDict _ _ h => exact h rfl
    | added _ _ k g1 g2 g3 => exact g2 ((h1 k g1).2 g3)
    | removed _ _ k g1 g2 g3 => exact g3 ((h1 k g1).1 g2)
    | key _ _ k v w ts x g1 g2 g3 g4 => exact ih k v w g1 g2 g3 ts x g4

mutual
theorem same_of : ∀ v w : Val, (∀ ts x, ¬ Reports incl excl v w ts x) →
    (∀ e, ¬ Trouble sortable incl excl e v w) → Same incl excl v w
  | .list l, w, hr, ht => by
    have hw : typeName w = c!"list" := Classical.byContradiction fun h => hr _ _ (.notList l w h)
    cases w <;> simp [typeName] at hw
    next m =>
      have hl : l.length = m.length := Classical.byContradiction fun h => hr _ _ (.length l m h)
      have hm : ¬ Mixed l ∧ ¬ Mixed m :=
        ⟨fun h => ht _ (.mixed l m hl (Or.inl h)), fun h => ht _ (.mixed l m hl (Or.inr h))⟩
      have hal : ∀ a ∈ l, ∀ b ∈ m, Alike a b := by
        cases l with
        | nil => simp
        | cons x l =>
          cases m with
          | nil => simp at hl
          | cons y m =>
            refine alike_all hm.1 hm.2 (x := x) (y := y) (by simp) (by simp) ?_
            exact Classical.byContradiction fun h => hr _ _ (.types x y l m (by simpa using hl) h)
      refine .list l m hl hal ?_
      exact sameL_of l m (fun i v w h1 h2 ts x h => hr _ _ (.item l m i v w ts x hl hal h1 h2 h))
        fun i v w h1 h2 e h => ht e (.item l m i v w e hl hal h1 h2 h)
  | .dict d, w, hr, ht => by
    have hw : typeName w = c!"dict" := Classical.byContradiction fun h => hr _ _ (.notDict d w h)
    cases w <;> simp [typeName] at hw
    next e =>
      refine .dict d e ?_ ?_
      · intro k hk
        constructor
        · intro h; exact Classical.byContradiction fun h' => hr _ _ (.removed d e k hk h h')
        · intro h; exact Classical.byContradiction fun h' => hr _ _ (.added d e k hk h' h)
      · intro k v w hk h1 h2
        exact sameD_of d k v h1 w (fun ts x h => hr _ _ (.key d e k v w ts x hk h1 h2 h))
          fun x h => ht x (.key d e k v w x hk h1 h2 h)
  | .none, w, hr, _ => leaf (by simp [Scalar, typeName]) hr
  | .bool _, w, hr, _ => leaf (by simp [Scalar, typeName]) hr
  | .int _, w, hr, _ => leaf (by simp [Scalar, typeName]) hr
  | .float _, w, hr, _ => leaf (by simp [Scalar, typeName]) hr
  | .str _, w, hr, _ => leaf (by simp [Scalar, typeName]) hr
  | .other _, w, hr, _ => leaf (by simp [Scalar, typeName]) hr
theorem sameL_of : ∀ l m : List Val,
    (∀ (i : Nat) v w, l[i]? = some v → m[i]? = some w → ∀ ts x, ¬ Reports incl excl v w ts x) →
    (∀ (i : Nat) v w, l[i]? = some v → m[i]? = some w → ∀ e, ¬ Trouble sortable incl excl e v w) →
    ∀ (i : Nat) v w, l[i]? = some v → m[i]? = some w → Same incl excl v w
  | [], _, _, _, i, v, w, h, _ => by simp at h
  | _ :: _, [], _, _, i, v, w, _, h => by simp at h
  | x :: l, y :: m, hr, ht, i, v, w, h1, h2 => by
    cases i with
    | zero =>
      cases h1; cases h2
      exact same_of x y (hr 0 x y rfl rfl) (ht 0 x y rfl rfl)
    | succ i =>
      exact sameL_of l m (fun i v w h1 h2 => hr (i + 1) v w h1 h2) (fun i v w h1 h2 => ht (i + 1) v w h1 h2)
        i v w h1 h2
theorem sameD_of : ∀ (d : List (Str × Val)) (k : Str) (v : Val), Dict.get? d k = some v → ∀ w : Val,
    (∀ ts x, ¬ Reports incl excl v w ts x) → (∀ e, ¬ Trouble sortable incl excl e v w) → Same incl excl v w
  | [], _, _, h, _, _, _ => by simp at h
  | (k', v') :: d, k, v, h, w, hr, ht => by
    rw [Dict.get?] at h
    by_cases hk : k' = k
    · rw [if_pos hk] at h
      cases h
      exact same_of v' w hr ht
    · rw [if_neg hk] at h
      exact sameD_of d k v h w hr ht
theorem leaf {v w : Val} (hs : Scalar v) (hr : ∀ ts x, ¬ Reports incl excl v w ts x) : Same incl excl v w :=
  .scalar v w hs (Classical.byContradiction fun h => hr _ _ (.scalar v w hs h))
end

/-- Nothing is reported exactly when the documents are the same (and the differ does not raise). -/
theorem C45_empty (ho : ∀ n l, (order n l).Perm l) {v w : Val} (hv : Proper v) (hw : Proper w) :
    _diff_ order sortable incl excl v w = .ok [] ↔
      Same incl excl v w ∧ ∀ e, ¬ Trouble sortable incl excl e v w := by
  constructor
  · intro h
    have ht : ∀ e, ¬ Trouble sortable incl excl e v w := by
      intro e ht
      obtain ⟨e', he⟩ := (C45_raises ho hv hw).2 ⟨e, ht⟩
      rw [h] at he; cases he
    refine ⟨same_of v w (fun ts x hr => ?_) ht, ht⟩
    have := (C45_entries ho hv hw h (enc ts) x).2 ⟨ts, hr, names_enc.1 rfl⟩
    cases this
  · rintro ⟨hs, ht⟩
    cases h : _diff_ order sortable incl excl v w with
    | error e => exact absurd ((C45_raises ho hv hw).1 e h) (ht e)
    | ok r =>
      cases r with
      | nil => rfl
      | cons e r =>
        obtain ⟨ts, hr, _⟩ := (C45_entries ho hv hw h e.1 e.2).1 (by simp)
        exact absurd hr (same_no_report hs ts e.2)

/-! ## Documents on which the differ does not raise -/

/-- What Python guarantees about `sorted`: it does not raise on at most one element, on texts, and
on numbers. -/
structure Sorts (sortable : List Val → Bool) : Prop where
  short : ∀ l, l.length ≤ 1 → sortable l = true
  texts : ∀ l, (∀ x ∈ l, typeName x = c!"str") → sortable l = true
  numbers : ∀ l, (∀ x ∈ l, ∃ q, Worth x q) → sortable l = true

/-- Every list in the document has elements of one type: texts, numbers or dicts; or at most one
element. -/
inductive Plain : Val → Prop where
  | scalar (v) : Scalar v → Plain v
  | dict (d) : (∀ k v, Dict.get? d k = some v → Plain v) → Plain (.dict d)
  | list (l) : ¬ Mixed l → (l.length ≤ 1 ∨ (∀ x ∈ l, typeName x = c!"str") ∨ (∀ x ∈ l, ∃ q, Worth x q) ∨
      ∀ x ∈ l, typeName x = c!"dict") → (∀ x ∈ l, Plain x) → Plain (.list l)

theorem plain_no_trouble (hs : Sorts sortable) {v w : Val} (hv : Plain v) (hw : Plain w) :
    ∀ e, ¬ Trouble sortable incl excl e v w := by
  intro e ht
  induction ht with
  | mixed l m _ h =>
    cases hv with
    | scalar _ h => simp [Scalar, typeName] at h
    | list _ h1 =>
      cases hw with
      | scalar _ h => simp [Scalar, typeName] at h
      | list _ h2 => exact h.elim h1 h2
  | unsorted l m hl hne n1 n2 hal hd h =>
    cases hv with
    | scalar _ h => simp [Scalar, typeName] at h
    | list _ _ h1 =>
      cases hw with
      | scalar _ h => simp [Scalar, typeName] at h
      | list _ _ h2 =>
        obtain ⟨a, ha⟩ := List.exists_mem_of_ne_nil l hne
        have s1 : sortable l = true := by
          rcases h1 with h1 | h1 | h1 | h1
          · exact hs.short l h1
          · exact hs.texts l h1
          · exact hs.numbers l h1
          · exact absurd (h1 a ha) (hd a ha)
        have s2 : sortable m = true := by
          rcases h2 with h2 | h2 | h2 | h2
          · exact hs.short m h2
          · exact hs.texts m h2
          · exact hs.numbers m h2
          · exfalso
            have hm : m ≠ [] := by
              rintro rfl
              exact hne (List.length_eq_zero_iff.1 hl)
            obtain ⟨b, hb⟩ := List.exists_mem_of_ne_nil m hm
            have hab := hal a ha b hb
            have hb' := h2 b hb
            rcases hab with e | ⟨_, e⟩
            · exact hd a ha (e.trans hb')
            · rcases e with e | e <;> · rw [hb'] at e; exact absurd e (by decide)
        rcases h with h | h
        · rw [s1] at h; cases h
        · rw [s2] at h; cases h
  | item l m i a b e hl hal h1 h2 _ ih =>
    cases hv with
    | scalar _ h => simp [Scalar, typeName] at h
    | list _ _ _ p1 =>
      cases hw with
      | scalar _ h => simp [Scalar, typeName] at h
      | list _ _ _ p2 => exact ih (p1 a (List.mem_of_getElem? h1)) (p2 b (List.mem_of_getElem? h2))
  | key d e k a b x _ h1 h2 _ ih =>
    cases hv with
    | scalar _ h => simp [Scalar, typeName] at h
    | dict _ p1 =>
      cases hw with
      | scalar _ h => simp [Scalar, typeName] at h
      | dict _ p2 => exact ih (p1 k a h1) (p2 k b h2)

/-- On plain documents the differ never raises, and reports nothing exactly when they are the same. -/
theorem C45_decides (ho : ∀ n l, (order n l).Perm l) (hs : Sorts sortable) {v w : Val} (hv : Proper v)
    (hw : Proper w) (pv : Plain v) (pw : Plain w) :
    ∃ r, _diff_ order sortable incl excl v w = .ok r ∧ (r = [] ↔ Same incl excl v w) := by
  have ht := plain_no_trouble (incl := incl) (excl := excl) hs pv pw
  cases h : _diff_ order sortable incl excl v w with
  | error e => exact absurd ((C45_raises ho hv hw).1 e h) (ht e)
  | ok r =>
    refine ⟨r, rfl, ?_, ?_⟩
    · rintro rfl
      exact ((C45_empty ho hv hw).1 h).1
    · intro hsame
      have := (C45_empty ho hv hw).2 ⟨hsame, ht⟩
      rw [h] at this
      cases this; rfl

/-! ## Cases -/

/-- a document with a text, a list of texts and a list of dicts -/
def doc (t : String) (tags : List String) (ns : List Int) : Val :=
  .dict [(c!"title", .str t.toList), (c!"tags", .list (tags.map fun s => .str s.toList)),
    (c!"a/b", .list (ns.map fun n => .dict [(c!"n", .int n)]))]

example : Proper (doc "x" ["a", "b"] [1, 2]) := by
  simp [doc, Proper, ProperL, ProperD]; decide
example : Plain (doc "x" ["a", "b"] [1, 2]) := by
  refine .dict _ fun k v h => ?_
  have := Dict.mem_of_get? h
  simp [] at this
  rcases this with ⟨_, rfl⟩ | ⟨_, rfl⟩ | ⟨_, rfl⟩
  · exact .scalar _ (by simp [Scalar, typeName])
  · refine .list _ (by simp [Mixed, typeName]) (Or.inr (Or.inl (by simp [typeName]))) ?_
    intro x hx
    simp at hx
    rcases hx with rfl | rfl <;> exact .scalar _ (by simp [Scalar, typeName])
  · refine .list _ (by simp [Mixed, typeName]) (Or.inr (Or.inr (Or.inr (by simp [typeName])))) ?_
    intro x hx
    simp at hx
    rcases hx with rfl | rfl <;>
      exact .dict _ fun k v h => by
        have := Dict.mem_of_get? h
        simp at this
        rw [this.2]
        exact .scalar _ (by simp [Scalar, typeName])

example : _diff_ (fun _ l => l) (fun _ => true) [] [] (doc "x" ["a", "b"] [1, 2]) (doc "y" ["a", "c"] [1, 3])
    = .ok [(c!"title", .str c!"x", .str c!"y"), (c!"tags/1", .str c!"b", .str c!"c"),
      (c!"a~1b/1/n", .int 2, .int 3)] := by decide +kernel
example : _diff_ (fun _ l => l) (fun _ => true) [] [c!"title"] (doc "x" ["a", "b"] [1, 2])
    (doc "y" ["a", "b", "c"] [1, 2]) = .ok [(c!"tags", .int 2, .int 3)] := by decide +kernel
example : _diff_ (fun _ l => l) (fun _ => true) [c!"title"] [] (doc "x" ["a", "b"] [1, 2])
    (doc "x" ["c"] [5]) = .ok [] := by rfl

/-- On a list of a text and a number, or of two `None`s, the differ raises even if both documents
are the same. -/
theorem C45_equal_false {l : List Val}
    (h : l = [.str c!"a", .int 1] ∨ l = [.none, .none] ∧ sortable l = false) :
    ∃ e, _diff_ order sortable incl excl (.list l) (.list l) = .error e := by
  rcases h with rfl | ⟨rfl, h⟩
  · exact ⟨.ValueError, by rfl⟩
  · refine ⟨.TypeError, ?_⟩
    simp [_diff_, diff, reduce, ty, kin, Ty.isInt, h]

/-- `1` and `True` are not told apart, although as JSON they differ; `1` and `1.0` are told apart
inside of lists only. -/
theorem C45_numbers_false :
    _diff_ order sortable incl excl (.int 1) (.bool true) = .ok [] ∧
    _diff_ order sortable incl excl (.int 1) (.float (.fin 1)) = .ok [] ∧
    _diff_ order sortable incl excl (.list [.int 1]) (.list [.float (.fin 1)]) =
      .ok [([], .str c!"<class 'int'>", .str c!"<class 'float'>")] := by
  refine ⟨rfl, ?_, ?_⟩
  · rw [_diff_]
    rw [diff] <;> try (intros; contradiction)
    have : ne (.int 1) (.float (.fin 1)) = false := by decide +kernel
    rw [this]; rfl
  · rfl

end Props.C45
