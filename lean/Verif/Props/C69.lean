import Verif.Model.Uuid
import Verif.Spec.Uuid
import Verif.Proofs.Str
import Mathlib.Tactic.Ring
import Mathlib.Tactic.NormNum
/-!
# C69: every spelling of a UUID is read, and its canonical form is written

What holds: each spelling (`Spec.Uuid.Spelling`) and each sequence of 16 bytes is read as its number,
the canonical form is written, and reads back. Text that is none raises `ValueError`, except for text of
16 characters, which raises `AssertionError`. Some text that is no spelling is read, because the
standard library's `int(…, 16)` is lenient.
-/

namespace Props.C69
open Py Py.Uuid Spec.Uuid Prim.Uuid

theorem digit_lt {c : Char} {d : Nat} (h : Digit c d) : d < 16 := by
  rcases h with h | h
  · have := (List.getElem?_eq_some_iff.1 h).1; simpa [lower] using this
  · have := (List.getElem?_eq_some_iff.1 h).1; simpa [upper] using this

theorem digit_table : ∀ d : Fin 16, (∀ c, lower[d.1]? = some c → hexVal? c = some d.1 ∧ c ≠ '_' ∧ c ≠ 'u' ∧ c ≠ '{' ∧ c ≠ '}' ∧ c ≠ '-' ∧ c ≠ '+' ∧ isSpace c = false ∧ c ≠ 'x' ∧ c ≠ 'X') ∧
    (∀ c, upper[d.1]? = some c → hexVal? c = some d.1 ∧ c ≠ '_' ∧ c ≠ 'u' ∧ c ≠ '{' ∧ c ≠ '}' ∧ c ≠ '-' ∧ c ≠ '+' ∧ isSpace c = false ∧ c ≠ 'x' ∧ c ≠ 'X') := by
  have key : ∀ d : Fin 16, ∀ l ∈ [lower, upper], ∃ c, l[d.1]? = some c ∧ hexVal? c = some d.1 ∧ c ≠ '_' ∧ c ≠ 'u' ∧ c ≠ '{' ∧ c ≠ '}' ∧ c ≠ '-' ∧ c ≠ '+' ∧ isSpace c = false ∧ c ≠ 'x' ∧ c ≠ 'X' := by
    intro d l hl
    have hd : d.1 < l.length := by
      simp only [List.mem_cons, List.not_mem_nil, or_false] at hl
      rcases hl with rfl | rfl <;> exact d.2
    refine ⟨l[d.1], List.getElem?_eq_getElem hd, ?_⟩
    revert d l
    decide +kernel
  intro d
  constructor
  · intro c hc
    obtain ⟨c', h1, h2⟩ := key d lower (by simp)
    rw [hc] at h1; cases h1; exact h2
  · intro c hc
    obtain ⟨c', h1, h2⟩ := key d upper (by simp)
    rw [hc] at h1; cases h1; exact h2

theorem digit_facts {c : Char} {d : Nat} (h : Digit c d) : hexVal? c = some d ∧ c ≠ '_' ∧ c ≠ 'u' ∧ c ≠ '{' ∧ c ≠ '}' ∧
    c ≠ '-' ∧ c ≠ '+' ∧ isSpace c = false ∧ c ≠ 'x' ∧ c ≠ 'X' := by
  have hd := digit_lt h
  rcases h with h | h
  · exact (digit_table ⟨d, hd⟩).1 c h
  · exact (digit_table ⟨d, hd⟩).2 c h

/-- digits only -/
inductive Digits : Str → List Nat → Prop
  | nil : Digits [] []
  | cons (c d s ds) : Digit c d → Digits s ds → Digits (c :: s) (d :: ds)

theorem Digits.length {s ds} (h : Digits s ds) : s.length = ds.length := by
  induction h with
  | nil => rfl
  | cons c d s ds _ _ ih => simp [ih]

theorem Digits.facts {s ds} (h : Digits s ds) : ∀ c ∈ s, ∃ d, Digit c d := by
  induction h with
  | nil => simp
  | cons c d s ds hd _ ih =>
    intro c' hc
    rcases List.mem_cons.1 hc with rfl | hc
    · exact ⟨d, hd⟩
    · exact ih c' hc

theorem hexGo_digits {s ds} (h : Digits s ds) (acc : Nat) :
    hexGo acc false s = some (acc * 16 ^ ds.length + value ds) := by
  induction h generalizing acc with
  | nil => simp [hexGo, value]
  | cons c d s ds hd _ ih =>
    obtain ⟨h1, h2, _⟩ := digit_facts hd
    rw [hexGo, if_neg h2, h1]
    dsimp only
    rw [ih, value, List.length_cons, Nat.pow_succ]
    congr 1
    ring

theorem dropWhile_none {p : Char → Bool} {s : Str} (h : ∀ c ∈ s, p c = false) : s.dropWhile p = s := by
  cases s with
  | nil => rfl
  | cons c s => simp [h c (by simp)]

theorem stripBy_none {p : Char → Bool} {s : Str} (h : ∀ c ∈ s, p c = false) : stripBy p s = s := by
  unfold stripBy
  rw [dropWhile_none h, dropWhile_none (fun c hc => h c (by simpa using hc)), List.reverse_reverse]

theorem int16_digits {s ds} (h : Digits s ds) (hne : s ≠ []) : int16 s = some (value ds) := by
  have hs : stripBy isSpace s = s := stripBy_none fun c hc => by
    obtain ⟨d, hd⟩ := h.facts c hc
    exact (digit_facts hd).2.2.2.2.2.2.2.1
  have hb : ∀ (c : Char) (t : Str), s = c :: t → hexBody s = some (value ds) := by
    rintro c t rfl
    obtain ⟨d, hd⟩ := h.facts c (by simp)
    rw [hexBody, if_neg (digit_facts hd).2.1, hexGo_digits h]
    simp
  have hp : dropPrefix s = s := by
    unfold dropPrefix
    split
    · next x t =>
      rw [if_neg]
      obtain ⟨d, hd⟩ := h.facts x (by simp)
      have := digit_facts hd
      rintro (e | e)
      · exact this.2.2.2.2.2.2.2.2.1 e
      · exact this.2.2.2.2.2.2.2.2.2 e
    · rfl
  unfold int16
  rw [hs]
  split
  · next t =>
    obtain ⟨d, hd⟩ := h.facts '+' (by simp)
    exact absurd rfl (digit_facts hd).2.2.2.2.2.2.1
  · rw [hp]
    obtain ⟨c, t, rfl⟩ := List.exists_cons_of_ne_nil hne
    exact hb c t rfl

/-- removing the hyphens leaves the digits -/
theorem hyphens_digits {s ds} (h : Hyphened s ds) : Digits (replace s c!"-" []) ds := by
  rw [replace_single]
  induction h with
  | nil => exact .nil
  | hyphen s ds _ ih => simpa using ih
  | digit c d s ds hd _ ih =>
    have hne := (digit_facts hd).2.2.2.2.2.1
    simp only [List.flatMap_cons, if_neg hne]
    exact .cons c d _ _ hd ih

theorem hyphened_chars {s ds} (h : Hyphened s ds) : ∀ c ∈ s, c ≠ 'u' ∧ c ≠ '{' ∧ c ≠ '}' := by
  induction h with
  | nil => simp
  | hyphen s ds _ ih =>
    intro c hc
    rcases List.mem_cons.1 hc with rfl | hc
    · decide
    · exact ih c hc
  | digit c d s ds hd _ ih =>
    intro c' hc
    rcases List.mem_cons.1 hc with rfl | hc
    · exact ⟨(digit_facts hd).2.2.1, (digit_facts hd).2.2.2.1, (digit_facts hd).2.2.2.2.1⟩
    · exact ih c' hc

theorem replace_none (o : Char) (os new : Str) {s : Str} (h : o ∉ s) : replace s (o :: os) new = s := by
  unfold replace
  induction s with
  | nil => rfl
  | cons x s ih =>
    have hx : (o == x) = false := by
      rw [beq_eq_false_iff_ne]; rintro rfl; exact h (by simp)
    rw [replaceGo, if_neg (by simp [List.isPrefixOf, hx]), ih (fun hm => h (by simp [hm]))]

/-- the text in any spelling is cleaned to its digits -/
theorem clean_spelling {s ds} (h : Spelling s ds) : Digits (clean s) ds ∧ ds.length = 32 := by
  have brace : ∀ (s : Str), (∀ c ∈ s, c ≠ 'u' ∧ c ≠ '{' ∧ c ≠ '}') →
      stripBy (fun c => c = '{' || c = '}') s = s := fun s hs => stripBy_none fun c hc => by
    have := hs c hc; simp [this.2.1, this.2.2]
  cases h with
  | plain _ _ hy hl =>
    refine ⟨?_, hl⟩
    have hc := hyphened_chars hy
    have hu : 'u' ∉ s := fun hm => (hc _ hm).1 rfl
    unfold clean
    rw [replace_none _ _ _ hu, replace_none _ _ _ hu, brace s hc]
    exact hyphens_digits hy
  | braces s ds hy hl =>
    refine ⟨?_, hl⟩
    have hc := hyphened_chars hy
    have hu : 'u' ∉ '{' :: (s ++ ['}']) := by
      simp only [List.mem_cons, List.mem_append, List.not_mem_nil, or_false]
      rintro (e | hm | e)
      · exact absurd e (by decide)
      · exact (hc _ hm).1 rfl
      · exact absurd e (by decide)
    unfold clean
    rw [replace_none _ _ _ hu, replace_none _ _ _ hu]
    have : stripBy (fun c => c = '{' || c = '}') ('{' :: (s ++ ['}'])) = s := by
      have hp : ∀ c ∈ s, (decide (c = '{') || decide (c = '}')) = false := fun c hm => by
        have := hc c hm; simp [this.2.1, this.2.2]
      unfold stripBy
      cases hs : s with
      | nil => simp
      | cons x t =>
        have hx := hp x (by simp [hs])
        rw [← hs]
        have h1 : ('{' :: (s ++ ['}'])).dropWhile (fun c => c = '{' || c = '}') = s ++ ['}'] := by
          rw [List.dropWhile_cons, if_pos (by simp), hs, List.cons_append, List.dropWhile_cons, if_neg (by simpa using hx)]
        rw [h1]
        have h2 : (s ++ ['}']).reverse.dropWhile (fun c => c = '{' || c = '}') = s.reverse := by
          rw [List.reverse_append, List.reverse_singleton, List.singleton_append, List.dropWhile_cons, if_pos (by simp)]
          exact dropWhile_none fun c hm => hp c (by simpa using hm)
        rw [h2, List.reverse_reverse]
    rw [this]
    exact hyphens_digits hy
  | urn s ds hy hl =>
    refine ⟨?_, hl⟩
    have hc := hyphened_chars hy
    have hu : 'u' ∉ s := fun hm => (hc _ hm).1 rfl
    have r1 : replace (c!"urn:uuid:" ++ s) c!"urn:" [] = c!"uuid:" ++ s := by
      have := replace_none 'u' c!"rn:" [] hu
      unfold replace at *
      simp [replaceGo, List.isPrefixOf, this]
    have r2 : replace (c!"uuid:" ++ s) c!"uuid:" [] = s := by
      have := replace_none 'u' c!"uid:" [] hu
      unfold replace at *
      simp [replaceGo, List.isPrefixOf, this]
    unfold clean
    rw [r1, r2, brace s hc]
    exact hyphens_digits hy

/-- Every spelling is read as the number it stands for. -/
theorem C69_read {s : Str} {ds : List Nat} (h : Spelling s ds) : apply (.str s) = .ok (value ds) := by
  obtain ⟨h1, h2⟩ := clean_spelling h
  have hl : (clean s).length = 32 := by rw [h1.length, h2]
  have hne : clean s ≠ [] := by intro e; rw [e] at hl; cases hl
  simp [apply, ofText, hl, int16_digits h1 hne]

/-! ## writing -/

/-- the last `k` hexadecimal digits of a number -/
def digitsOf : Nat → Nat → List Nat
  | 0, _ => []
  | k + 1, n => digitsOf k (n / 16) ++ [n % 16]

theorem digitsOf_length (k n : Nat) : (digitsOf k n).length = k := by
  induction k generalizing n with
  | zero => rfl
  | succ k ih => simp [digitsOf, ih]

theorem value_snoc (ds : List Nat) (d : Nat) : value (ds ++ [d]) = value ds * 16 + d := by
  induction ds with
  | nil => simp [value]
  | cons x ds ih =>
    simp only [List.cons_append, value, ih, List.length_append, List.length_singleton, Nat.pow_succ]
    ring

theorem value_digitsOf {k n : Nat} (h : n < 16 ^ k) : value (digitsOf k n) = n := by
  induction k generalizing n with
  | zero => simp at h; subst h; rfl
  | succ k ih =>
    have : n / 16 < 16 ^ k := by
      rw [Nat.div_lt_iff_lt_mul (by omega)]; rw [Nat.pow_succ] at h; exact h
    rw [digitsOf, value_snoc, ih this]
    omega

theorem digitChar_lower : ∀ d : Fin 16, lower[d.1]? = some (Nat.digitChar d.1) := by decide

theorem hexPad_lower (k n : Nat) : (hexPad k n).map some = (digitsOf k n).map fun d => lower[d]? := by
  induction k generalizing n with
  | zero => rfl
  | succ k ih =>
    simp only [hexPad, digitsOf, List.map_append, ih, List.map_cons, List.map_nil]
    rw [digitChar_lower ⟨n % 16, Nat.mod_lt _ (by omega)⟩]

theorem hexPad_length (k n : Nat) : (hexPad k n).length = k := by
  induction k generalizing n with
  | zero => rfl
  | succ k ih => simp [hexPad, ih]

theorem hyphened_append {a b : Str} {x y : List Nat} (ha : Hyphened a x) (hb : Hyphened b y) :
    Hyphened (a ++ b) (x ++ y) := by
  induction ha with
  | nil => exact hb
  | hyphen s ds _ ih => exact .hyphen _ _ ih
  | digit c d s ds hd _ ih => exact .digit _ _ _ _ hd ih

theorem hyphened_lower {s : Str} {ds : List Nat} (h : s.map some = ds.map fun d => lower[d]?) : Hyphened s ds := by
  induction s generalizing ds with
  | nil => cases ds with
    | nil => exact .nil
    | cons => cases h
  | cons c s ih => cases ds with
    | nil => cases h
    | cons d ds =>
      simp only [List.map_cons, List.cons.injEq] at h
      exact .digit _ _ _ _ (Or.inl h.1.symm) (ih h.2)

theorem map_split {ds : List Nat} {a b : Str} (h : (a ++ b).map some = ds.map fun d => lower[d]?) :
    ∃ x y, ds = x ++ y ∧ a.map some = x.map (fun d => lower[d]?) ∧ b.map some = y.map (fun d => lower[d]?) := by
  induction a generalizing ds with
  | nil => exact ⟨[], ds, rfl, rfl, h⟩
  | cons c a ih => cases ds with
    | nil => cases h
    | cons d ds =>
      simp only [List.cons_append, List.map_cons, List.cons.injEq] at h
      obtain ⟨x, y, e, h1, h2⟩ := ih h.2
      exact ⟨d :: x, y, by rw [e]; rfl, by simp [h.1, h1], h2⟩

/-- The canonical form is a spelling. -/
theorem C69_canonical_spelling {s : Str} {ds : List Nat} (h : Canonical s ds) : Spelling s ds := by
  obtain ⟨hl, a, b, c, d, e, rfl, _, _, _, _, _, hm⟩ := h
  refine .plain _ _ ?_ hl
  obtain ⟨x4, x5, rfl, h4, h5⟩ := map_split hm
  obtain ⟨x3, y3, rfl, h3, g3⟩ := map_split h4
  obtain ⟨x2, y2, rfl, h2, g2⟩ := map_split h3
  obtain ⟨x1, y1, rfl, h1, g1⟩ := map_split h2
  have r := hyphened_append (hyphened_lower h1) (.hyphen _ _ (hyphened_append (hyphened_lower g1)
    (.hyphen _ _ (hyphened_append (hyphened_lower g2) (.hyphen _ _ (hyphened_append (hyphened_lower g3)
      (.hyphen _ _ (hyphened_lower h5))))))))
  simpa using r

theorem groups (h : Str) :
    h.take 8 ++ (h.drop 8).take 4 ++ (h.drop 12).take 4 ++ (h.drop 16).take 4 ++ h.drop 20 = h := by
  have e : ∀ (i j : Nat), h.take i ++ (h.drop i).take j = h.take (i + j) := by
    intro i j; rw [List.take_add]
  have e1 := e 8 4
  have e2 := e 12 4
  have e3 := e 16 4
  rw [e1, e2, e3]
  exact List.take_append_drop 20 h

/-- What is written for a UUID is its canonical form. -/
theorem C69_write {n : Nat} (h : n < 2 ^ 128) : ∃ ds, value ds = n ∧ Canonical (to_json n) ds := by
  have hn : n < 16 ^ 32 := by norm_num at *; exact h
  refine ⟨digitsOf 32 n, value_digitsOf hn, digitsOf_length _ _, ?_⟩
  have hl := hexPad_length 32 n
  have hd := hexPad_lower 32 n
  unfold to_json text
  dsimp only
  generalize hexPad 32 n = s at *
  refine ⟨_, _, _, _, _, rfl, by simp [hl], by simp [hl], by simp [hl], by simp [hl], by simp [hl], ?_⟩
  rw [groups, hd]

/-- Whatever is written reads back. -/
theorem C69_roundtrip {n : Nat} (h : n < 2 ^ 128) : apply (.str (to_json n)) = .ok n := by
  obtain ⟨ds, hv, hc⟩ := C69_write h
  rw [C69_read (C69_canonical_spelling hc), hv]

/-! ## bytes -/

theorem value_append (x y : List Nat) : value (x ++ y) = value x * 16 ^ y.length + value y := by
  induction x with
  | nil => simp [value]
  | cons d x ih =>
    simp only [List.cons_append, value, ih, List.length_append, Nat.pow_add]
    ring

theorem flat_length (b : Bytes) : (b.flatMap fun x => [x.toNat / 16, x.toNat % 16]).length = 2 * b.length := by
  induction b with
  | nil => rfl
  | cons y b ih => rw [List.flatMap_cons, List.length_append, ih, List.length_cons]; simp; omega

theorem bytes_value (b : Bytes) (acc : Nat) : b.foldl (fun n x => n * 256 + x.toNat) acc =
    acc * 256 ^ b.length + value (b.flatMap fun x => [x.toNat / 16, x.toNat % 16]) := by
  induction b generalizing acc with
  | nil => simp [value]
  | cons x b ih =>
    rw [List.foldl_cons, ih, List.flatMap_cons, value_append]
    have hl := flat_length b
    rw [hl, Nat.pow_mul]
    have e : value [x.toNat / 16, x.toNat % 16] = x.toNat := by simp only [value, List.length_cons, List.length_nil]; omega
    rw [e, List.length_cons, Nat.pow_succ]
    norm_num
    ring

/-- Sixteen bytes are the UUID whose digits are those of the bytes in order; any other number of bytes
is refused. -/
theorem C69_bytes (b : Bytes) :
    apply (.bytes b) = if b.length = 16 then .ok (value (b.flatMap fun x => [x.toNat / 16, x.toNat % 16]))
      else .error .ValueError := by
  simp only [apply, ofBytes]
  by_cases h : b.length = 16
  · rw [if_neg (by simpa using h), if_pos h, bytes_value]; simp
  · rw [if_pos h, if_neg h]

/-! ## refusals -/

theorem replaceGo_length (old : Str) (k : Nat) (s : Str) : (replaceGo old [] k s).length ≤ s.length := by
  induction s generalizing k with
  | nil => cases k <;> simp [replaceGo]
  | cons x s ih =>
    cases k with
    | succ k => rw [replaceGo]; exact Nat.le_succ_of_le (ih k)
    | zero =>
      rw [replaceGo]
      split
      · simpa using Nat.le_succ_of_le (ih _)
      · simpa using ih 0

theorem dropWhile_length (p : Char → Bool) (s : Str) : (s.dropWhile p).length ≤ s.length :=
  (List.dropWhile_sublist p).length_le

theorem clean_length (s : Str) : (clean s).length ≤ s.length := by
  unfold clean replace stripBy
  refine Nat.le_trans (replaceGo_length _ _ _) ?_
  rw [List.length_reverse]
  refine Nat.le_trans (dropWhile_length _ _) ?_
  rw [List.length_reverse]
  refine Nat.le_trans (dropWhile_length _ _) ?_
  exact Nat.le_trans (replaceGo_length _ _ _) (replaceGo_length _ _ _)

theorem ofText_error {s : Str} {e : Exc} (h : ofText s = .error e) : e = .ValueError := by
  unfold ofText at h
  dsimp only at h
  split at h
  · cases h; rfl
  · split at h
    · cases h
    · cases h; rfl

/-- A text that is not read raises `ValueError`, unless it has 16 characters. -/
theorem C69_refused {s : Str} {e : Exc} (h : apply (.str s) = .error e) :
    e = if s.length = 16 then .AssertionError else .ValueError := by
  have : apply (.str s) = ofTextAsBytes s := by
    simp only [apply] at h ⊢
    cases ho : ofText s with
    | ok n => rw [ho] at h; cases h
    | error e' => rw [ofText_error ho]
  rw [this] at h
  unfold ofTextAsBytes at h
  split at h
  · next hl => cases h; rw [if_neg hl]
  · next hl => cases h; rw [if_pos (by omega)]

/-- Text of less than 32 characters is never read. -/
theorem C69_short {s : Str} (h : s.length < 32) : ∃ e, apply (.str s) = .error e := by
  have hl : (clean s).length ≠ 32 := by have := clean_length s; omega
  simp only [apply, ofText, if_pos hl, ofTextAsBytes]
  split
  · exact ⟨_, rfl⟩
  · exact ⟨_, rfl⟩

/-- what a text that is read may contain: digits, the marks of the spellings, and what `int(…, 16)`
tolerates -/
def tolerated (c : Char) : Bool :=
  (hexVal? c).isSome || c = '_' || c = '+' || c = 'x' || c = 'X' || isSpace c ||
    c!"urn:uuid:{}-".contains c

theorem mem_replaceGo (old : Str) (hne : old ≠ []) {c : Char} (hc : c ∉ old) (s : Str) (k : Nat) (hk : c ∉ s.take k) (hm : c ∈ s) :
    c ∈ replaceGo old [] k s := by
  induction s generalizing k with
  | nil => cases hm
  | cons x s ih =>
    cases k with
    | succ k =>
      rw [replaceGo]
      simp only [List.take_succ_cons, List.mem_cons, not_or] at hk
      exact ih k hk.2 (by rcases List.mem_cons.1 hm with e | e; exact absurd e hk.1; exact e)
    | zero =>
      rw [replaceGo]
      split
      · next hp =>
        have hp := List.isPrefixOf_iff_prefix.1 hp
        obtain ⟨t, ht⟩ := hp
        cases old with
        | nil => exact absurd rfl hne
        | cons o os =>
          simp only [List.cons_append, List.cons.injEq] at ht
          simp only [List.mem_cons, not_or] at hc
          rw [List.nil_append]
          refine ih _ ?_ ?_
          · simp only [List.length_cons, Nat.add_sub_cancel]
            rw [← ht.2, List.take_left]
            exact hc.2
          · rcases List.mem_cons.1 hm with e | e
            · exact absurd (e.trans ht.1.symm) hc.1
            · exact e
      · rcases List.mem_cons.1 hm with e | e
        · rw [e]; exact List.mem_cons_self ..
        · exact List.mem_cons_of_mem _ (ih 0 (by simp) e)

theorem mem_dropWhile {p : Char → Bool} {s : Str} {c : Char} (hm : c ∈ s) (hp : p c = false) : c ∈ s.dropWhile p := by
  induction s with
  | nil => cases hm
  | cons x s ih =>
    rw [List.dropWhile_cons]
    split
    · next hx =>
      rcases List.mem_cons.1 hm with e | e
      · rw [e, hx] at hp; cases hp
      · exact ih e
    · exact hm

theorem mem_stripBy {p : Char → Bool} {s : Str} {c : Char} (hm : c ∈ s) (hp : p c = false) : c ∈ stripBy p s := by
  unfold stripBy
  rw [List.mem_reverse]
  refine mem_dropWhile ?_ hp
  rw [List.mem_reverse]
  exact mem_dropWhile hm hp

theorem mem_clean {s : Str} {c : Char} (hm : c ∈ s) (hc : c!"urn:uuid:{}-".contains c = false) : c ∈ clean s := by
  have hc' : c ∉ c!"urn:uuid:{}-" := by
    intro h; rw [← List.contains_iff_mem, hc] at h; cases h
  simp only [List.mem_cons, List.not_mem_nil, or_false, not_or] at hc'
  obtain ⟨h1, h2, h3, h4, h5, h6, h7, h8, h9, h10, h11, h12⟩ := hc'
  unfold clean replace
  refine mem_replaceGo _ (by simp) (by simp [h12]) _ 0 (by simp) ?_
  refine mem_stripBy ?_ (by simp [h10, h11])
  refine mem_replaceGo _ (by simp) (by simp [h1, h7, h8, h4]) _ 0 (by simp) ?_
  exact mem_replaceGo _ (by simp) (by simp [h1, h2, h3, h4]) _ 0 (by simp) hm

theorem hexGo_chars {s : Str} {acc : Nat} {us : Bool} {n : Nat} (h : hexGo acc us s = some n) :
    ∀ c ∈ s, (hexVal? c).isSome = true ∨ c = '_' := by
  induction s generalizing acc us with
  | nil => simp
  | cons x s ih =>
    rw [hexGo] at h
    intro c hc
    split at h
    · next hx =>
      split at h
      · cases h
      · rcases List.mem_cons.1 hc with e | e
        · exact Or.inr (e.trans hx)
        · exact ih h c e
    · split at h
      · next d hd =>
        rcases List.mem_cons.1 hc with e | e
        · rw [e, hd]; exact Or.inl rfl
        · exact ih h c e
      · cases h

theorem hexBody_chars {s : Str} {n : Nat} (h : hexBody s = some n) :
    ∀ c ∈ s, (hexVal? c).isSome = true ∨ c = '_' := by
  cases s with
  | nil => cases h
  | cons x s =>
    rw [hexBody] at h
    split at h
    · cases h
    · exact hexGo_chars h

theorem mem_dropPrefix {s : Str} {c : Char} (hm : c ∈ s) :
    c ∈ dropPrefix s ∨ c = '0' ∨ c = 'x' ∨ c = 'X' ∨ c = '_' := by
  unfold dropPrefix
  split
  · next x t =>
    split
    · next hx =>
      have : c = '0' ∨ c = x ∨ c ∈ t := by simpa using hm
      rcases this with e | e | e
      · exact Or.inr (Or.inl e)
      · rcases hx with hx | hx
        · exact Or.inr (Or.inr (Or.inl (e.trans hx)))
        · exact Or.inr (Or.inr (Or.inr (Or.inl (e.trans hx))))
      · split
        · next t' =>
          rcases List.mem_cons.1 e with e | e
          · exact Or.inr (Or.inr (Or.inr (Or.inr e)))
          · exact Or.inl e
        · exact Or.inl e
    · exact Or.inl hm
  · exact Or.inl hm

theorem int16_chars {s : Str} {n : Nat} (h : int16 s = some n) : ∀ c ∈ s,
    (hexVal? c).isSome = true ∨ c = '_' ∨ c = '+' ∨ c = 'x' ∨ c = 'X' ∨ isSpace c = true := by
  intro c hc
  have key : ∀ t : Str, hexBody (dropPrefix t) = some n → c ∈ t →
      (hexVal? c).isSome = true ∨ c = '_' ∨ c = '+' ∨ c = 'x' ∨ c = 'X' ∨ isSpace c = true := by
    intro t ht hm
    rcases mem_dropPrefix hm with e | e | e | e | e
    · rcases hexBody_chars ht c e with e | e
      · exact Or.inl e
      · exact Or.inr (Or.inl e)
    · subst e; exact Or.inl (by decide)
    · exact Or.inr (Or.inr (Or.inr (Or.inl e)))
    · exact Or.inr (Or.inr (Or.inr (Or.inr (Or.inl e))))
    · exact Or.inr (Or.inl e)
  cases hsp : isSpace c with
  | true => simp
  | false =>
    have hm := mem_stripBy hc hsp
    unfold int16 at h
    rw [← hsp]
    split at h
    · next t ht =>
      rw [ht] at hm
      rcases List.mem_cons.1 hm with e | e
      · exact Or.inr (Or.inr (Or.inl e))
      · exact key t h e
    · exact key _ h hm

/-- A text with any other character than digits, the marks of the spellings and what `int(…, 16)`
tolerates is not read. -/
theorem C69_strange {s : Str} {c : Char} (hm : c ∈ s) (hc : tolerated c = false) :
    ∃ e, apply (.str s) = .error e := by
  simp only [tolerated, Bool.or_eq_false_iff, decide_eq_false_iff_not] at hc
  obtain ⟨⟨⟨⟨⟨⟨h1, h2⟩, h3⟩, h4⟩, h5⟩, h6⟩, h7⟩ := hc
  have hno : ∀ n, int16 (clean s) ≠ some n := by
    intro n hn
    rcases int16_chars hn c (mem_clean hm h7) with e | e | e | e | e | e
    · rw [h1] at e; cases e
    · exact h2 e
    · exact h3 e
    · exact h4 e
    · exact h5 e
    · rw [h6] at e; cases e
  have : ofText s = .error .ValueError := by
    unfold ofText
    dsimp only
    split
    · rfl
    · cases hi : int16 (clean s) with
      | none => rfl
      | some n => exact absurd hi (hno n)
  simp only [apply, this, ofTextAsBytes]
  split
  · exact ⟨_, rfl⟩
  · exact ⟨_, rfl⟩

/-- Badly formed text does not always raise `ValueError`. -/
theorem C69_error_false : ¬ ∀ s e, apply (.str s) = .error e → e = .ValueError := by
  intro h
  exact absurd (h c!"0123456789abcdef" .AssertionError (by decide)) (by decide)

/-- Not only spellings are read: a plus sign, an underscore, white space and `0x` count as digits. -/
theorem C69_spellings_false : ∃ s n, apply (.str s) = .ok n ∧ ∀ ds, ¬ Spelling s ds := by
  refine ⟨c!"+0x_0123456789abcdef0123456789a ", 0x0123456789abcdef0123456789a, by decide +kernel, ?_⟩
  intro ds h
  have hd := (clean_spelling h).1
  obtain ⟨d, hd⟩ := hd.facts '+' (by decide)
  exact (digit_facts hd).2.2.2.2.2.2.1 rfl

/-! ## Cases -/

example : to_json 0x12345678123456781234567812345678 = c!"12345678-1234-5678-1234-567812345678" := by decide +kernel
example : apply (.str c!"{12345678-1234-5678-1234-567812345678}") = .ok 0x12345678123456781234567812345678 ∧
    apply (.str c!"urn:uuid:12345678-1234-5678-1234-567812345678") = .ok 0x12345678123456781234567812345678 ∧
    apply (.str c!"123456781234567812345678123456AB") = .ok 0x123456781234567812345678123456ab := by decide +kernel
example : apply (.bytes (List.range 16 |>.map fun n => n.toUInt8)) = .ok 0x000102030405060708090a0b0c0d0e0f := by
  decide +kernel

end Props.C69
