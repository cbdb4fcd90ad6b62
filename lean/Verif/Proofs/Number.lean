import Verif.Py.Number
import Verif.Spec.Json
import Mathlib.Algebra.GroupWithZero.Basic
import Mathlib.Algebra.Field.Rat
import Mathlib.Algebra.Order.Field.Basic
import Mathlib.Tactic.NormNum
import Mathlib.Tactic.FieldSimp
import Mathlib.Tactic.Ring
/-! `int(s)` and `float(s)` read the texts of integers and floats. -/

namespace Py

theorem stripBy_id {p : Char → Bool} {s : Str} (h : ∀ c ∈ s, p c = false) : Uuid.stripBy p s = s := by
  have hd : ∀ s : Str, (∀ c ∈ s, p c = false) → s.dropWhile p = s := by
    intro s hs
    cases s with
    | nil => rfl
    | cons c s => rw [List.dropWhile_cons, if_neg (by simp [hs c])]
  unfold Uuid.stripBy
  rw [hd s h, hd s.reverse (by simpa using h), List.reverse_reverse]

theorem dropUnderscores_id {s : Str} (h : '_' ∉ s) : ∀ b, dropUnderscores b s = some s := by
  induction s with
  | nil => intro b; rfl
  | cons c s ih =>
    intro b
    simp only [List.mem_cons, not_or] at h
    rw [dropUnderscores.eq_def]
    simp only [if_neg (fun e : c = '_' => h.1 e.symm), ih h.2, Option.map_some]

theorem natStr_digits (n : Nat) : ∀ c ∈ natStr n, ∃ d : Fin 10, c = Nat.digitChar d.1 := by
  induction n using Nat.strongRecOn with
  | _ n ih =>
    intro c hc
    rw [natStr] at hc
    by_cases h : n < 10
    · rw [if_pos h] at hc
      exact ⟨⟨n, h⟩, by simpa using hc⟩
    · rw [if_neg h, List.mem_append] at hc
      rcases hc with hc | hc
      · exact ih _ (by omega) c hc
      · exact ⟨⟨n % 10, by omega⟩, by simpa using hc⟩

theorem intStr_chars (m : Int) : ∀ c ∈ intStr m, c = '-' ∨ ∃ d : Fin 10, c = Nat.digitChar d.1 := by
  intro c hc
  cases m with
  | ofNat n => exact .inr (natStr_digits n c hc)
  | negSucc n =>
    simp only [intStr, List.mem_cons] at hc
    exact hc.imp id (natStr_digits _ c)

theorem plain_digit : ∀ d : Fin 10, Uuid.isSpace (Nat.digitChar d.1) = false ∧ Nat.digitChar d.1 ≠ '_' ∧
    Nat.digitChar d.1 ∉ [',', ' ', '\t', '|'] := by decide

theorem intOfText_intStr (m : Int) : intOfText (intStr m) = some m := by
  unfold intOfText
  rw [stripBy_id, dropUnderscores_id, Option.bind_some, intOf_intStr]
  · intro hc
    rcases intStr_chars m _ hc with h | ⟨d, h⟩
    · exact absurd h (by decide)
    · exact (plain_digit d).2.1 h.symm
  · intro c hc
    rcases intStr_chars m _ hc with rfl | ⟨d, rfl⟩
    · decide
    · exact (plain_digit d).1

/-! ## floats -/

open Spec.Json (isDigits natVal withFrac withExp Number FloatText plainInt)

theorem scale_eq (m : Nat) (z : Int) : scale m z = (m : Rat) * (10 : Rat) ^ z := by
  cases z with
  | ofNat e => simp [scale]
  | negSucc e => simp [scale, zpow_negSucc, div_eq_mul_inv]

theorem isDigits_iff {s : Str} : isDigits s = true ↔ s ≠ [] ∧ ∀ c ∈ s, isDigit c = true := by
  simp [isDigits, isDigit]

theorem digitVal_of_isDigit {c : Char} (h : isDigit c = true) : ∃ d, digitVal? c = some d := by
  simp only [isDigit, Bool.and_eq_true, decide_eq_true_eq] at h
  exact ⟨_, if_pos h⟩

theorem digitsVal_digits {s : Str} (h : ∀ c ∈ s, isDigit c = true) (a : Nat) : ∃ n, digitsVal a s = some n := by
  induction s generalizing a with
  | nil => exact ⟨a, rfl⟩
  | cons c s ih =>
    obtain ⟨d, hd⟩ := digitVal_of_isDigit (h c (by simp))
    simp only [digitsVal, hd]
    exact ih (fun x hx => h x (by simp [hx])) _

theorem natOf_digits {s : Str} (h : isDigits s = true) : natOf? s = some (natVal s) := by
  obtain ⟨h1, h2⟩ := isDigits_iff.1 h
  obtain ⟨n, hn⟩ := digitsVal_digits h2 0
  cases s with
  | nil => exact absurd rfl h1
  | cons c s => simp only [natOf?, natVal, hn]; rfl

/-- a text that does not go on with a digit -/
def Stops (s : Str) : Prop := ∀ c r, s = c :: r → isDigit c = false

theorem takeWhile_stops {a r : Str} (ha : ∀ c ∈ a, isDigit c = true) (hr : Stops r) :
    (a ++ r).takeWhile isDigit = a ∧ (a ++ r).dropWhile isDigit = r := by
  induction a with
  | nil =>
    cases r with
    | nil => exact ⟨rfl, rfl⟩
    | cons c r =>
      have := hr c r rfl
      simp [List.takeWhile_cons, List.dropWhile_cons, this]
  | cons c a ih =>
    have := ih fun x hx => ha x (by simp [hx])
    simp [List.takeWhile_cons, List.dropWhile_cons, ha c (by simp), this]

theorem intOf_digits {s : Str} (h : isDigits s = true) : intOf? s = some (natVal s : Int) ∧
    intOf? ('+' :: s) = some (natVal s : Int) ∧ intOf? ('-' :: s) = some (-(natVal s : Int)) := by
  have hn := natOf_digits h
  refine ⟨?_, by simp [intOf?, hn], by simp [intOf?, hn]⟩
  obtain ⟨h1, h2⟩ := isDigits_iff.1 h
  unfold intOf?
  split
  · exact absurd (h2 '-' (by simp)) (by decide)
  · exact absurd (h2 '+' (by simp)) (by decide)
  · simp [hn]

/-- the text of a fraction and that of an exponent -/
def fracText : Option Str → Str
  | some f => '.' :: f
  | none => []

theorem decimalOf_number {a : Str} {f : Option Str} {r : Str} {z : Int} (ha : isDigits a = true)
    (hf : ∀ x, f = some x → isDigits x = true) (hr : expOf? r = some z) (hs : Stops r) (hdot : ∀ x, r ≠ '.' :: x) :
    decimalOf? (a ++ (fracText f ++ r)) = some (scale (natVal (a ++ f.getD [])) (z - (f.getD []).length)) := by
  have hstop : Stops (fracText f ++ r) := by
    intro c x hx
    cases f with
    | none => exact hs c x hx
    | some f => simp only [fracText, List.cons_append, List.cons.injEq] at hx; rw [← hx.1]; rfl
  obtain ⟨t1, t2⟩ := takeWhile_stops (isDigits_iff.1 ha).2 hstop
  have hdig : isDigits (a ++ f.getD []) = true := by
    rw [isDigits_iff]
    refine ⟨by simp [(isDigits_iff.1 ha).1], fun c hc => ?_⟩
    rcases List.mem_append.1 hc with hc | hc
    · exact (isDigits_iff.1 ha).2 c hc
    · cases f with
      | none => cases hc
      | some f => exact (isDigits_iff.1 (hf f rfl)).2 c hc
  unfold decimalOf?
  rw [t1, t2]
  cases f with
  | some f =>
    obtain ⟨u1, u2⟩ := takeWhile_stops (isDigits_iff.1 (hf f rfl)).2 hs
    simp only [fracText, List.cons_append, u1, u2, hr]
    have := natOf_digits hdig
    simp only [Option.getD_some] at this
    rw [this]
    rfl
  | none =>
    have := natOf_digits hdig
    simp only [Option.getD_none, List.append_nil] at this
    cases r with
    | nil => simp only [fracText, List.append_nil, this, hr, Option.getD_none]
    | cons c r =>
      simp [fracText, this, hr]

theorem scale_rat (a : Str) (f : Option Str) (x : Option (Bool × Str)) :
    scale (natVal (a ++ f.getD [])) ((match x with
      | none => 0
      | some (false, e) => (natVal e : Int)
      | some (true, e) => -(natVal e : Int)) - (f.getD []).length) = withExp (withFrac a f) x := by
  have h10 : (10 : Rat) ≠ 0 := by norm_num
  rw [scale_eq, zpow_sub₀ h10, zpow_natCast]
  have hfrac : withFrac a f = (natVal (a ++ f.getD []) : Rat) / (10 : Rat) ^ (f.getD []).length := by
    cases f with
    | none => simp [withFrac]
    | some f => simp [withFrac]
  rw [show withExp (withFrac a f) x = _ from rfl, hfrac]
  match x with
  | none => simp [withExp, div_eq_mul_inv]
  | some (false, e) =>
    simp only [withExp, zpow_natCast, Nat.cast_pow, Nat.cast_ofNat]
    ring
  | some (true, e) =>
    simp only [withExp, zpow_neg, zpow_natCast, Nat.cast_pow, Nat.cast_ofNat]
    ring

theorem digit_plain {c : Char} (h : isDigit c = true) : Uuid.isSpace c = false ∧ c ≠ '_' ∧ c ≠ '-' ∧ c ≠ '+' ∧
    c ≠ 'i' ∧ c ≠ 'n' ∧ c ≠ '.' ∧ ¬ ('A' ≤ c ∧ c ≤ 'Z') := by
  simp only [isDigit, Bool.and_eq_true, decide_eq_true_eq] at h
  obtain ⟨h1, h2⟩ := h
  have h1 : 48 ≤ c.toNat := h1
  have h2 : c.toNat ≤ 57 := h2
  have hA : ¬ ('A' ≤ c ∧ c ≤ 'Z') := by
    rintro ⟨h, -⟩
    have h : 65 ≤ c.toNat := h
    omega
  refine ⟨?_, ?_, ?_, ?_, ?_, ?_, ?_, hA⟩
  · simp only [Uuid.isSpace, Bool.or_eq_false_iff, Bool.and_eq_false_iff, decide_eq_false_iff_not]
    omega
  all_goals (rintro rfl; revert h1 h2; decide)

theorem floatOfText_parts {neg : Bool} {a : Str} {f : Option Str} {r : Str} {z : Int} (ha : isDigits a = true)
    (h2 : ∀ x, f = some x → isDigits x = true) (hexp : expOf? r = some z) (hstop : Stops r) (hdot : ∀ x, r ≠ '.' :: x)
    (hr : ∀ y ∈ r, Uuid.isSpace y = false ∧ y ≠ '_') :
    floatOfText ((if neg then c!"-" else []) ++ (a ++ (fracText f ++ r))) =
      some (.fin (if neg then -(scale (natVal (a ++ f.getD [])) (z - (f.getD []).length))
        else scale (natVal (a ++ f.getD [])) (z - (f.getD []).length))) := by
  have hdec := decimalOf_number (f := f) ha h2 hexp hstop hdot
  generalize scale (natVal (a ++ f.getD [])) (z - (f.getD []).length) = q at hdec
  have hdg : ∀ y, isDigit y = true → Uuid.isSpace y = false ∧ y ≠ '_' := fun y hy => ⟨(digit_plain hy).1, (digit_plain hy).2.1⟩
  have hplain : ∀ y ∈ a ++ (fracText f ++ r), Uuid.isSpace y = false ∧ y ≠ '_' := by
    intro y hy
    rw [List.mem_append, List.mem_append] at hy
    rcases hy with hy | hy | hy
    · exact hdg y ((isDigits_iff.1 ha).2 y hy)
    · cases f with
      | none => cases hy
      | some f =>
        simp only [fracText, List.mem_cons] at hy
        rcases hy with rfl | hy
        · decide
        · exact hdg y ((isDigits_iff.1 (h2 f rfl)).2 y hy)
    · exact hr y hy
  generalize hb : a ++ (fracText f ++ r) = b at *
  obtain ⟨c, b', rfl, hc⟩ : ∃ c b', b = c :: b' ∧ isDigit c = true := by
    cases a with
    | nil => exact absurd ha (by decide)
    | cons c a => exact ⟨c, _, by rw [← hb]; rfl, (isDigits_iff.1 ha).2 c (by simp)⟩
  obtain ⟨-, -, n1, n2, n3, n4, -, n5⟩ := digit_plain hc
  have hun : unsignedOf? (c :: b') = some (.fin q) := by
    unfold unsignedOf?
    simp only [List.map_cons, if_neg n5]
    rw [if_neg, if_neg, hdec]
    · rfl
    · intro h; simp only [List.cons.injEq] at h; exact n4 h.1
    · rintro (h | h) <;> simp only [List.cons.injEq] at h <;> exact n3 h.1
  have hall : ∀ y ∈ (if neg then c!"-" else []) ++ (c :: b'), Uuid.isSpace y = false ∧ y ≠ '_' := by
    intro y hy
    rcases List.mem_append.1 hy with hy | hy
    · cases neg
      · cases hy
      · simp only [if_true, List.mem_singleton] at hy; subst hy; decide
    · exact hplain y hy
  unfold floatOfText
  rw [stripBy_id fun y hy => (hall y hy).1, dropUnderscores_id fun hy => (hall _ hy).2 rfl, Option.bind_some]
  cases neg
  · simp only [Bool.false_eq_true, if_false, List.nil_append]
    unfold signedOf?
    split
    · next h => cases h; exact absurd rfl n1
    · next h => cases h; exact absurd rfl n2
    · exact hun
  · simp only [if_true]
    show signedOf? ('-' :: (c :: b')) = _
    rw [signedOf?, hun]
    rfl

theorem floatOfText_floatText {s : Str} {q : Rat} (h : FloatText s q) : floatOfText s = some (.fin q) := by
  obtain ⟨⟨neg, a, f, ex⟩, h1, h2, h3, -, rfl, sign, letter, hs, hl, rfl⟩ := h
  have ha : isDigits a = true := by
    simp only [plainInt, Bool.and_eq_true] at h1
    exact h1.1
  have hletter : letter = 'e' ∨ letter = 'E' := by simpa using hl
  have hsign : sign = [] ∨ sign = ['+'] := by simpa using hs
  have hle : isDigit letter = false ∧ letter ≠ '.' ∧ Uuid.isSpace letter = false ∧ letter ≠ '_' := by
    rcases hletter with rfl | rfl <;> decide
  have hdg : ∀ e : Str, isDigits e = true → ∀ y ∈ e, Uuid.isSpace y = false ∧ y ≠ '_' := fun e he y hy =>
    ⟨(digit_plain ((isDigits_iff.1 he).2 y hy)).1, (digit_plain ((isDigits_iff.1 he).2 y hy)).2.1⟩
  dsimp only at h2 h3 ⊢
  rw [List.append_assoc, List.append_assoc]
  change floatOfText (_ ++ (a ++ (fracText f ++ _))) = _
  match ex with
  | none =>
    rw [floatOfText_parts (z := 0) ha h2 rfl (by intro c r h; cases h) (by intro r h; cases h) (by intro y h; cases h)]
    have hx : scale (natVal (a ++ f.getD [])) ((0 : Int) - (f.getD []).length) = _ := scale_rat a f ((none : Option (Bool × Str)))
    rw [hx]
    rfl
  | some (true, e) =>
    have he := h3 _ _ rfl
    rw [floatOfText_parts (z := -(natVal e : Int)) ha h2 (by simp only [expOf?, hletter, if_true, (intOf_digits he).2.2])
      (by intro c r h; cases h; exact hle.1) (by intro r h; cases h; exact hle.2.1 rfl) (by
        intro y hy
        simp only [List.mem_cons] at hy
        rcases hy with rfl | rfl | hy
        · exact hle.2.2
        · decide
        · exact hdg e he y hy)]
    have hx : scale (natVal (a ++ f.getD [])) (-(natVal e : Int) - (f.getD []).length) = _ := scale_rat a f (some (true, e))
    rw [hx]
    rfl
  | some (false, e) =>
    have he := h3 _ _ rfl
    rw [floatOfText_parts (z := (natVal e : Int)) ha h2 (by
        simp only [expOf?, hletter, if_true]
        rcases hsign with rfl | rfl
        · exact (intOf_digits he).1
        · exact (intOf_digits he).2.1)
      (by intro c r h; cases h; exact hle.1) (by intro r h; cases h; exact hle.2.1 rfl) (by
        intro y hy
        simp only [List.mem_cons, List.mem_append] at hy
        rcases hy with rfl | hy | hy
        · exact hle.2.2
        · rcases hsign with rfl | rfl
          · cases hy
          · rw [List.mem_singleton] at hy; subst hy; decide
        · exact hdg e he y hy)]
    have hx : scale (natVal (a ++ f.getD [])) ((natVal e : Int) - (f.getD []).length) = _ := scale_rat a f (some (false, e))
    rw [hx]
    rfl

end Py
