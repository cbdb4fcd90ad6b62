import Verif.Py.Calendar
import Verif.Proofs.Random
import Verif.Spec.Calendar
import Mathlib.Algebra.Order.Field.Rat
import Mathlib.Tactic.Linarith
import Mathlib.Tactic.Ring
import Mathlib.Tactic.NormNum
import Mathlib.Tactic.FieldSimp
/-! # Lemmas on the calendar -/

namespace Proofs.Calendar
open Py Spec.Calendar

theorem dim_pos (y m : Nat) : 28 ≤ daysInMonth y m := by
  unfold daysInMonth
  split
  · split <;> omega
  · split <;> omega

/-- a day from 1970 on, without an end of the calendar -/
def Real (d : Date) : Prop := 1970 ≤ d.year ∧ 1 ≤ d.month ∧ d.month ≤ 12 ∧ 1 ≤ d.day ∧ d.day ≤ daysInMonth d.year d.month

theorem next_real {d : Date} (h : Real d) : Real d.next := by
  obtain ⟨h1, h2, h3, h4, h5⟩ := h
  unfold Date.next
  split
  · exact ⟨h1, h2, h3, by simp, by simpa using ‹_›⟩
  · split
    · refine ⟨h1, by simp, by simp; omega, by simp, ?_⟩
      have := dim_pos d.year (d.month + 1)
      simp; omega
    · refine ⟨by simp; omega, by simp, by simp, by simp, ?_⟩
      have := dim_pos (d.year + 1) 1
      simp; omega

theorem dayOf_next {d : Date} (h : Real d) : dayOf d.next = dayOf d + 1 := by
  obtain ⟨h1, h2, h3, h4, h5⟩ := h
  obtain ⟨y, m, a⟩ := d
  simp only at h1 h2 h3 h4 h5
  unfold Date.next dayOf
  simp only
  split
  · simp only; omega
  · obtain ⟨m, rfl⟩ : ∃ k, m = k + 1 := ⟨m - 1, by omega⟩
    split
    · simp only [Nat.add_sub_cancel, daysOfMonths]; omega
    · have : m = 11 := by omega
      subst this
      obtain ⟨k, rfl⟩ : ∃ k, y = 1970 + k := ⟨y - 1970, by omega⟩
      rw [show 1970 + k + 1 - 1970 = k + 1 by omega, show 1970 + k - 1970 = k by omega]
      simp only [daysOfYears, daysOfMonths, Nat.add_sub_cancel, Nat.sub_self] at *
      omega

theorem dateOfDay_real (n : Nat) : Real (dateOfDay n) := by
  induction n with
  | zero => exact ⟨by decide, by decide, by decide, by decide, by decide⟩
  | succ n ih => exact next_real ih

theorem dayOf_dateOfDay (n : Nat) : dayOf (dateOfDay n) = n := by
  induction n with
  | zero => decide
  | succ n ih => rw [dateOfDay, dayOf_next (dateOfDay_real n), ih]

theorem months_mono (y : Nat) {a b : Nat} (h : a ≤ b) : daysOfMonths y a ≤ daysOfMonths y b := by
  induction b with
  | zero => rw [Nat.le_zero.1 h]
  | succ b ih =>
    by_cases e : a = b + 1
    · rw [e]
    · have := ih (by omega)
      simp only [daysOfMonths]; omega

theorem years_mono {a b : Nat} (h : a ≤ b) : daysOfYears a ≤ daysOfYears b := by
  induction b with
  | zero => rw [Nat.le_zero.1 h]
  | succ b ih =>
    by_cases e : a = b + 1
    · rw [e]
    · have := ih (by omega)
      simp only [daysOfYears]; omega

theorem dayOf_lt {a b : Date} (ha : Real a) (hb : Real b) (h : Before a b) : dayOf a < dayOf b := by
  obtain ⟨a1, a2, a3, a4, a5⟩ := ha
  obtain ⟨b1, b2, b3, b4, b5⟩ := hb
  obtain ⟨y, m, d⟩ := a
  obtain ⟨y', m', d'⟩ := b
  simp only [Before] at *
  unfold dayOf
  simp only
  have hm : daysOfMonths y m = daysOfMonths y (m - 1) + daysInMonth y m := by
    obtain ⟨k, rfl⟩ : ∃ k, m = k + 1 := ⟨m - 1, by omega⟩
    rfl
  rcases h with h | ⟨rfl, h | ⟨rfl, h⟩⟩
  · have := months_mono y a3
    have hy : daysOfYears (y - 1970 + 1) = daysOfYears (y - 1970) + daysOfMonths y 12 := by
      rw [daysOfYears, show 1970 + (y - 1970) = y by omega]
    have := years_mono (show y - 1970 + 1 ≤ y' - 1970 by omega)
    omega
  · have := months_mono y (show m ≤ m' - 1 by omega)
    omega
  · omega

/-- one of two days is not before the other -/
theorem not_before {a b : Date} (ha : Real a) (hb : Real b) (h : dayOf a ≤ dayOf b) : ¬ Before b a := fun hn => by
  have := dayOf_lt hb ha hn
  omega

theorem lastDay : dayOf ⟨2038, 1, 19⟩ = 24855 := by decide +kernel
theorem firstDay : dayOf ⟨1970, 1, 2⟩ = 1 := by decide +kernel

theorem run_uniform {a b : Rat} {r : Ends Rat} :
    Run (uniform a b) r ↔ ∃ k : Nat, k < 2 ^ 53 ∧ r = .value (a + (b - a) * ((k : Rat) / 2 ^ 53)) := by
  unfold uniform
  rw [run_bind]
  constructor
  · rintro (⟨q, h1, h2⟩ | ⟨e, h, _⟩ | ⟨h, _⟩)
    · obtain ⟨k, hk, e⟩ := run_random.1 h1
      cases e
      exact ⟨k, hk, run_ret.1 h2⟩
    · obtain ⟨k, hk, e⟩ := run_random.1 h
      cases e
    · obtain ⟨k, hk, e⟩ := run_random.1 h
      cases e
  · rintro ⟨k, hk, rfl⟩
    exact .inl ⟨_, run_random.2 ⟨k, hk, rfl⟩, .ret _⟩

/-- the day of the time drawn for a date -/
theorem drawn_day (tz : Int) (i : Nat) :
    dateAt tz (mktime tz ⟨1970, 1, 2⟩ + (mktime tz ⟨2038, 1, 19⟩ - mktime tz ⟨1970, 1, 2⟩) * ((i : Rat) / 2 ^ 53)) =
      dateOfDay (1 + 24854 * i / 2 ^ 53) := by
  unfold dateAt mktime
  rw [lastDay, firstDay]
  congr 1
  have hq : ((86400 * 1 : Nat) : Rat) - (tz : Rat) + (((86400 * 24855 : Nat) : Rat) - tz - (((86400 * 1 : Nat) : Rat) - tz)) * ((i : Rat) / 2 ^ 53) + tz =
      86400 * (1 + (24854 * i : Nat) / (2 ^ 53 : Nat)) := by
    push_cast; ring
  rw [hq]
  have k1 : 24854 * i / 2 ^ 53 * 2 ^ 53 ≤ 24854 * i := Nat.div_mul_le_self _ _
  have k2 : 24854 * i < (24854 * i / 2 ^ 53 + 1) * 2 ^ 53 := by
    have := Nat.lt_div_mul_add (a := 24854 * i) (b := 2 ^ 53) (by decide)
    omega
  generalize 24854 * i / 2 ^ 53 = k at *
  generalize 24854 * i = n at *
  have r1 : (k : Rat) ≤ (n : Rat) / (2 ^ 53 : Nat) := by
    rw [le_div_iff₀ (by norm_num)]
    exact_mod_cast k1
  have r2 : (n : Rat) / (2 ^ 53 : Nat) < k + 1 := by
    rw [div_lt_iff₀ (by norm_num)]
    exact_mod_cast k2
  generalize (n : Rat) / (2 ^ 53 : Nat) = x at *
  have f1 : (86400 * (1 + k : Nat) : Int) ≤ (86400 * (1 + x)).floor := by
    rw [Rat.le_floor_iff]
    push_cast; linarith
  have f2 : (86400 * (1 + x)).floor < (86400 * (2 + k : Nat) : Int) := by
    rw [Rat.floor_lt_iff]
    push_cast; linarith
  omega

/-- every day but the last can be drawn -/
theorem drawn_all {n : Nat} (h1 : 1 ≤ n) (h2 : n < 24855) : ∃ i, i < 2 ^ 53 ∧ 1 + 24854 * i / 2 ^ 53 = n := by
  refine ⟨((n - 1) * 2 ^ 53 + 24853) / 24854, by omega, by omega⟩

theorem real_valid {d : Date} (h : Real d) (hy : d.year ≤ 9999) : d.Valid :=
  ⟨by have := h.1; omega, hy, h.2.1, h.2.2.1, h.2.2.2.1, h.2.2.2.2⟩

/-- days from their numbers -/
theorem before_iff {a b : Date} (ha : Real a) (hb : Real b) : Before a b ↔ dayOf a < dayOf b := by
  refine ⟨dayOf_lt ha hb, fun h => ?_⟩
  have hn := not_before (a := a) (b := b) ha hb (by omega)
  obtain ⟨y, m, d⟩ := a
  obtain ⟨y', m', d'⟩ := b
  unfold Before at *
  simp only at *
  by_contra hc
  have : y = y' ∧ m = m' ∧ d = d' := by omega
  obtain ⟨rfl, rfl, rfl⟩ := this
  omega

theorem dateOfDay_dayOf {d : Date} (h : Real d) : dateOfDay (dayOf d) = d := by
  have hr := dateOfDay_real (dayOf d)
  have he := dayOf_dateOfDay (dayOf d)
  have n1 := not_before hr h (by omega)
  have n2 := not_before h hr (by omega)
  generalize dateOfDay (dayOf d) = e at *
  obtain ⟨y, m, a⟩ := d
  obtain ⟨y', m', a'⟩ := e
  unfold Before at *
  simp only [Date.mk.injEq] at *
  omega

theorem round_bounds {q : Rat} {lo hi : Int} (h1 : (lo : Rat) ≤ q) (h2 : q < hi) : lo ≤ roundEven q ∧ roundEven q ≤ hi := by
  have f1 := Rat.le_floor_iff.2 h1
  have f2 := Rat.floor_lt_iff.2 h2
  unfold roundEven
  simp only
  split
  · omega
  · split
    · omega
    · split <;> omega

theorem moment_valid {us : Nat} (h : (dateOfDay (us / 86400000000)).year ≤ 9999) : (momentOf us).Valid :=
  ⟨real_valid (dateOfDay_real _) h, Nat.mod_lt _ (by decide), Nat.mod_lt _ (by decide), Nat.mod_lt _ (by decide), Nat.mod_lt _ (by decide)⟩

theorem leap_months (y : Nat) : daysOfMonths y 12 = 365 + if isLeap y then 1 else 0 := by
  simp only [daysOfMonths, daysInMonth]
  by_cases h : isLeap y = true <;> simp [h]

theorem isLeap_iff (y : Nat) : isLeap y = true ↔ y % 4 = 0 ∧ (y % 100 ≠ 0 ∨ y % 400 = 0) := by
  simp [isLeap]

theorem years_closed (k : Nat) : (daysOfYears k : Int) = 365 * k + (leaps (1970 + k - 1) - leaps 1969) := by
  induction k with
  | zero => simp [daysOfYears, leaps]
  | succ k ih =>
    rw [daysOfYears, leap_months]
    push_cast
    rw [ih]
    have hl := isLeap_iff (1970 + k)
    unfold leaps at *
    by_cases h : isLeap (1970 + k) = true
    · have := hl.1 h
      rw [if_pos h]
      omega
    · have : ¬ _ := fun x => h (hl.2 x)
      rw [if_neg h]
      omega

/-- the count of the calendar is the closed formula -/
theorem days_dayOf {d : Date} (h : Real d) : days d = dayOf d := by
  obtain ⟨h1, h2, h3, h4, _⟩ := h
  obtain ⟨y, m, a⟩ := d
  simp only at *
  have hy := years_closed (y - 1970)
  have e : (1970 : Int) + (y - 1970 : Nat) - 1 = y - 1 := by omega
  rw [e] at hy
  have hm : (daysOfMonths y (m - 1) : Int) = monthStart.getD (m - 1) 0 +
      (if 2 < m ∧ (y % 4 = 0 ∧ (y % 100 ≠ 0 ∨ y % 400 = 0)) then 1 else 0) := by
    simp only [← isLeap_iff]
    obtain rfl | rfl | rfl | rfl | rfl | rfl | rfl | rfl | rfl | rfl | rfl | rfl :
      m = 1 ∨ m = 2 ∨ m = 3 ∨ m = 4 ∨ m = 5 ∨ m = 6 ∨ m = 7 ∨ m = 8 ∨ m = 9 ∨ m = 10 ∨ m = 11 ∨ m = 12 := by omega
    all_goals
      simp only [daysOfMonths, daysInMonth, monthStart]
      by_cases hl : isLeap y = true <;> simp [hl, daysOfMonths]
  unfold days dayOf
  simp only
  push_cast
  rw [hm, hy]
  omega

/-- days before 1970 -/
theorem days_neg {d : Date} (h : d.Valid) (hy : d.year < 1970) : days d < 0 := by
  obtain ⟨_, _, h2, h3, h4, h5⟩ := h
  obtain ⟨y, m, a⟩ := d
  simp only at *
  have hm : monthStart.getD (m - 1) 0 + (a - 1) + (if 2 < m ∧ (y % 4 = 0 ∧ (y % 100 ≠ 0 ∨ y % 400 = 0)) then 1 else 0) ≤
      364 + (if isLeap y = true then 1 else 0) := by
    simp only [← isLeap_iff]
    obtain rfl | rfl | rfl | rfl | rfl | rfl | rfl | rfl | rfl | rfl | rfl | rfl :
      m = 1 ∨ m = 2 ∨ m = 3 ∨ m = 4 ∨ m = 5 ∨ m = 6 ∨ m = 7 ∨ m = 8 ∨ m = 9 ∨ m = 10 ∨ m = 11 ∨ m = 12 := by omega
    all_goals
      simp only [daysInMonth, monthStart] at *
      by_cases hl : isLeap y = true <;> simp [hl] at * <;> omega
  unfold days
  simp only
  rw [show leaps 1969 = 477 by decide]
  by_cases he : y = 1969
  · subst he
    have hl : (if isLeap 1969 = true then (1 : Int) else 0) = 0 := by decide
    rw [hl] at hm
    rw [show leaps ((1969 : Nat) - 1) = 477 by decide]
    omega
  · unfold leaps
    have hl : (if isLeap y = true then (1 : Int) else 0) ≤ 1 := by split <;> omega
    omega

theorem year_of_micros {t : DateTime} (hv : t.Valid) (h : 0 ≤ micros t) : 1970 ≤ t.date.year := by
  by_contra hc
  have := days_neg hv.1 (by omega)
  obtain ⟨_, hh, hm, hs, hu⟩ := hv
  unfold micros at h
  omega

/-- a moment from its microseconds -/
theorem micros_momentOf (us : Nat) : micros (momentOf us) = us := by
  unfold micros
  rw [show (momentOf us).date = dateOfDay (us / 86400000000) from rfl, days_dayOf (dateOfDay_real _), dayOf_dateOfDay]
  simp only [momentOf]
  omega

theorem momentOf_micros {t : DateTime} (hv : t.Valid) (ho : t.offset = none) (hy : 1970 ≤ t.date.year) :
    ∃ us : Nat, micros t = us ∧ momentOf us = t := by
  obtain ⟨hd, hh, hm, hs, hu⟩ := hv
  have hr : Real t.date := ⟨hy, hd.2.2⟩
  obtain ⟨d, h, m, s, u, o⟩ := t
  simp only at *
  subst ho
  refine ⟨(((dayOf d * 24 + h) * 60 + m) * 60 + s) * 1000000 + u, ?_, ?_⟩
  · unfold micros
    simp only [days_dayOf hr]
    push_cast
    rfl
  · unfold momentOf
    have e : ((((dayOf d * 24 + h) * 60 + m) * 60 + s) * 1000000 + u) / 86400000000 = dayOf d := by omega
    rw [e, dateOfDay_dayOf hr]
    simp only [DateTime.mk.injEq, true_and, and_true]
    omega

theorem round_near {q : Rat} {n : Int} (h1 : (n : Rat) - 1 / 2 < q) (h2 : q < n + 1 / 2) : roundEven q = n := by
  unfold roundEven
  simp only
  by_cases h : (n : Rat) ≤ q
  · have hf : q.floor = n := by
      have f1 := Rat.le_floor_iff.2 h
      have f2 : q.floor < n + 1 := Rat.floor_lt_iff.2 (by push_cast; linarith)
      omega
    rw [hf, if_pos (by linarith)]
  · have hf : q.floor = n - 1 := by
      have f1 : n - 1 ≤ q.floor := Rat.le_floor_iff.2 (by push_cast; linarith)
      have f2 : q.floor < n := Rat.floor_lt_iff.2 (by linarith)
      omega
    rw [hf, if_neg (by push_cast; linarith), if_pos (by push_cast; linarith)]
    omega

/-- the time drawn, in microseconds -/
theorem drawn_time (tz : Int) (i : Nat) :
    (mktime tz ⟨1970, 1, 2⟩ + (mktime tz ⟨2038, 1, 19⟩ - mktime tz ⟨1970, 1, 2⟩) * ((i : Rat) / 2 ^ 53)) * 1000000 =
      ((86400 - tz) * 1000000 : Int) + (2147385600000000 * i : Nat) / (2 ^ 53 : Nat) := by
  unfold mktime
  rw [lastDay, firstDay]
  push_cast; ring

/-- every microsecond can be drawn -/
theorem drawn_micros (tz : Int) {n : Nat} (h : n ≤ 2147385600000000) : ∃ i, i < 2 ^ 53 ∧
    roundEven (((86400 - tz) * 1000000 : Int) + ((2147385600000000 * i : Nat) : Rat) / (2 ^ 53 : Nat)) = (86400 - tz) * 1000000 + n := by
  have key : ∃ i : Nat, i < 2 ^ 53 ∧ 2 * n * 2 ^ 53 < 2 * (2147385600000000 * i) + 2 ^ 53 ∧ 2 * (2147385600000000 * i) < (2 * n + 1) * 2 ^ 53 := by
    by_cases hn : n = 2147385600000000
    · exact ⟨2 ^ 53 - 1, by omega, by omega, by omega⟩
    · exact ⟨(n * 2 ^ 53 + 2147385599999999) / 2147385600000000, by omega, by omega, by omega⟩
  obtain ⟨i, hi, k1, k2⟩ := key
  refine ⟨i, hi, ?_⟩
  generalize 2147385600000000 * i = x at *
  have r1 : (n : Rat) - 1 / 2 < (x : Rat) / (2 ^ 53 : Nat) := by
    rw [lt_div_iff₀ (by norm_num)]
    have : ((2 * n * 2 ^ 53 : Nat) : Rat) < ((2 * x + 2 ^ 53 : Nat) : Rat) := by exact_mod_cast k1
    push_cast at this ⊢
    linarith
  have r2 : (x : Rat) / (2 ^ 53 : Nat) < n + 1 / 2 := by
    rw [div_lt_iff₀ (by norm_num)]
    have : ((2 * x : Nat) : Rat) < (((2 * n + 1) * 2 ^ 53 : Nat) : Rat) := by exact_mod_cast k2
    push_cast at this ⊢
    linarith
  apply round_near
  · push_cast at *; linarith
  · push_cast at *; linarith

end Proofs.Calendar
