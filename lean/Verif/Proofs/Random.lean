import Verif.Py.Random
/-! # Runs of programs that draw random numbers -/

namespace Py
variable {α β : Type}

theorem run_ret {a : α} {r : Ends α} : Run (.ret a) r ↔ r = .value a := by
  constructor
  · intro h; cases h; rfl
  · rintro rfl; exact .ret a

theorem run_fail {e : Exc} {r : Ends α} : Run (.fail e : Gen α) r ↔ r = .raises e := by
  constructor
  · intro h; cases h; rfl
  · rintro rfl; exact .fail e

theorem run_stuck {r : Ends α} : Run (.stuck : Gen α) r ↔ r = .running := by
  constructor
  · intro h; cases h; rfl
  · rintro rfl; exact .stuck

theorem run_pick {n : Nat} {k : Nat → Gen α} {r : Ends α} :
    Run (.pick n k) r ↔ ∃ i, i ≤ n ∧ Run (k i) r := by
  constructor
  · intro h; cases h with | pick _ _ i _ h1 h2 => exact ⟨i, h1, h2⟩
  · rintro ⟨i, h1, h2⟩; exact .pick _ _ i _ h1 h2

theorem run_bind {g : Gen α} {f : α → Gen β} {r : Ends β} :
    Run (g.bind f) r ↔ (∃ a, Run g (.value a) ∧ Run (f a) r) ∨ (∃ e, Run g (.raises e) ∧ r = .raises e) ∨
      (Run g .running ∧ r = .running) := by
  induction g with
  | ret a => simp [Gen.bind, run_ret]
  | fail e => simp [Gen.bind, run_fail]
  | stuck => simp [Gen.bind, run_stuck]
  | pick n k ih =>
    simp only [Gen.bind, run_pick, ih]
    constructor
    · rintro ⟨i, hi, ⟨a, h1, h2⟩ | ⟨e, h1, h2⟩ | ⟨h1, h2⟩⟩
      · exact .inl ⟨a, ⟨i, hi, h1⟩, h2⟩
      · exact .inr (.inl ⟨e, ⟨i, hi, h1⟩, h2⟩)
      · exact .inr (.inr ⟨⟨i, hi, h1⟩, h2⟩)
    · rintro (⟨a, ⟨i, hi, h1⟩, h2⟩ | ⟨e, ⟨i, hi, h1⟩, h2⟩ | ⟨⟨i, hi, h1⟩, h2⟩)
      · exact ⟨i, hi, .inl ⟨a, h1, h2⟩⟩
      · exact ⟨i, hi, .inr (.inl ⟨e, h1, h2⟩)⟩
      · exact ⟨i, hi, .inr (.inr ⟨h1, h2⟩)⟩

theorem run_bind_value {g : Gen α} {f : α → Gen β} {b : β} :
    Run (g.bind f) (.value b) ↔ ∃ a, Run g (.value a) ∧ Run (f a) (.value b) := by
  rw [run_bind]; simp

theorem run_bind_raises {g : Gen α} {f : α → Gen β} {e : Exc} :
    Run (g.bind f) (.raises e) ↔ (∃ a, Run g (.value a) ∧ Run (f a) (.raises e)) ∨ Run g (.raises e) := by
  rw [run_bind]
  constructor
  · rintro (h | ⟨e', h, h2⟩ | ⟨_, h⟩)
    · exact .inl h
    · cases h2; exact .inr h
    · cases h
  · rintro (h | h)
    · exact .inl h
    · exact .inr (.inl ⟨e, h, rfl⟩)

theorem run_randint {a b : Int} {r : Ends Int} :
    Run (randint a b) r ↔ (∃ n, a ≤ n ∧ n ≤ b ∧ r = .value n) ∨ (b < a ∧ r = .raises .ValueError) := by
  unfold randint
  by_cases h : b < a
  · rw [if_pos h, run_fail]
    constructor
    · exact fun x => .inr ⟨h, x⟩
    · rintro (⟨n, h1, h2, _⟩ | ⟨_, x⟩)
      · omega
      · exact x
  · rw [if_neg h, run_pick]
    constructor
    · rintro ⟨i, hi, hr⟩
      exact .inl ⟨a + i, by omega, by omega, run_ret.1 hr⟩
    · rintro (⟨n, h1, h2, rfl⟩ | ⟨x, _⟩)
      · refine ⟨(n - a).toNat, by omega, ?_⟩
        have : a + ((n - a).toNat : Int) = n := by omega
        rw [this]; exact .ret n
      · exact absurd x h

theorem run_randint_value {a b n : Int} : Run (randint a b) (.value n) ↔ a ≤ n ∧ n ≤ b := by
  rw [run_randint]
  constructor
  · rintro (⟨m, h1, h2, h⟩ | ⟨_, h⟩)
    · cases h; exact ⟨h1, h2⟩
    · cases h
  · rintro ⟨h1, h2⟩; exact .inl ⟨n, h1, h2, rfl⟩

theorem run_randint_raises {a b : Int} {e : Exc} :
    Run (randint a b) (.raises e) ↔ b < a ∧ e = .ValueError := by
  rw [run_randint]
  constructor
  · rintro (⟨m, h1, h2, h⟩ | ⟨x, h⟩)
    · cases h
    · cases h; exact ⟨x, rfl⟩
  · rintro ⟨x, rfl⟩; exact .inr ⟨x, rfl⟩

theorem run_randint_running {a b : Int} : ¬ Run (randint a b) .running := by
  rw [run_randint]
  rintro (⟨m, h1, h2, h⟩ | ⟨x, h⟩) <;> cases h

theorem run_choice {d : α} {l : List α} (hl : l ≠ []) {r : Ends α} :
    Run (choice d l) r ↔ ∃ a ∈ l, r = .value a := by
  unfold choice
  have h0 : l.isEmpty = false := by cases l <;> simp_all
  have h1 : l.length ≠ 0 := fun h => hl (List.length_eq_zero_iff.1 h)
  rw [h0, if_neg (by simp), run_pick]
  constructor
  · rintro ⟨i, hi, hr⟩
    have hi' : i < l.length := by omega
    refine ⟨l[i], List.getElem_mem hi', ?_⟩
    rw [run_ret.1 hr, List.getD_eq_getElem?_getD, List.getElem?_eq_getElem hi']; rfl
  · rintro ⟨a, ha, rfl⟩
    obtain ⟨i, hi, rfl⟩ := List.getElem_of_mem ha
    refine ⟨i, by omega, ?_⟩
    rw [List.getD_eq_getElem?_getD, List.getElem?_eq_getElem hi]
    exact .ret _

theorem run_times_value {g : Gen α} {n : Nat} {l : List α} :
    Run (times g n) (.value l) ↔ l.length = n ∧ ∀ a ∈ l, Run g (.value a) := by
  induction n generalizing l with
  | zero =>
    simp only [times, run_ret, Ends.value.injEq, List.length_eq_zero_iff]
    constructor
    · rintro rfl; simp
    · exact fun h => h.1
  | succ n ih =>
    simp only [times, run_bind_value, run_ret, Ends.value.injEq, ih]
    constructor
    · rintro ⟨a, ha, l', ⟨h1, h2⟩, rfl⟩
      exact ⟨by simp [h1], by simpa using ⟨ha, h2⟩⟩
    · rintro ⟨h1, h2⟩
      cases l with
      | nil => simp at h1
      | cons a l =>
        simp only [List.mem_cons, forall_eq_or_imp] at h2
        exact ⟨a, h2.1, l, ⟨by simpa using h1, h2.2⟩, rfl⟩

theorem run_times_raises {g : Gen α} {n : Nat} {e : Exc} :
    Run (times g n) (.raises e) ↔ 0 < n ∧ Run g (.raises e) := by
  induction n with
  | zero => simp [times, run_ret]
  | succ n ih =>
    simp only [times, run_bind_raises, run_ret, ih]
    constructor
    · rintro (⟨a, _, ⟨_, _, h⟩ | ⟨_, h⟩⟩ | h)
      · cases h
      · exact ⟨Nat.succ_pos _, h⟩
      · exact ⟨Nat.succ_pos _, h⟩
    · rintro ⟨_, h⟩; exact .inr h

theorem run_times_running {g : Gen α} {n : Nat} :
    Run (times g n) .running ↔ 0 < n ∧ Run g .running := by
  induction n with
  | zero => simp [times, run_ret]
  | succ n ih =>
    simp only [times, run_bind, run_ret, ih]
    constructor
    · rintro (⟨a, _, ⟨_, _, h⟩ | ⟨_, _, h⟩ | ⟨⟨_, h⟩, _⟩⟩ | ⟨_, _, h⟩ | ⟨h, _⟩)
      · cases h
      · cases h
      · exact ⟨Nat.succ_pos _, h⟩
      · cases h
      · exact ⟨Nat.succ_pos _, h⟩
    · rintro ⟨_, h⟩; exact .inr (.inr ⟨h, trivial⟩)

theorem run_random {r : Ends Rat} :
    Run random r ↔ ∃ k : Nat, k < 2 ^ 53 ∧ r = .value ((k : Rat) / 2 ^ 53) := by
  unfold random
  rw [run_pick]
  constructor
  · rintro ⟨i, hi, hr⟩; exact ⟨i, by omega, run_ret.1 hr⟩
  · rintro ⟨k, hk, rfl⟩; exact ⟨k, by omega, .ret _⟩

theorem eq_num_of_den {a : Rat} (h : a.den = 1) : a = (a.num : Rat) := by
  apply Rat.ext
  · exact (Rat.num_intCast _).symm
  · rw [h]; exact (Rat.den_intCast _).symm

theorem run_randintQ {a b : Rat} {r : Ends Int} :
    Run (randintQ a b) r ↔
      (a.den = 1 ∧ b.den = 1 ∧ ∃ n : Int, a ≤ n ∧ (n : Rat) ≤ b ∧ r = .value n) ∨
      ((a.den ≠ 1 ∨ b.den ≠ 1 ∨ b < a) ∧ r = .raises .ValueError) := by
  unfold randintQ
  by_cases h : a.den ≠ 1 ∨ b.den ≠ 1
  · rw [if_pos h, run_fail]
    constructor
    · exact fun x => .inr ⟨by rcases h with h | h <;> simp [h], x⟩
    · rintro (⟨h1, h2, _⟩ | ⟨_, x⟩)
      · exact absurd h (by simp [h1, h2])
      · exact x
  · rw [if_neg h, run_randint]
    have h1 : a.den = 1 := Classical.not_not.1 fun x => h (.inl x)
    have h2 : b.den = 1 := Classical.not_not.1 fun x => h (.inr x)
    have ea : a = (a.num : Rat) := eq_num_of_den h1
    have eb : b = (b.num : Rat) := eq_num_of_den h2
    have l1 : ∀ n : Int, a ≤ n ↔ a.num ≤ n := fun n => by
      rw [ea, Rat.num_intCast]; exact Rat.intCast_le_intCast
    have l2 : ∀ n : Int, (n : Rat) ≤ b ↔ n ≤ b.num := fun n => by
      rw [eb, Rat.num_intCast]; exact Rat.intCast_le_intCast
    have l3 : b < a ↔ b.num < a.num := by
      rw [ea, eb, Rat.num_intCast, Rat.num_intCast]; exact Rat.intCast_lt_intCast
    simp only [l1, l2, l3, h1, h2]
    simp

end Py
