import Verif.Model.Render
import Verif.Spec.Rendered
import Verif.Proofs.Random
import Verif.Proofs.Dict
/-! # Runs of the renderer -/

namespace Render
open Py Prim Spec.Rendered

theorem orElse_iff {α : Type} [DecidableEq α] [OfNat α 0] (x : Option α) (d m : α) :
    orElse 0 x d = m ↔ LimitOr x d m := by
  unfold orElse LimitOr
  cases x with
  | none => simp [eq_comm]
  | some a =>
    by_cases h : a = 0
    · subst h
      simp only [if_true]
      constructor
      · rintro rfl; exact .inr ⟨.inr trivial, rfl⟩
      · rintro (⟨h1, h2⟩ | ⟨_, h⟩)
        · cases h1; exact absurd rfl h2
        · exact h.symm
    · simp only [if_neg h]
      constructor
      · rintro rfl; exact .inl ⟨rfl, h⟩
      · rintro (⟨h1, h2⟩ | ⟨h1 | h1, _⟩)
        · cases h1; rfl
        · cases h1
        · cases h1; exact absurd rfl h

theorem limitOr_orElse {α : Type} [DecidableEq α] [OfNat α 0] (x : Option α) (d : α) :
    LimitOr x d (orElse 0 x d) := (orElse_iff x d _).1 rfl

/-! ## texts -/

theorem letters_ne : letters ≠ [] := by unfold letters; simp

theorem mem_letters (c : Char) : c ∈ letters ↔ Letter c := by
  unfold Letter
  constructor
  · intro h
    revert c
    have : ∀ c ∈ letters, (decide ('a' ≤ c) && decide (c ≤ 'z') || decide ('A' ≤ c) && decide (c ≤ 'Z')) = true := by
      decide +kernel
    intro c h
    have := this c h
    simpa [Bool.or_eq_true, Bool.and_eq_true, decide_eq_true_eq] using this
  · intro h
    have e : ∀ n : Nat, n < 128 → ((97 ≤ n ∧ n ≤ 122) ∨ (65 ≤ n ∧ n ≤ 90)) → Char.ofNat n ∈ letters := by
      decide +kernel
    have hc : Char.ofNat c.toNat = c := Char.ofNat_toNat c
    have hb : (97 ≤ c.toNat ∧ c.toNat ≤ 122) ∨ (65 ≤ c.toNat ∧ c.toNat ≤ 90) := h
    rw [← hc]
    exact e c.toNat (by omega) hb

theorem run_text {l : Str} (hl : l ≠ []) {n : Nat} {r : Ends Str} :
    Run (text l n) r ↔ ∃ s : Str, r = .value s ∧ s.length = n ∧ ∀ c ∈ s, c ∈ l := by
  have hc : ∀ x : Ends Char, Run (choice 'a' l) x ↔ ∃ a ∈ l, x = .value a := fun x => run_choice hl
  unfold text
  cases r with
  | value s =>
    rw [run_times_value]
    constructor
    · rintro ⟨h1, h2⟩
      refine ⟨s, rfl, h1, fun c hs => ?_⟩
      obtain ⟨a, ha, he⟩ := (hc _).1 (h2 c hs)
      cases he; exact ha
    · rintro ⟨s', h, h1, h2⟩
      cases h
      exact ⟨h1, fun c hs => (hc _).2 ⟨c, h2 c hs, rfl⟩⟩
  | raises e =>
    rw [run_times_raises, hc]
    constructor
    · rintro ⟨_, _, _, h⟩; cases h
    · rintro ⟨_, h, _⟩; cases h
  | running =>
    rw [run_times_running, hc]
    constructor
    · rintro ⟨_, _, _, h⟩; cases h
    · rintro ⟨_, h, _⟩; cases h

theorem run_letters {n : Nat} {r : Ends Str} :
    Run (text letters n) r ↔ ∃ s : Str, r = .value s ∧ s.length = n ∧ ∀ c ∈ s, Letter c := by
  rw [run_text letters_ne]
  simp only [mem_letters]

theorem run_length {lo hi : Nat} {r : Ends Int} :
    Run (randint lo hi) r ↔ (∃ n : Nat, lo ≤ n ∧ n ≤ hi ∧ r = .value (n : Int)) ∨
      (hi < lo ∧ r = .raises .ValueError) := by
  rw [run_randint]
  constructor
  · rintro (⟨n, h1, h2, rfl⟩ | ⟨h, rfl⟩)
    · exact .inl ⟨n.toNat, by omega, by omega, by congr; omega⟩
    · exact .inr ⟨by omega, rfl⟩
  · rintro (⟨n, h1, h2, rfl⟩ | ⟨h, rfl⟩)
    · exact .inl ⟨n, by omega, by omega, rfl⟩
    · exact .inr ⟨by omega, rfl⟩

theorem run_makeStr {opt : Opt} {o : Node} {r : Ends Val} :
    Run (makeStr opt o .none) r ↔
      (∃ s : Str, r = .value (.str s) ∧ (∀ c ∈ s, Letter c) ∧
        LengthBetween o.minLength o.maxLength opt.maxStrLength s.length) ∨
      ((∃ lo hi, LimitOr o.minLength 0 lo ∧ LimitOr o.maxLength opt.maxStrLength hi ∧ hi < lo) ∧
        r = .raises .ValueError) := by
  unfold makeStr LengthBetween
  simp only [truth, Bool.false_eq_true, if_false]
  have key : ∀ (P : Nat → Nat → Prop), (∃ lo hi, LimitOr o.minLength 0 lo ∧ LimitOr o.maxLength opt.maxStrLength hi ∧
      P lo hi) ↔ P (orElse 0 o.minLength 0) (orElse 0 o.maxLength opt.maxStrLength) := by
    intro P
    constructor
    · rintro ⟨lo, hi, h1, h2, h⟩
      rw [(orElse_iff _ _ _).2 h1, (orElse_iff _ _ _).2 h2]; exact h
    · exact fun h => ⟨_, _, limitOr_orElse _ _, limitOr_orElse _ _, h⟩
  rw [key fun lo hi => hi < lo]
  have hb := fun n : Nat => key fun lo hi => lo ≤ n ∧ n ≤ hi
  simp only [hb]
  generalize orElse 0 o.minLength 0 = lo
  generalize orElse 0 o.maxLength opt.maxStrLength = hi
  rw [run_bind]
  simp only [run_length, run_bind, run_letters, run_ret]
  constructor
  · rintro (⟨n, ⟨k, h1, h2, hn⟩ | ⟨_, hn⟩, ⟨s, ⟨s', hs, h3, h4⟩, hr⟩ | ⟨_, ⟨_, h, _⟩, _⟩ | ⟨⟨_, h, _⟩, _⟩⟩ |
      ⟨e, ⟨_, _, _, h⟩ | ⟨h1, h2⟩, h⟩ | ⟨⟨_, _, _, h⟩ | ⟨_, h⟩, _⟩)
    all_goals first | (cases hn; done) | (cases h; done) | skip
    · cases hn; cases hs
      have : (k : Int).toNat = k := by omega
      exact .inl ⟨s, hr, h4, by omega, by omega⟩
    · cases h2; exact .inr ⟨h1, h⟩
  · rintro (⟨s, rfl, h, h1, h2⟩ | ⟨h, rfl⟩)
    · exact .inl ⟨s.length, .inl ⟨s.length, h1, h2, rfl⟩, .inl ⟨s, ⟨s, rfl, by omega, h⟩, rfl⟩⟩
    · exact .inr (.inl ⟨_, .inr ⟨h, rfl⟩, rfl⟩)

/-! ## integers -/

theorem bigInt_iff (o : Node) (b : Int) : bigInt o = b ↔ Big o.format b := by
  unfold bigInt Big maxInt32 maxInt64
  by_cases h : o.format = some c!"int32" ∨ o.format = none
  · rw [if_pos h]
    constructor
    · rintro rfl; exact .inl ⟨h.symm, rfl⟩
    · rintro (⟨_, h2⟩ | ⟨h1, h2, _⟩)
      · exact h2.symm
      · rcases h with h | h
        · exact absurd h h2
        · exact absurd h h1
  · rw [if_neg h]
    constructor
    · rintro rfl; exact .inr ⟨fun x => h (.inr x), fun x => h (.inl x), rfl⟩
    · rintro (⟨h1 | h1, _⟩ | ⟨_, _, h2⟩)
      · exact absurd (.inr h1) h
      · exact absurd (.inl h1) h
      · exact h2.symm

theorem den_sub_one (a : Rat) : (a - 1).den = 1 ↔ a.den = 1 := by
  constructor
  · intro h
    have e := eq_num_of_den h
    have : a = (((a - 1).num + 1 : Int) : Rat) := by rw [Rat.intCast_add, ← e]; grind
    rw [this]; exact Rat.den_intCast _
  · intro h
    have e := eq_num_of_den h
    have : a - 1 = ((a.num - 1 : Int) : Rat) := by rw [Rat.intCast_sub, ← e]; rfl
    rw [this]; exact Rat.den_intCast _

theorem den_add_one (a : Rat) : (a + 1).den = 1 ↔ a.den = 1 := by
  have := den_sub_one (a + 1)
  have e : a + 1 - 1 = a := by grind
  rw [e] at this
  exact this.symm

/-- the integers between the two ends are those drawn -/
theorem drawn_iff (o : Node) (n : Int) :
    Drawn o n ↔ (intMin o).den = 1 ∧ (intMax o).den = 1 ∧ intMin o ≤ n ∧ (n : Rat) ≤ intMax o := by
  unfold Drawn intMin intMax
  simp only
  have lo : (if o.exclusiveMinimum = true then orElse 0 o.minimum ((-(bigInt o) : Int) : Rat) + 1
      else orElse 0 o.minimum ((-(bigInt o) : Int) : Rat)).den = 1 ↔
      (orElse 0 o.minimum ((-(bigInt o) : Int) : Rat)).den = 1 := by
    split
    · exact den_add_one _
    · rfl
  have hi : (if o.exclusiveMaximum = true then orElse 0 o.maximum ((bigInt o : Int) : Rat) - 1
      else orElse 0 o.maximum ((bigInt o : Int) : Rat)).den = 1 ↔
      (orElse 0 o.maximum ((bigInt o : Int) : Rat)).den = 1 := by
    split
    · exact den_sub_one _
    · rfl
  rw [lo, hi]
  have c1 : ∀ l : Int, ((if o.exclusiveMinimum = true then (l : Rat) + 1 else (l : Rat)) ≤ (n : Rat)) ↔
      (if o.exclusiveMinimum = true then l < n else l ≤ n) := by
    intro l
    split
    · have : (l : Rat) + 1 = ((l + 1 : Int) : Rat) := by rw [Rat.intCast_add]; rfl
      rw [this, Rat.intCast_le_intCast]; omega
    · exact Rat.intCast_le_intCast
  have c2 : ∀ h : Int, ((n : Rat) ≤ (if o.exclusiveMaximum = true then (h : Rat) - 1 else (h : Rat))) ↔
      (if o.exclusiveMaximum = true then n < h else n ≤ h) := by
    intro l
    split
    · have : (l : Rat) - 1 = ((l - 1 : Int) : Rat) := by rw [Rat.intCast_sub]; rfl
      rw [this, Rat.intCast_le_intCast]; omega
    · exact Rat.intCast_le_intCast
  constructor
  · rintro ⟨b, l, h, hb, h1, h2, h3, h4⟩
    rw [← bigInt_iff] at hb
    subst hb
    rw [← orElse_iff] at h1 h2
    rw [h1, h2, c1, c2]
    exact ⟨Rat.den_intCast _, Rat.den_intCast _, h3, h4⟩
  · rintro ⟨h1, h2, h3, h4⟩
    have e1 := eq_num_of_den h1
    have e2 := eq_num_of_den h2
    refine ⟨bigInt o, _, _, (bigInt_iff _ _).1 rfl, (orElse_iff _ _ _).1 e1, (orElse_iff _ _ _).1 e2, ?_, ?_⟩
    · rw [← c1, ← e1]; exact h3
    · rw [← c2, ← e2]; exact h4

theorem fmod_multiple (n m : Int) (hm : m ≠ 0) : m ∣ n - n.fmod m := by
  refine ⟨n.fdiv m, ?_⟩
  have := Int.mul_fdiv_add_fmod n m
  omega

theorem small_multiple (p t : Int) (hp : 0 < p) (h1 : -p < p * t) (h2 : p * t < p) : t = 0 := by
  rcases Int.lt_trichotomy t 0 with y | y | y
  · have := Int.mul_le_mul_of_nonneg_left (a := t) (b := -1) (c := p) (by omega) (by omega)
    omega
  · exact y
  · have := Int.mul_le_mul_of_nonneg_left (a := 1) (b := t) (c := p) (by omega) (by omega)
    omega

theorem roundedTo_iff (o : Node) (ho : o.multipleInt = true → o.multipleOf.den = 1) (d n : Int) :
    RoundedTo o d n ↔ n = toMultiple o d := by
  unfold RoundedTo toMultiple
  by_cases h : o.multipleInt = true ∧ o.multipleOf ≠ 0
  · rw [if_pos h]
    have em := eq_num_of_den (ho h.1)
    generalize hm : o.multipleOf.num = m at em
    have hm0 : m ≠ 0 := by
      rintro rfl; exact h.2 em
    have hdvd := fmod_multiple d m hm0
    have hpos : 0 < m → 0 ≤ d.fmod m ∧ d.fmod m < m :=
      fun x => ⟨Int.fmod_nonneg_of_pos _ x, Int.fmod_lt_of_pos _ x⟩
    have hneg : m < 0 → d.fmod m ≤ 0 ∧ m < d.fmod m := by
      intro x
      have e : d.fmod m = -((-d).fmod (-m)) := by
        have := Int.neg_fmod_neg d m
        omega
      have h1 := Int.fmod_nonneg_of_pos (-d) (b := -m) (by omega)
      have h2 := Int.fmod_lt_of_pos (-d) (b := -m) (by omega)
      omega
    constructor
    · rintro ⟨_, h2⟩
      obtain ⟨⟨k, hk⟩, h3, h4⟩ := h2 m h.1 em hm0
      obtain ⟨j, hj⟩ := hdvd
      have : k = j := by
        rcases Int.lt_or_gt_of_ne hm0 with x | x
        · have := h4 x; have := hneg x
          have e := small_multiple (-m) (k - j) (by omega) (by rw [Int.neg_mul, Int.mul_sub]; omega)
            (by rw [Int.neg_mul, Int.mul_sub]; omega)
          omega
        · have := h3 x; have := hpos x
          have e := small_multiple m (k - j) x (by rw [Int.mul_sub]; omega) (by rw [Int.mul_sub]; omega)
          omega
      rw [hk, this, ← hj]
    · rintro rfl
      refine ⟨?_, ?_⟩
      · rintro (x | x)
        · rw [h.1] at x; cases x
        · exact absurd x h.2
      · intro m' _ e _
        have : m' = m := by rw [em] at e; exact (Rat.intCast_inj.1 e).symm
        subst this
        exact ⟨hdvd, fun x => by have := hpos x; omega, fun x => by have := hneg x; omega⟩
  · rw [if_neg h]
    constructor
    · rintro ⟨h1, _⟩
      apply h1
      by_cases hx : o.multipleInt = true
      · exact .inr (Classical.not_not.1 fun y => h ⟨hx, y⟩)
      · exact .inl (by simpa using hx)
    · rintro rfl
      refine ⟨fun _ => rfl, fun m h1 h2 h3 => absurd ⟨h1, ?_⟩ h⟩
      rw [h2]; exact fun x => h3 (Rat.intCast_inj.1 x)

theorem run_makeInt {o : Node} {r : Ends Val} :
    Run (makeInt o .none) r ↔
      (∃ d, Drawn o d ∧ r = .value (.int (toMultiple o d))) ∨
      ((¬ ∃ d, Drawn o d) ∧ r = .raises .ValueError) := by
  unfold makeInt
  simp only [truth, Bool.false_eq_true, if_false, run_bind, run_randintQ, run_ret, drawn_iff]
  constructor
  · rintro (⟨a, ⟨h1, h2, n, h3, h4, hn⟩ | ⟨_, h⟩, hr⟩ | ⟨e, ⟨_, _, _, _, _, h⟩ | ⟨h1, h2⟩, h⟩ | ⟨⟨_, _, _, _, _, h⟩ | ⟨_, h⟩, _⟩)
    all_goals first | (cases hn; done) | (cases h; done) | skip
    · cases hn; exact .inl ⟨_, ⟨h1, h2, h3, h4⟩, hr⟩
    · cases h2
      refine .inr ⟨?_, h⟩
      rintro ⟨d, h2, h3, h4, h5⟩
      rcases h1 with h1 | h1 | h1
      · exact h1 h2
      · exact h1 h3
      · grind
  · rintro (⟨d, ⟨h1, h2, h3, h4⟩, rfl⟩ | ⟨h, rfl⟩)
    · exact .inl ⟨d, .inl ⟨h1, h2, d, h3, h4, rfl⟩, rfl⟩
    · refine .inr (.inl ⟨_, .inr ⟨?_, rfl⟩, rfl⟩)
      by_cases h1 : (intMin o).den = 1
      · by_cases h2 : (intMax o).den = 1
        · refine .inr (.inr ?_)
          apply Classical.byContradiction
          intro hx
          have e := eq_num_of_den h1
          exact h ⟨(intMin o).num, h1, h2, by rw [← e]; exact Rat.le_refl, by rw [← e]; grind⟩
        · exact .inr (.inl h2)
      · exact .inl h1

/-! ## numbers -/

/-- the outcomes of the loop, one round being enough for any of them -/
theorem run_floatLoop {o : Node} {lo hi : Rat} {n : Nat} {r : Ends Val} :
    Run (floatLoop o lo hi n) r ↔
      (0 < n ∧ ∃ k : Nat, k < 2 ^ 53 ∧
        ¬ (floatMultiple o (lo + (hi - lo) * ((k : Rat) / 2 ^ 53)) ≤ lo ∧ o.exclusiveMinimum = true) ∧
        r = .value (.float (.fin (floatMultiple o (lo + (hi - lo) * ((k : Rat) / 2 ^ 53)))))) ∨
      (r = .running ∧ (n = 0 ∨ ∃ k : Nat, k < 2 ^ 53 ∧
        floatMultiple o (lo + (hi - lo) * ((k : Rat) / 2 ^ 53)) ≤ lo ∧ o.exclusiveMinimum = true)) := by
  induction n with
  | zero => simp [floatLoop, run_stuck]
  | succ n ih =>
    simp only [floatLoop, run_bind, run_random]
    constructor
    · rintro (⟨x, ⟨k, hk, hx⟩, hr⟩ | ⟨_, ⟨_, _, h⟩, _⟩ | ⟨⟨_, _, h⟩, _⟩)
      · cases hx
        by_cases hc : floatMultiple o (lo + (hi - lo) * ((k : Rat) / 2 ^ 53)) ≤ lo ∧ o.exclusiveMinimum = true
        · rw [if_pos hc, ih] at hr
          rcases hr with ⟨_, h⟩ | ⟨h, _⟩
          · exact .inl ⟨Nat.succ_pos _, h⟩
          · exact .inr ⟨h, .inr ⟨k, hk, hc⟩⟩
        · rw [if_neg hc, run_ret] at hr
          exact .inl ⟨Nat.succ_pos _, k, hk, hc, hr⟩
      · cases h
      · cases h
    · rintro (⟨_, k, hk, hc, hr⟩ | ⟨h, h0 | ⟨k, hk, hc⟩⟩)
      · refine .inl ⟨_, ⟨k, hk, rfl⟩, ?_⟩
        rw [if_neg hc, run_ret]; exact hr
      · cases h0
      · refine .inl ⟨_, ⟨k, hk, rfl⟩, ?_⟩
        rw [if_pos hc, ih]
        refine .inr ⟨h, ?_⟩
        by_cases h0 : n = 0
        · exact .inl h0
        · exact .inr ⟨k, hk, hc⟩

/-! ## leaves -/

theorem generate_leaf (env : Env) (opt : Opt) (rounds fuel id t : Nat) (type : Str)
    (ht : env.target id = .ok t) (hty : (env.node t).type = some type) (h1 : type ≠ c!"object")
    (h2 : type ≠ c!"array") :
    generate env opt rounds (fuel + 1) id = leaf env opt rounds t type := by
  show generateBody env opt rounds (generate env opt rounds fuel) id = _
  unfold generateBody
  rw [ht]
  simp only [hty, if_neg h1, if_neg h2]

theorem generate_array (env : Env) (opt : Opt) (rounds fuel id t : Nat)
    (ht : env.target id = .ok t) (hty : (env.node t).type = some c!"array") :
    generate env opt rounds (fuel + 1) id = array (generate env opt rounds fuel) opt (env.node t) := by
  show generateBody env opt rounds (generate env opt rounds fuel) id = _
  unfold generateBody
  rw [ht]
  simp only [hty]
  rw [if_neg (by decide), if_pos trivial]

theorem generate_object (env : Env) (opt : Opt) (rounds fuel id t : Nat)
    (ht : env.target id = .ok t) (hty : (env.node t).type = some c!"object") :
    generate env opt rounds (fuel + 1) id = object (generate env opt rounds fuel) opt rounds (env.node t) := by
  show generateBody env opt rounds (generate env opt rounds fuel) id = _
  unfold generateBody
  rw [ht]
  simp only [hty]
  rw [if_pos trivial]

theorem run_pickEnum {o : Node} {r : Ends Val} :
    Run (pickEnum o) r ↔ (o.enum = [] ∧ r = .value .none) ∨ ∃ v ∈ o.enum, r = .value v := by
  unfold pickEnum
  cases h : o.enum with
  | nil => simp [run_ret]
  | cons a l =>
    simp only
    rw [run_choice (by simp)]
    simp

theorem run_leaf {env : Env} {opt : Opt} {rounds t : Nat} {type : Str} {r : Ends Val} :
    Run (leaf env opt rounds t type) r ↔
      ∃ v, (((env.node t).enum = [] ∧ v = .none) ∨ v ∈ (env.node t).enum) ∧
        ((maker type (env.node t).format = none ∧ r = .raises .Exception) ∨
         ∃ m, maker type (env.node t).format = some m ∧ Run (make env opt rounds t v m) r) := by
  unfold leaf
  rw [run_bind]
  simp only [run_pickEnum]
  have key : ∀ v : Val, Run (match maker type (env.node t).format with
      | none => .fail .Exception
      | some m => make env opt rounds t v m) r ↔
      ((maker type (env.node t).format = none ∧ r = .raises .Exception) ∨
         ∃ m, maker type (env.node t).format = some m ∧ Run (make env opt rounds t v m) r) := by
    intro v
    cases h : maker type (env.node t).format with
    | none => simp [run_fail]
    | some m => simp
  constructor
  · rintro (⟨v, ⟨h1, h2⟩ | ⟨a, ha, h2⟩, hr⟩ | ⟨e, ⟨_, h⟩ | ⟨_, _, h⟩, _⟩ | ⟨⟨_, h⟩ | ⟨_, _, h⟩, _⟩)
    all_goals first | (cases h; done) | skip
    · cases h2; exact ⟨_, .inl ⟨h1, rfl⟩, (key _).1 hr⟩
    · cases h2; exact ⟨_, .inr ha, (key _).1 hr⟩
  · rintro ⟨v, ⟨h1, rfl⟩ | hv, hr⟩
    · exact .inl ⟨_, .inl ⟨h1, rfl⟩, (key _).2 hr⟩
    · exact .inl ⟨v, .inr ⟨v, hv, rfl⟩, (key v).2 hr⟩

/-! ## arrays -/

theorem run_array {rec : Rec} {opt : Opt} {o : Node} {r : Ends Val} :
    Run (array rec opt o) r ↔
      (∃ l : List Val, r = .value (.list l) ∧ LengthBetween o.minItems o.maxItems opt.maxArrayLength l.length ∧
        ∀ v ∈ l, Run (item rec o.items) (.value v)) ∨
      ((∃ lo hi, LimitOr o.minItems 0 lo ∧ LimitOr o.maxItems opt.maxArrayLength hi ∧ hi < lo) ∧
        r = .raises .ValueError) ∨
      ((∃ n, 0 < n ∧ LengthBetween o.minItems o.maxItems opt.maxArrayLength n) ∧
        ((∃ e, r = .raises e ∧ Run (item rec o.items) (.raises e)) ∨
          (r = .running ∧ Run (item rec o.items) .running))) := by
  unfold array LengthBetween
  have key : ∀ (P : Nat → Nat → Prop), (∃ lo hi, LimitOr o.minItems 0 lo ∧ LimitOr o.maxItems opt.maxArrayLength hi ∧
      P lo hi) ↔ P (orElse 0 o.minItems 0) (orElse 0 o.maxItems opt.maxArrayLength) := by
    intro P
    constructor
    · rintro ⟨lo, hi, h1, h2, h⟩
      rw [(orElse_iff _ _ _).2 h1, (orElse_iff _ _ _).2 h2]; exact h
    · exact fun h => ⟨_, _, limitOr_orElse _ _, limitOr_orElse _ _, h⟩
  rw [key fun lo hi => hi < lo]
  have hb := fun n : Nat => key fun lo hi => lo ≤ n ∧ n ≤ hi
  simp only [hb]
  generalize orElse 0 o.minItems 0 = lo
  generalize orElse 0 o.maxItems opt.maxArrayLength = hi
  rw [run_bind]
  simp only [run_length]
  constructor
  · rintro (⟨n, ⟨k, h1, h2, hn⟩ | ⟨_, hn⟩, hr⟩ | ⟨e, ⟨_, _, _, h⟩ | ⟨h1, h2⟩, h⟩ | ⟨⟨_, _, _, h⟩ | ⟨_, h⟩, _⟩)
    all_goals first | (cases hn; done) | (cases h; done) | skip
    · cases hn
      have ek : (k : Int).toNat = k := by omega
      rw [ek, run_bind] at hr
      rcases hr with ⟨l, hl, hr⟩ | ⟨e, he, hr⟩ | ⟨he, hr⟩
      · rw [run_times_value] at hl
        exact .inl ⟨l, run_ret.1 hr, by omega, hl.2⟩
      · rw [run_times_raises] at he
        exact .inr (.inr ⟨⟨k, he.1, h1, h2⟩, .inl ⟨e, hr, he.2⟩⟩)
      · rw [run_times_running] at he
        exact .inr (.inr ⟨⟨k, he.1, h1, h2⟩, .inr ⟨hr, he.2⟩⟩)
    · cases h2; exact .inr (.inl ⟨h1, h⟩)
  · rintro (⟨l, rfl, ⟨h1, h2⟩, h⟩ | ⟨h, rfl⟩ | ⟨⟨n, h0, h1, h2⟩, ⟨e, rfl, h⟩ | ⟨rfl, h⟩⟩)
    · refine .inl ⟨l.length, .inl ⟨l.length, h1, h2, rfl⟩, ?_⟩
      rw [run_bind]
      exact .inl ⟨l, run_times_value.2 ⟨by omega, h⟩, .ret _⟩
    · exact .inr (.inl ⟨_, .inr ⟨h, rfl⟩, rfl⟩)
    · refine .inl ⟨n, .inl ⟨n, h1, h2, rfl⟩, ?_⟩
      rw [run_bind]
      exact .inr (.inl ⟨e, run_times_raises.2 ⟨by omega, h⟩, rfl⟩)
    · refine .inl ⟨n, .inl ⟨n, h1, h2, rfl⟩, ?_⟩
      rw [run_bind]
      exact .inr (.inr ⟨run_times_running.2 ⟨by omega, h⟩, rfl⟩)

/-! ## objects -/

theorem run_flip {α : Type} {a b : Gen α} {m : Bool} {r : Ends α} :
    Run ((randint 0 1).bind fun n => if n = 0 ∨ m = true then a else b) r ↔
      Run a r ∨ (m = false ∧ Run b r) := by
  rw [run_bind]
  constructor
  · rintro (⟨n, hn, hr⟩ | ⟨e, he, _⟩ | ⟨h, _⟩)
    · by_cases h : n = 0 ∨ m = true
      · rw [if_pos h] at hr; exact .inl hr
      · rw [if_neg h] at hr
        exact .inr ⟨by simpa using fun x => h (.inr x), hr⟩
    · rw [run_randint_raises] at he; omega
    · exact absurd h run_randint_running
  · rintro (h | ⟨hm, h⟩)
    · exact .inl ⟨0, run_randint_value.2 (by omega), by rw [if_pos (.inl rfl)]; exact h⟩
    · refine .inl ⟨1, run_randint_value.2 (by omega), ?_⟩
      rw [if_neg (by simp [hm])]; exact h

/-- one property: it is in the template, skipped, or rendered -/
theorem run_declared_cons {rec : Rec} {opt : Opt} {o : Node} {name : Str} {p : Nat} {l : List (Str × Nat)}
    {out : Dict Str Val} {c : Nat} {r : Ends (Dict Str Val × Nat)} :
    Run (declared rec opt o ((name, p) :: l) (out, c)) r ↔
      (∃ v, Dict.get? opt.objectTemplate name = some v ∧ Run (declared rec opt o l (Dict.set out name v, c)) r) ∨
      (Dict.get? opt.objectTemplate name = none ∧ opt.maxProperty = false ∧ name ∉ o.required ∧
        Run (declared rec opt o l (out, c)) r) ∨
      (May opt o.required name ∧
        Run ((rec p).bind fun v => declared rec opt o l (Dict.set out name v, c + 1)) r) := by
  unfold May
  rw [declared]
  cases hT : Dict.get? opt.objectTemplate name with
  | some v => simp
  | none =>
    simp only
    by_cases h : opt.maxProperty = false ∧ name ∉ o.required
    · rw [if_pos h, run_flip]
      simp [h.1, h.2]
    · rw [if_neg h]
      have h' : opt.maxProperty = true ∨ name ∈ o.required := by
        by_cases hm : opt.maxProperty = true
        · exact .inl hm
        · exact .inr (Classical.not_not.1 fun x => h ⟨by simpa using hm, x⟩)
      constructor
      · intro hr
        refine .inr (.inr ⟨⟨trivial, ?_⟩, hr⟩)
        rcases h' with h' | h'
        · exact .inl h'
        · exact .inr (.inl h')
      · rintro (⟨v, hv, _⟩ | ⟨_, h1, h2, _⟩ | ⟨_, hr⟩)
        · cases hv
        · exact absurd ⟨h1, h2⟩ h
        · exact hr

theorem run_declared {rec : Rec} {opt : Opt} {o : Node} (l : List (Str × Nat)) (hl : (l.map Prod.fst).Nodup)
    (out : Dict Str Val) (hout : ∀ e ∈ l, e.1 ∉ out.keys) (c : Nat) (st : Dict Str Val × Nat) :
    Run (declared rec opt o l (out, c)) (.value st) ↔
      ∃ d n, Declared opt o.required (fun p v => Run (rec p) (.value v)) l d n ∧ st = (out ++ d, c + n) := by
  induction l generalizing out c with
  | nil =>
    simp only [declared, run_ret, Ends.value.injEq]
    constructor
    · rintro rfl; exact ⟨[], 0, .nil, by simp⟩
    · rintro ⟨d, n, h, rfl⟩; cases h; simp
  | cons e l ih =>
    obtain ⟨name, p⟩ := e
    rw [List.map_cons, List.nodup_cons] at hl
    have hn : name ∉ out.keys := hout (name, p) List.mem_cons_self
    have hrest : ∀ e ∈ l, e.1 ∉ out.keys := fun e he => hout e (List.mem_cons_of_mem _ he)
    have hset : ∀ v, Dict.set out name v = out ++ [(name, v)] := fun v => Dict.set_of_not_mem v hn
    have hrest' : ∀ v, ∀ e ∈ l, e.1 ∉ (out ++ [(name, v)] : Dict Str Val).keys := by
      intro v e he
      simp only [Dict.keys, List.map_append, List.mem_append, List.map_cons, List.map_nil, List.mem_singleton]
      rintro (h | h)
      · exact hrest e he h
      · rw [← h] at hl
        have hm := List.mem_map_of_mem (f := Prod.fst) he
        exact hl.1 hm
    rw [run_declared_cons]
    simp only [run_bind_value, hset, ih hl.2 out hrest c]
    constructor
    · rintro (⟨v, hv, h⟩ | ⟨h1, h2, h3, d, n, h4, rfl⟩ | ⟨⟨h1, h2⟩, v, hv, h⟩)
      · obtain ⟨d, n, h4, rfl⟩ := (ih hl.2 _ (hrest' v) c).1 h
        exact ⟨(name, v) :: d, n, .template _ _ _ _ _ _ hv h4, by simp⟩
      · exact ⟨d, n, .skip _ _ _ _ _ h1 h2 h3 h4, rfl⟩
      · obtain ⟨d, n, h4, rfl⟩ := (ih hl.2 _ (hrest' v) (c + 1)).1 h
        exact ⟨(name, v) :: d, n + 1, .made _ _ _ _ _ _ h1 h2 hv h4, by simp; omega⟩
    · rintro ⟨d, n, h, rfl⟩
      cases h with
      | template _ _ v _ d n hv h4 =>
        refine .inl ⟨v, hv, (ih hl.2 _ (hrest' v) c).2 ⟨d, n, h4, by simp⟩⟩
      | skip _ _ _ _ _ h1 h2 h3 h4 => exact .inr (.inl ⟨h1, h2, h3, d, n, h4, rfl⟩)
      | made _ _ v _ d n h1 h2 hv h4 =>
        refine .inr (.inr ⟨⟨h1, h2⟩, v, hv, (ih hl.2 _ (hrest' v) (c + 1)).2 ⟨d, n, h4, by simp; omega⟩⟩)

/-- the exceptions while rendering declared properties -/
theorem run_declared_raises {rec : Rec} {opt : Opt} {o : Node} (l : List (Str × Nat))
    (out : Dict Str Val) (c : Nat) (e : Exc) :
    Run (declared rec opt o l (out, c)) (.raises e) ↔
      ∃ l1 name p l2 d n, l = l1 ++ (name, p) :: l2 ∧
        Declared opt o.required (fun p v => Run (rec p) (.value v)) l1 d n ∧
        May opt o.required name ∧ Run (rec p) (.raises e) := by
  induction l generalizing out c with
  | nil =>
    simp only [declared, run_ret]
    constructor
    · intro h; cases h
    · rintro ⟨l1, name, p, l2, d, n, h, _⟩; simp at h
  | cons x l ih =>
    obtain ⟨name, p⟩ := x
    rw [run_declared_cons]
    simp only [run_bind_raises, ih]
    constructor
    · rintro (⟨v, hv, l1, nm, q, l2, d, n, rfl, h1, h2, h3⟩ | ⟨a, b, c', l1, nm, q, l2, d, n, rfl, h1, h2, h3⟩ |
        ⟨hm, ⟨v, hv, l1, nm, q, l2, d, n, rfl, h1, h2, h3⟩ | h3⟩)
      · exact ⟨(name, p) :: l1, nm, q, l2, _, _, rfl, .template _ _ _ _ _ _ hv h1, h2, h3⟩
      · exact ⟨(name, p) :: l1, nm, q, l2, _, _, rfl, .skip _ _ _ _ _ a b c' h1, h2, h3⟩
      · exact ⟨(name, p) :: l1, nm, q, l2, _, _, rfl, .made _ _ _ _ _ _ hm.1 hm.2 hv h1, h2, h3⟩
      · exact ⟨[], name, p, l, _, _, rfl, .nil, hm, h3⟩
    · rintro ⟨l1, nm, q, l2, d, n, h, h1, h2, h3⟩
      cases h1 with
      | nil =>
        simp only [List.nil_append, List.cons.injEq, Prod.mk.injEq] at h
        obtain ⟨⟨rfl, rfl⟩, rfl⟩ := h
        exact .inr (.inr ⟨h2, .inr h3⟩)
      | template _ _ v l1 d n hv h4 =>
        simp only [List.cons_append, List.cons.injEq, Prod.mk.injEq] at h
        obtain ⟨⟨rfl, rfl⟩, rfl⟩ := h
        exact .inl ⟨v, hv, l1, nm, q, l2, d, n, rfl, h4, h2, h3⟩
      | skip _ _ l1 d n a b c' h4 =>
        simp only [List.cons_append, List.cons.injEq, Prod.mk.injEq] at h
        obtain ⟨⟨rfl, rfl⟩, rfl⟩ := h
        exact .inr (.inl ⟨a, b, c', l1, nm, q, l2, d, n, rfl, h4, h2, h3⟩)
      | made _ _ v l1 d n a b hv h4 =>
        simp only [List.cons_append, List.cons.injEq, Prod.mk.injEq] at h
        obtain ⟨⟨rfl, rfl⟩, rfl⟩ := h
        exact .inr (.inr ⟨⟨a, b⟩, .inl ⟨v, hv, l1, nm, q, l2, d, n, rfl, h4, h2, h3⟩⟩)

/-- a short new name made of letters -/
def Fresh (opt : Opt) (out : Dict Str Val) (name : Str) : Prop :=
  name ∉ out.keys ∧ name.length ≤ opt.maxNameLength ∧ ∀ c ∈ name, Letter c

theorem run_oneMore_step {rec : Rec} {opt : Opt} {p : Nat} {out : Dict Str Val} {n : Nat} {r : Ends (Dict Str Val)} :
    Run (oneMore rec opt p out (n + 1)) r ↔
      (∃ name : Str, name ∈ out.keys ∧ name.length ≤ opt.maxNameLength ∧ (∀ c ∈ name, Letter c) ∧
        Run (oneMore rec opt p out n) r) ∨
      (∃ name, Fresh opt out name ∧ Run ((rec p).bind fun v => .ret (Dict.set out name v)) r) := by
  rw [oneMore, run_bind]
  have h0 : ((0 : Nat) : Int) = 0 := rfl
  constructor
  · rintro (⟨len, hl, hr⟩ | ⟨e, h, _⟩ | ⟨h, _⟩)
    · rw [run_randint_value] at hl
      rw [run_bind] at hr
      rcases hr with ⟨name, hn, hr⟩ | ⟨e, h, _⟩ | ⟨h, _⟩
      · rw [run_letters] at hn
        obtain ⟨s, hs, h1, h2⟩ := hn
        cases hs
        by_cases hh : Dict.has out name = true
        · rw [if_pos hh] at hr
          exact .inl ⟨name, (Dict.has_iff _ _).1 hh, by omega, h2, hr⟩
        · rw [if_neg hh] at hr
          exact .inr ⟨name, ⟨fun x => hh ((Dict.has_iff _ _).2 x), by omega, h2⟩, hr⟩
      · obtain ⟨_, h, _⟩ := run_letters.1 h; cases h
      · obtain ⟨_, h, _⟩ := run_letters.1 h; cases h
    · rw [run_randint_raises] at h; omega
    · exact absurd h run_randint_running
  · rintro (⟨name, h1, h2, h3, hr⟩ | ⟨name, ⟨h1, h2, h3⟩, hr⟩)
    · refine .inl ⟨name.length, run_randint_value.2 (by omega), ?_⟩
      rw [run_bind]
      refine .inl ⟨name, run_letters.2 ⟨name, rfl, by omega, h3⟩, ?_⟩
      rw [if_pos ((Dict.has_iff _ _).2 h1)]; exact hr
    · refine .inl ⟨name.length, run_randint_value.2 (by omega), ?_⟩
      rw [run_bind]
      refine .inl ⟨name, run_letters.2 ⟨name, rfl, by omega, h3⟩, ?_⟩
      rw [if_neg fun x => h1 ((Dict.has_iff _ _).1 x)]; exact hr

theorem run_oneMore {rec : Rec} {opt : Opt} {p : Nat} {out : Dict Str Val} {n : Nat} {out' : Dict Str Val} :
    Run (oneMore rec opt p out n) (.value out') ↔
      0 < n ∧ ∃ name v, Fresh opt out name ∧ Run (rec p) (.value v) ∧ out' = out ++ [(name, v)] := by
  induction n with
  | zero => simp [oneMore, run_stuck]
  | succ n ih =>
    rw [run_oneMore_step, ih]
    simp only [run_bind_value, run_ret, Ends.value.injEq]
    constructor
    · rintro (⟨_, _, _, _, _, h⟩ | ⟨name, hf, v, hv, h⟩)
      · exact ⟨Nat.succ_pos _, h⟩
      · exact ⟨Nat.succ_pos _, name, v, hf, hv, by rw [h, Dict.set_of_not_mem v hf.1]⟩
    · rintro ⟨_, name, v, hf, hv, h⟩
      exact .inr ⟨name, hf, v, hv, by rw [h, Dict.set_of_not_mem v hf.1]⟩

theorem run_oneMore_raises {rec : Rec} {opt : Opt} {p : Nat} {out : Dict Str Val} {n : Nat} {e : Exc} :
    Run (oneMore rec opt p out n) (.raises e) ↔
      0 < n ∧ (∃ name, Fresh opt out name) ∧ Run (rec p) (.raises e) := by
  induction n with
  | zero => simp [oneMore, run_stuck]
  | succ n ih =>
    rw [run_oneMore_step, ih]
    simp only [run_bind_raises, run_ret]
    constructor
    · rintro (⟨_, _, _, _, _, h⟩ | ⟨name, hf, ⟨v, hv, h⟩ | h⟩)
      · exact ⟨Nat.succ_pos _, h⟩
      · cases h
      · exact ⟨Nat.succ_pos _, ⟨name, hf⟩, h⟩
    · rintro ⟨_, ⟨name, hf⟩, h⟩
      exact .inr ⟨name, hf, .inr h⟩

theorem more_congr {len : Nat} {made : Val → Prop} {u w : List Str} {d : List (Str × Val)}
    (h : More len made u d) (hw : ∀ x, x ∈ w ↔ x ∈ u) : More len made w d := by
  induction h generalizing w with
  | nil u => exact .nil _
  | cons u name v d h1 h2 h3 h4 _ ih =>
    refine .cons _ _ _ _ (fun x => h1 ((hw _).1 x)) h2 h3 h4 (ih ?_)
    intro x; simp [hw]

theorem run_manyMore {rec : Rec} {opt : Opt} {rounds p k : Nat} {out out' : Dict Str Val} :
    Run (manyMore rec opt rounds p k out) (.value out') ↔
      ∃ d, d.length = k ∧ (0 < k → 0 < rounds) ∧ out' = out ++ d ∧
        More opt.maxNameLength (fun v => Run (rec p) (.value v)) out.keys d := by
  induction k generalizing out with
  | zero =>
    simp only [manyMore, run_ret, Ends.value.injEq]
    constructor
    · rintro rfl; exact ⟨[], rfl, by simp, by simp, .nil _⟩
    · rintro ⟨d, h1, _, h2, _⟩
      rw [List.length_eq_zero_iff] at h1; subst h1; rw [h2]; simp
  | succ k ih =>
    simp only [manyMore, run_bind_value, run_oneMore]
    have hk : ∀ (name : Str) (v : Val) (x : Str), x ∈ (out ++ [(name, v)] : Dict Str Val).keys ↔ x ∈ name :: out.keys := by
      intro name v x
      simp [Dict.keys, or_comm]
    constructor
    · rintro ⟨o1, ⟨hr, name, v, ⟨f1, f2, f3⟩, hv, rfl⟩, h⟩
      obtain ⟨d, h1, _, h2, h3⟩ := ih.1 h
      exact ⟨(name, v) :: d, by simp [h1], fun _ => hr, by simp [h2],
        .cons _ _ _ _ f1 f2 f3 hv (more_congr h3 fun x => (hk name v x).symm)⟩
    · rintro ⟨d, h1, hr, h2, h3⟩
      cases h3 with
      | nil _ => simp at h1
      | cons _ name v d f1 f2 f3 hv h4 =>
        refine ⟨out ++ [(name, v)], ⟨hr (Nat.succ_pos _), name, v, ⟨f1, f2, f3⟩, hv, rfl⟩, ?_⟩
        exact ih.2 ⟨d, by simpa using h1, fun _ => hr (Nat.succ_pos _), by simp [h2],
          more_congr h4 (hk name v)⟩

theorem run_additional {rec : Rec} {opt : Opt} {rounds : Nat} {o : Node} {out out' : Dict Str Val} {n : Nat} :
    Run (additional rec opt rounds o (out, n)) (.value out') ↔
      ∃ d, out' = out ++ d ∧ Extra opt rounds o (fun p v => Run (rec p) (.value v)) out.keys n d := by
  unfold additional Extra
  cases ha : o.additional with
  | no => simp [run_ret]
  | yes => simp [run_ret]
  | schema p =>
    simp only [Addp.schema.injEq, forall_eq', ne_eq]
    cases hm : orElse 0 o.minProperties 0 with
    | zero =>
      simp only [run_fail]
      constructor
      · intro h; cases h
      · rintro ⟨d, _, ⟨lo, hi, total, h1, h2, _⟩, _⟩
        rw [orElse_iff] at hm
        rcases hm with ⟨h3, h4⟩ | ⟨h3 | h3, _⟩
        · exact absurd rfl h4
        · rw [h1] at h3; cases h3
        · rw [h1] at h3; cases h3; exact absurd rfl h2
    | succ lo =>
      rw [orElse_iff] at hm
      have hlo : o.minProperties = some (lo + 1) := by
        rcases hm with ⟨h, _⟩ | ⟨_, h⟩
        · exact h
        · cases h
      simp only [run_bind_value]
      constructor
      · rintro ⟨k, hk, hr⟩
        rw [run_length] at hk
        rcases hk with ⟨j, h1, h2, hj⟩ | ⟨_, h⟩
        · cases hj
          obtain ⟨d, h3, h4, h5, h6⟩ := run_manyMore.1 hr
          refine ⟨d, h5, ⟨lo + 1, _, j, hlo, by omega, limitOr_orElse _ _, h1, h2, by omega, ?_, h6⟩, ?_⟩
          · intro hd
            apply h4
            have : d.length ≠ 0 := fun x => hd (List.length_eq_zero_iff.1 x)
            omega
          · simp
        · cases h
      · rintro ⟨d, rfl, ⟨lo', hi, total, h1, h2, h3, h4, h5, h6, h7, h8⟩, _⟩
        rw [hlo] at h1; cases h1
        rw [← orElse_iff] at h3
        refine ⟨total, run_length.2 (.inl ⟨total, h4, by rw [h3]; exact h5, rfl⟩), ?_⟩
        refine run_manyMore.2 ⟨d, by omega, ?_, rfl, h8⟩
        intro hpos
        apply h7
        rintro rfl
        simp at h6
        omega

theorem mem_nameChars (c : Char) : c ∈ nameChars ↔ NameChar c := by
  unfold nameChars NameChar
  rw [List.mem_append, mem_letters]
  constructor
  · rintro (h | h)
    · exact .inl h
    · right
      have : ∀ c ∈ c!"_-0123456789", (('0' ≤ c ∧ c ≤ '9') ∨ c = '_' ∨ c = '-') := by decide
      exact this c h
  · rintro (h | h)
    · exact .inl h
    · right
      rcases h with h | rfl | rfl
      · have e : ∀ n : Nat, n < 128 → (48 ≤ n ∧ n ≤ 57) → Char.ofNat n ∈ c!"_-0123456789" := by
          decide +kernel
        have hc : Char.ofNat c.toNat = c := Char.ofNat_toNat c
        have hb : 48 ≤ c.toNat ∧ c.toNat ≤ 57 := h
        rw [← hc]
        exact e c.toNat (by omega) hb
      · decide
      · decide

theorem run_nameChars {n : Nat} {s : Str} :
    Run (text nameChars n) (.value s) ↔ s.length = n ∧ ∀ c ∈ s, NameChar c := by
  rw [run_text (by decide)]
  simp only [mem_nameChars]
  constructor
  · rintro ⟨s', h, h1, h2⟩; cases h; exact ⟨h1, h2⟩
  · rintro ⟨h1, h2⟩; exact ⟨s, rfl, h1, h2⟩

theorem run_letter {a : Char} : Run (choice 'a' letters) (.value a) ↔ Letter a := by
  rw [run_choice (by decide)]
  constructor
  · rintro ⟨b, h, e⟩; cases e; exact (mem_letters _).1 h
  · intro h; exact ⟨a, (mem_letters _).2 h, rfl⟩

theorem run_emailName {s : Str} : Run emailName (.value s) ↔ Word s := by
  unfold emailName Word
  simp only [run_bind_value, run_letter, run_randint_value, run_nameChars, run_ret, Ends.value.injEq]
  constructor
  · rintro ⟨a, ha, n, ⟨h1, h2⟩, m, ⟨h3, h4⟩, b, hb, rfl⟩
    exact ⟨a, m, b, rfl, ha, hb, by omega, by omega, h4⟩
  · rintro ⟨a, m, b, rfl, ha, hb, h1, h2, h4⟩
    exact ⟨a, ha, m.length, ⟨by omega, by omega⟩, m, ⟨by simp, h4⟩, b, hb, rfl⟩

theorem run_makeEmail {v : Val} : Run (makeEmail .none) (.value v) ↔ ∃ s, v = .str s ∧ Email s := by
  unfold makeEmail Email HostPart
  rw [if_neg (by simp [truth])]
  simp only [run_bind_value, run_letter, run_randint_value, run_nameChars, run_times_value, run_emailName, run_ret,
    Ends.value.injEq]
  constructor
  · rintro ⟨h, ⟨h1, h2⟩, r, ⟨r1, r2⟩, n, ⟨n1, n2⟩, names, ⟨m1, m2⟩, a, ha, s, ⟨s1, s2⟩, b, hb, t, ⟨t1, t2⟩, rfl⟩
    refine ⟨_, rfl, names, a :: s, b :: t, by simp, by omega, by omega, m2,
      ⟨a, s, rfl, ha, by omega, by omega, s2⟩, ⟨b, t, rfl, hb, by omega, by omega, t2⟩⟩
  · rintro ⟨_, rfl, names, _, _, rfl, n1, n2, m2, ⟨a, s, rfl, ha, s1, s2, s3⟩, ⟨b, t, rfl, hb, t1, t2, t3⟩⟩
    exact ⟨s.length, ⟨by omega, by omega⟩, t.length, ⟨by omega, by omega⟩, names.length, ⟨by omega, by omega⟩, names,
      ⟨by simp, m2⟩, a, ha, s, ⟨by simp, s3⟩, b, hb, t, ⟨by simp, t3⟩, by simp⟩

theorem run_manyMore_raises {rec : Rec} {opt : Opt} {rounds p k : Nat} {out : Dict Str Val} {e : Exc} :
    Run (manyMore rec opt rounds p k out) (.raises e) ↔
      ∃ d name, d.length < k ∧ 0 < rounds ∧
        More opt.maxNameLength (fun v => Run (rec p) (.value v)) out.keys d ∧
        name ∉ out.keys ++ d.map Prod.fst ∧ name.length ≤ opt.maxNameLength ∧ (∀ c ∈ name, Letter c) ∧
        Run (rec p) (.raises e) := by
  induction k generalizing out with
  | zero => simp [manyMore, run_ret]
  | succ k ih =>
    simp only [manyMore, run_bind_raises, run_oneMore, run_oneMore_raises]
    have hk : ∀ (name : Str) (v : Val) (x : Str), x ∈ (out ++ [(name, v)] : Dict Str Val).keys ↔ x ∈ name :: out.keys := by
      intro name v x
      simp [Dict.keys, or_comm]
    constructor
    · rintro (⟨out', ⟨hr, name, v, hf, hv, rfl⟩, h⟩ | ⟨hr, ⟨name, hf⟩, h⟩)
      · obtain ⟨d, name', h1, h2, h3, h4, h5⟩ := ih.1 h
        refine ⟨(name, v) :: d, name', by simpa using h1, h2,
          .cons _ _ _ _ hf.1 hf.2.1 hf.2.2 hv (more_congr h3 fun x => (hk name v x).symm), ?_, h5⟩
        intro hm
        apply h4
        simp only [List.mem_append, hk, List.map_cons, List.mem_cons] at hm ⊢
        rcases hm with h | h | h
        · exact .inl (.inr h)
        · exact .inl (.inl h)
        · exact .inr h
      · exact ⟨[], name, Nat.succ_pos _, hr, .nil _, by simpa using hf.1, hf.2.1, hf.2.2, h⟩
    · rintro ⟨d, name, h1, h2, h3, h4, h5, h6, h7⟩
      cases h3 with
      | nil => exact .inr ⟨h2, ⟨name, by simpa using h4, h5, h6⟩, h7⟩
      | cons _ nm v d a1 a2 a3 a4 a5 =>
        refine .inl ⟨_, ⟨h2, nm, v, ⟨a1, a2, a3⟩, a4, rfl⟩, ih.2 ⟨d, name, by simpa using h1, h2,
          more_congr a5 (hk nm v), ?_, h5, h6, h7⟩⟩
        intro hm
        apply h4
        simp only [List.mem_append, hk, List.map_cons, List.mem_cons] at hm ⊢
        rcases hm with (h | h) | h
        · exact .inr (.inl h)
        · exact .inl h
        · exact .inr (.inr h)

theorem run_manyMore_running {rec : Rec} {opt : Opt} {rounds p : Nat} {out : Dict Str Val} :
    Run (manyMore rec opt rounds p 0 out) .running ↔ False := by
  simp [manyMore, run_ret]

theorem run_additional_raises {rec : Rec} {opt : Opt} {rounds : Nat} {o : Node} {out : Dict Str Val} {n : Nat} {e : Exc} :
    Run (additional rec opt rounds o (out, n)) (.raises e) ↔
      ExtraRaises opt rounds o (fun p => Run (rec p)) out.keys n e := by
  unfold additional ExtraRaises
  cases ha : o.additional with
  | no => simp [run_ret]
  | yes => simp [run_ret]
  | schema p =>
    simp only [Addp.schema.injEq, exists_eq_left']
    have key : orElse 0 o.minProperties 0 = 0 ↔ (o.minProperties = none ∨ o.minProperties = some 0) := by
      unfold orElse
      cases o.minProperties with
      | none => simp
      | some m => by_cases h : m = 0 <;> simp [h]
    cases hm : orElse 0 o.minProperties 0 with
    | zero =>
      have hz := key.1 hm
      simp only [run_fail, Ends.raises.injEq]
      constructor
      · rintro rfl; exact .inl ⟨hz, rfl⟩
      · rintro (⟨_, h⟩ | ⟨lo, hi, h1, h2, _⟩)
        · exact h
        · rcases hz with h | h
          · rw [h] at h1; cases h1
          · rw [h] at h1; cases h1; exact absurd rfl h2
    | succ m =>
      have hs : o.minProperties = some (m + 1) := by
        unfold orElse at hm
        cases hx : o.minProperties with
        | none => rw [hx] at hm; cases hm
        | some y =>
          rw [hx] at hm
          by_cases h : y = 0
          · simp [h] at hm
          · simp only [h, if_false] at hm; rw [hm]
      have hhi : ∀ hi, LimitOr o.maxProperties opt.maxPropCount hi ↔ hi = orElse 0 o.maxProperties opt.maxPropCount := by
        intro hi
        constructor
        · intro h
          exact ((orElse_iff _ _ _).2 h).symm
        · rintro rfl; exact limitOr_orElse _ _
      simp only [run_bind_raises, run_randint_value, run_randint_raises, run_manyMore_raises]
      constructor
      · rintro (⟨t, ⟨t1, t2⟩, d, name, h1, h2⟩ | ⟨h, rfl⟩)
        · refine .inr ⟨m + 1, _, hs, by simp, (hhi _).2 rfl, .inr ⟨t.toNat, d, name, by omega, by omega, by omega, h2⟩⟩
        · exact .inr ⟨m + 1, _, hs, by simp, (hhi _).2 rfl, .inl ⟨by omega, rfl⟩⟩
      · rintro (⟨h | h, _⟩ | ⟨lo, hi, h1, h2, h3, h⟩)
        · rw [h] at hs; cases hs
        · rw [h] at hs; cases hs
        · rw [hs] at h1; cases h1
          rw [hhi] at h3; subst h3
          rcases h with ⟨h, rfl⟩ | ⟨t, d, name, t1, t2, h1, h2⟩
          · exact .inr ⟨by omega, rfl⟩
          · exact .inl ⟨t, ⟨by omega, by omega⟩, d, name, by omega, h2⟩

theorem run_object {rec : Rec} {opt : Opt} {rounds : Nat} {o : Node} (hw : Dict.WF o.properties) {v : Val} :
    Run (object rec opt rounds o) (.value v) ↔
      o.isSchema = true ∧ ∃ d n x, v = .dict (d ++ x) ∧
        Declared opt o.required (fun p v => Run (rec p) (.value v)) o.properties d n ∧
        Extra opt rounds o (fun p v => Run (rec p) (.value v)) (d.map Prod.fst) n x := by
  unfold object
  by_cases hs : o.isSchema = false
  · rw [if_pos hs, run_fail]
    constructor
    · intro h; cases h
    · rintro ⟨h, _⟩; rw [hs] at h; cases h
  · rw [if_neg hs]
    have hs' : o.isSchema = true := by simpa using hs
    simp only [run_bind_value, run_ret, Ends.value.injEq]
    have hd := fun st => run_declared (rec := rec) (opt := opt) (o := o) o.properties hw [] (by simp [Dict.keys]) 0 st
    simp only [hd]
    constructor
    · rintro ⟨st, ⟨d, n, h1, rfl⟩, e, h2, rfl⟩
      rw [run_additional] at h2
      obtain ⟨x, rfl, hx⟩ := h2
      refine ⟨hs', d, n, x, by simp, h1, ?_⟩
      simpa [Dict.keys] using hx
    · rintro ⟨_, d, n, x, rfl, h1, hx⟩
      refine ⟨([] ++ d, 0 + n), ⟨d, n, h1, rfl⟩, d ++ x, ?_, rfl⟩
      refine run_additional.2 ⟨x, by simp, ?_⟩
      simpa [Dict.keys] using hx

theorem run_object_raises {rec : Rec} {opt : Opt} {rounds : Nat} {o : Node} (hw : Dict.WF o.properties) {e : Exc} :
    Run (object rec opt rounds o) (.raises e) ↔
      (o.isSchema = false ∧ e = .AttributeError) ∨
      (o.isSchema = true ∧
        ((∃ l1 name p l2 d n, o.properties = l1 ++ (name, p) :: l2 ∧
          Declared opt o.required (fun p v => Run (rec p) (.value v)) l1 d n ∧
          May opt o.required name ∧ Run (rec p) (.raises e)) ∨
        (∃ d n, Declared opt o.required (fun p v => Run (rec p) (.value v)) o.properties d n ∧
          ExtraRaises opt rounds o (fun p => Run (rec p)) (d.map Prod.fst) n e))) := by
  unfold object
  by_cases hs : o.isSchema = false
  · rw [if_pos hs, run_fail]
    simp [hs]
  · rw [if_neg hs]
    have hs' : o.isSchema = true := by simpa using hs
    simp only [run_bind_raises, run_ret, reduceCtorEq, and_false, exists_false, false_or]
    have hd := fun st => run_declared (rec := rec) (opt := opt) (o := o) o.properties hw [] (by simp [Dict.keys]) 0 st
    simp only [hd, run_declared_raises, hs', true_and, Bool.true_eq_false, false_and, false_or]
    constructor
    · rintro (⟨st, ⟨d, n, h1, rfl⟩, h⟩ | h)
      · refine .inr ⟨d, n, h1, ?_⟩
        rw [run_additional_raises] at h
        simpa [Dict.keys] using h
      · exact .inl h
    · rintro (h | ⟨d, n, h1, h⟩)
      · exact .inr h
      · refine .inl ⟨_, ⟨d, n, h1, rfl⟩, ?_⟩
        rw [run_additional_raises]
        simpa [Dict.keys] using h

/-! ## reading the specification -/

theorem declared_mem {opt : Opt} {req : List Str} {made : Nat → Val → Prop} {l : List (Str × Nat)}
    {d : List (Str × Val)} {n : Nat} (h : Declared opt req made l d n) {k : Str} {v : Val} (hm : (k, v) ∈ d) :
    ∃ p, (k, p) ∈ l ∧ (Dict.get? opt.objectTemplate k = some v ∨ (May opt req k ∧ made p v)) := by
  induction h with
  | nil => simp at hm
  | template name p v' l d n hv _ ih =>
    rcases List.mem_cons.1 hm with h | h
    · cases h; exact ⟨p, List.mem_cons_self, .inl hv⟩
    · obtain ⟨q, h1, h2⟩ := ih h; exact ⟨q, List.mem_cons_of_mem _ h1, h2⟩
  | skip name p l d n _ _ _ _ ih =>
    obtain ⟨q, h1, h2⟩ := ih hm; exact ⟨q, List.mem_cons_of_mem _ h1, h2⟩
  | made name p v' l d n h1 h2 h3 _ ih =>
    rcases List.mem_cons.1 hm with h | h
    · cases h; exact ⟨p, List.mem_cons_self, .inr ⟨⟨h1, h2⟩, h3⟩⟩
    · obtain ⟨q, h1, h2⟩ := ih h; exact ⟨q, List.mem_cons_of_mem _ h1, h2⟩

theorem declared_sub {opt : Opt} {req : List Str} {made : Nat → Val → Prop} {l : List (Str × Nat)}
    {d : List (Str × Val)} {n : Nat} (h : Declared opt req made l d n) :
    (d.map Prod.fst).Sublist (l.map Prod.fst) := by
  induction h with
  | nil => exact List.Sublist.slnil
  | template name p v' l d n hv _ ih => exact ih.cons_cons _
  | skip name p l d n _ _ _ _ ih => exact ih.cons _
  | made name p v' l d n h1 h2 h3 _ ih => exact ih.cons_cons _

theorem declared_has {opt : Opt} {req : List Str} {made : Nat → Val → Prop} {l : List (Str × Nat)}
    {d : List (Str × Val)} {n : Nat} (h : Declared opt req made l d n) {k : Str} {p : Nat} (hm : (k, p) ∈ l)
    (hk : Dict.get? opt.objectTemplate k ≠ none ∨ opt.maxProperty = true ∨ k ∈ req) :
    k ∈ d.map Prod.fst := by
  induction h with
  | nil => simp at hm
  | template name q v' l d n hv _ ih =>
    rcases List.mem_cons.1 hm with h | h
    · cases h; exact List.mem_cons_self
    · exact List.mem_cons_of_mem _ (ih h)
  | skip name q l d n h1 h2 h3 _ ih =>
    rcases List.mem_cons.1 hm with h | h
    · cases h
      rcases hk with hk | hk | hk
      · exact absurd h1 hk
      · rw [h2] at hk; cases hk
      · exact absurd hk h3
    · exact ih h
  | made name q v' l d n h1 h2 h3 _ ih =>
    rcases List.mem_cons.1 hm with h | h
    · cases h; exact List.mem_cons_self
    · exact List.mem_cons_of_mem _ (ih h)

theorem more_mem {len : Nat} {made : Val → Prop} {used : List Str} {d : List (Str × Val)}
    (h : More len made used d) :
    (d.map Prod.fst).Nodup ∧ ∀ k v, (k, v) ∈ d → k ∉ used ∧ k.length ≤ len ∧ (∀ c ∈ k, Letter c) ∧ made v := by
  induction h with
  | nil => simp
  | cons used name v d h1 h2 h3 h4 _ ih =>
    refine ⟨?_, ?_⟩
    · rw [List.map_cons, List.nodup_cons]
      refine ⟨?_, ih.1⟩
      intro hm
      obtain ⟨⟨k, w⟩, he, hk⟩ := List.mem_map.1 hm
      exact (ih.2 k w he).1 (by rw [show k = name from hk]; exact List.mem_cons_self)
    · intro k w hm
      rcases List.mem_cons.1 hm with h | h
      · cases h; exact ⟨h1, h2, h3, h4⟩
      · obtain ⟨a, b⟩ := ih.2 k w h
        exact ⟨fun x => a (List.mem_cons_of_mem _ x), b⟩

theorem run_makeBool {v : Val} {r : Ends Val} (h : Run (makeBool v) r) : ∃ b, r = .value (.bool b) := by
  unfold makeBool at h
  split at h
  · exact ⟨_, run_ret.1 h⟩
  · rw [run_bind] at h
    rcases h with ⟨n, _, h⟩ | ⟨e, h, _⟩ | ⟨h, _⟩
    · exact ⟨_, run_ret.1 h⟩
    · rw [run_randint_raises] at h; omega
    · exact absurd h run_randint_running

end Render
