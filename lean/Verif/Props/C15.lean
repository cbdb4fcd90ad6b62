import Mathlib.Tactic.NormNum
import Verif.Proofs.Iso8601
/-!
# C15: text that is not ISO-8601 is rejected

Spec side: `Spec.Iso`, the documented format, its meaning, and `Longest s t`: `t` is the longest
text in the format that `s` starts with.
-/

namespace Props.C15
open Py Utils Spec.Iso

theorem natOf_append (a b : Str) : natOf (a ++ b) = natOf a * 10 ^ b.length + natOf b := by
  have key : ∀ (b : Str) (n : Nat), b.foldl (fun n c => 10 * n + (c.toNat - 48)) n =
      n * 10 ^ b.length + b.foldl (fun n c => 10 * n + (c.toNat - 48)) 0 := by
    intro b
    induction b with
    | nil => simp
    | cons c b ih =>
      intro n
      simp only [List.foldl_cons, List.length_cons]
      rw [ih, ih (10 * 0 + _)]
      simp only [Nat.pow_succ, Nat.mul_zero, Nat.zero_add, Nat.add_mul]
      rw [Nat.mul_comm 10 n, Nat.mul_assoc, Nat.mul_comm 10, Nat.add_assoc]
  simp only [natOf, List.foldl_append]
  rw [key]

theorem natOf_zeros (n : Nat) : natOf (List.replicate n '0') = 0 := by
  induction n with
  | zero => rfl
  | succ n ih =>
    rw [List.replicate_succ', natOf_append, ih]; rfl

theorem micros_eq (f : Str) : natOf (f ++ List.replicate (6 - f.length) '0') = micros f := by
  rw [natOf_append, natOf_zeros]; simp [micros]

theorem offset_eq {z : Tz} (h : z.WF) : isoOffsetOf z.render = z.minutes := by
  cases z with
  | utc => decide
  | plus hh mm =>
    obtain ⟨⟨h1, _⟩, ⟨h2, _⟩⟩ := h
    match hh, mm, h1, h2 with
    | [a, b], [c, d], _, _ =>
      simp [isoOffsetOf, Tz.render, Tz.minutes]; omega
  | minus hh mm =>
    obtain ⟨⟨h1, _⟩, ⟨h2, _⟩⟩ := h
    match hh, mm, h1, h2 with
    | [a, b], [c, d], _, _ =>
      simp [isoOffsetOf, Tz.render, Tz.minutes]; omega

theorem isoSeconds_eq (s : Str) : isoSeconds s =
    ((pSec s).1.map (·.1), (pSec s).1.bind (·.2), (pSec s).2) := by
  unfold isoSeconds pSec
  split
  · rename_i s'
    cases hq : reDigitsUpTo 2 s' with
    | mk a b => cases a <;> simp [hq]
  · simp

theorem isoTz_eq (s : Str) : isoTz s = ((pTz s).1.map Tz.render, (pTz s).2) := by
  unfold isoTz pTz
  split
  · simp [Tz.render]
  · rename_i c s' _
    split
    · rename_i hc
      simp only [if_pos hc]
      generalize reDigits 2 s' = q
      cases q with
      | none => simp
      | some q =>
        obtain ⟨hh, s2⟩ := q
        cases s2 with
        | nil => simp
        | cons x s2 =>
          by_cases hx : x = ':'
          · subst hx
            simp only
            generalize reDigits 2 s2 = q2
            cases q2 with
            | none => simp
            | some q2 => rcases hc with rfl | rfl <;> simp [Tz.render]
          · simp [hx]
    · rename_i hc; simp [hc]
  · simp

theorem digits_ne {n : Nat} {s : Str} (h : Digits (n + 1) s) : s ≠ [] := by
  rintro rfl; have := h.1; simp at this

theorem defaultNone_digits {n : Nat} {s : Str} (h : Digits (n + 1) s) : defaultNone (some s) = some (natOf s) := by
  cases s with
  | nil => exact absurd rfl (digits_ne h)
  | cons c s => rfl

theorem mkDateTime_zero {t : DateTime} (h : ¬ (t.date.year ≠ 0 ∧ t.date.month ≠ 0 ∧ t.date.day ≠ 0)) :
    mkDateTime t = .error .ValueError := by
  unfold mkDateTime
  rw [if_neg]
  rintro ⟨⟨h1, _, h2, _, h3, _⟩, _⟩
  exact h ⟨by omega, by omega, by omega⟩

theorem isoMatch_eq (s : Str) : isoMatch s = match isoDateMatch s with
    | none => none
    | some (g, s) => match pTime s with
      | none => none
      | some (t, r) => some (IsoGroups.mk g.year g.month g.day (some t.hour) (some t.minute)
          (t.sec.map (·.1)) (t.sec.bind (·.2)) (t.tz.map Tz.render), r) := by
  cases hd : isoDateMatch s with
  | none => simp [isoMatch, hd]
  | some p =>
    obtain ⟨g, s1⟩ := p
    simp only [isoMatch, hd, bind, Option.bind_some, pTime]
    cases h1 : reChar 'T' s1 with
    | none => simp
    | some s2 =>
      simp only [Option.bind_some]
      cases h2 : reDigits 2 s2 with
      | none => simp
      | some p2 =>
        simp only [Option.bind_some]
        cases h3 : reChar ':' p2.2 with
        | none => simp
        | some s4 =>
          simp only [Option.bind_some]
          cases h4 : reDigits 2 s4 with
          | none => simp
          | some p5 => simp [isoSeconds_eq, isoTz_eq]

/-- the function, through the parser of the format -/
theorem from_iso8601_eq (s : Str) : from_iso8601 s = match pText s with
    | none => .error .ValueError
    | some (t, _) => mkDateTime t.value := by
  cases hp : pText s with
  | none =>
    unfold pText at hp
    split at hp
    · rename_i hd; simp [from_iso8601, isoMatch_eq, hd]
    · split at hp <;> cases hp
  | some p =>
    obtain ⟨t, r⟩ := p
    obtain ⟨_, hwf⟩ := pText_sound hp
    simp only
    unfold pText at hp
    split at hp
    · cases hp
    · rename_i g s1 hd
      obtain ⟨y, m, d, hs, hy, hm, hdd, rfl⟩ := isoDateMatch_iff.1 hd
      have z1 : defaultZero y = natOf y := by simp [defaultZero, digits_ne hy]
      have z2 : defaultZero m = natOf m := by simp [defaultZero, digits_ne hm]
      have z3 : defaultZero d = natOf d := by simp [defaultZero, digits_ne hdd]
      split at hp
      · rename_i ht
        simp only [Option.some.injEq, Prod.mk.injEq] at hp
        obtain ⟨rfl, rfl⟩ := hp
        simp only [from_iso8601, isoMatch_eq, hd, ht, z1, z2, z3, defaultNone, and_self, if_true,
          Text.value]
        split
        · rename_i h0
          exact (mkDateTime_zero (by simpa using h0)).symm
        · rfl
      · rename_i tt s2 ht
        simp only [Option.some.injEq, Prod.mk.injEq] at hp
        obtain ⟨rfl, rfl⟩ := hp
        obtain ⟨hour, minute, sec, tz⟩ := tt
        obtain ⟨w1, w2, w3, w4⟩ := hwf.2.2.2 _ rfl
        simp only at w1 w2 w3 w4
        have hh := defaultNone_digits w1
        have hm := defaultNone_digits w2
        have hsec : (defaultNone (sec.map (·.1))).getD 0 = (match sec with
            | some (s, _) => natOf s
            | none => 0) := by
          cases sec with
          | none => rfl
          | some p =>
            obtain ⟨a, b⟩ := p
            simp only [Option.map_some]
            rcases (w3 a b rfl).1 with h | h
            · rw [defaultNone_digits h]; rfl
            · rw [defaultNone_digits h]; rfl
        simp only [from_iso8601, isoMatch_eq, hd, ht, z1, z2, z3, hh, hm, reduceCtorEq, false_and,
          if_false, hsec, Option.getD_some, Text.value]
        split
        · rename_i h0
          exact (mkDateTime_zero (by simpa using h0)).symm
        · cases tz with
          | none => rcases sec with _ | ⟨a, _ | f⟩ <;> simp [micros_eq]
          | some z =>
            have ho := offset_eq (w4 z rfl)
            cases hz : z.render with
            | nil => cases z <;> simp [Tz.render] at hz
            | cons c cs =>
              rw [hz] at ho
              rcases sec with _ | ⟨a, _ | f⟩ <;> simp [micros_eq, hz, ho]

/-- `from_iso8601` gives the meaning of the longest text in the documented format that the string
starts with; the only failure is `ValueError`: no such text, or fields out of range. -/
theorem C15_decision (s : Str) :
    (∀ t, Longest s t → t.value.Valid → from_iso8601 s = .ok t.value) ∧
    (∀ t, Longest s t → ¬ t.value.Valid → from_iso8601 s = .error .ValueError) ∧
    ((¬ ∃ t, Longest s t) → from_iso8601 s = .error .ValueError) := by
  refine ⟨?_, ?_, ?_⟩
  · intro t h hv
    obtain ⟨r, hp⟩ := pText_longest h
    simp [from_iso8601_eq, hp, mkDateTime, hv]
  · intro t h hv
    obtain ⟨r, hp⟩ := pText_longest h
    simp [from_iso8601_eq, hp, mkDateTime, hv]
  · intro h
    cases hp : pText s with
    | none => simp [from_iso8601_eq, hp]
    | some p => exact absurd ⟨p.1, pText_isLongest hp⟩ h

/-- Text that does not start with `dddd-dd-dd` is rejected. -/
theorem C15_reject {s : Str}
    (h : ¬ ∃ y m d r, s = y ++ '-' :: (m ++ '-' :: (d ++ r)) ∧ Digits 4 y ∧ Digits 2 m ∧ Digits 2 d) :
    from_iso8601 s = .error .ValueError := by
  apply (C15_decision s).2.2
  rintro ⟨t, hwf, ⟨u, hu⟩, _⟩
  exact h ⟨t.year, t.month, t.day, renderTime t.time ++ u, by
    rw [← hu]; simp [Text.render], hwf.1, hwf.2.1, hwf.2.2.1⟩

/-- On a text in the documented format (nothing before or after it): accepted exactly when all
fields are in range. -/
theorem C15_whole {t : Text} (h : t.WF) :
    from_iso8601 t.render = if t.value.Valid then .ok t.value else .error .ValueError := by
  have hl : Longest t.render t := ⟨h, List.prefix_refl _, fun t' _ hp => hp.length_le⟩
  split
  · rename_i hv; exact (C15_decision _).1 t hl hv
  · rename_i hv; exact (C15_decision _).2.1 t hl hv

/-- The claim that only whole strings in the format are accepted is false: what follows the
longest readable prefix is ignored, including a malformed time of day. -/
theorem C15_whole_string_false :
    ¬ ∀ s d, from_iso8601 s = .ok d → ∃ t : Text, t.WF ∧ t.render = s := by
  intro h
  have h1 : from_iso8601 c!"2018-01-01T25" = .ok ⟨⟨2018, 1, 1⟩, 0, 0, 0, 0, none⟩ := by decide
  obtain ⟨t, hwf, hr⟩ := h _ _ h1
  -- a WF text has 10 or at least 16 characters
  have h13 : t.render.length = 13 := by rw [hr]; decide
  obtain ⟨y, m, d, time⟩ := t
  obtain ⟨⟨hy, _⟩, ⟨hm, _⟩, ⟨hd, _⟩, ht⟩ := hwf
  simp only at hy hm hd ht
  cases time with
  | none => simp [Text.render, renderTime, hy, hm, hd] at h13
  | some x =>
    obtain ⟨⟨hh, _⟩, ⟨hmi, _⟩, _⟩ := ht x rfl
    simp only [Text.render, renderTime, TimeText.render, List.length_append, List.length_cons, hy, hm,
      hd, hh, hmi] at h13
    omega

/-- non-vacuity -/
example : (Text.mk c!"2018" c!"02" c!"28" (some ⟨c!"23", c!"05", some (c!"7", some c!"25"), some (.minus c!"05" c!"30")⟩)).render =
    c!"2018-02-28T23:05:7.25-05:30" ∧
    from_iso8601 c!"2018-02-28T23:05:7.25-05:30" = .ok ⟨⟨2018, 2, 28⟩, 23, 5, 7, 250000, some (-330)⟩ ∧
    from_iso8601 c!"2018-02-29" = .error .ValueError ∧ from_iso8601 c!"2016-02-29" = .ok ⟨⟨2016, 2, 29⟩, 0, 0, 0, 0, none⟩ ∧
    from_iso8601 c!"2018-1-1" = .error .ValueError := by decide

end Props.C15
