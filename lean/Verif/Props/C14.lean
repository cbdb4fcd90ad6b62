import Verif.Props.C15
/-!
# C14: ISO-8601 text of a date or time is read back to the same value

Spec side: `isoformat` of the standard library (`Py/DateTime.lean`) and the format of
`Spec/Iso8601.lean`.
-/

namespace Props.C14
open Py Utils Spec.Iso Props.C15

theorem digit_table : ∀ n : Fin 10, (Nat.digitChar n.1).isDigit = true ∧ (Nat.digitChar n.1).toNat - 48 = n.1 := by
  decide

theorem pad_digits (k n : Nat) : Digits k (pad k n) := by
  induction k generalizing n with
  | zero => simp [pad, Digits]
  | succ k ih =>
    refine ⟨by simp [pad, (ih _).1], ?_⟩
    intro c hc
    simp only [pad, List.mem_append, List.mem_singleton] at hc
    rcases hc with h | rfl
    · exact (ih _).2 c h
    · exact (digit_table ⟨n % 10, Nat.mod_lt _ (by omega)⟩).1

theorem natOf_pad {k n : Nat} (h : n < 10 ^ k) : natOf (pad k n) = n := by
  induction k generalizing n with
  | zero => simp at h; subst h; rfl
  | succ k ih =>
    have h1 : n / 10 < 10 ^ k := by rw [Nat.div_lt_iff_lt_mul (by omega)]; rw [Nat.pow_succ] at h; exact h
    have h2 := (digit_table ⟨n % 10, Nat.mod_lt _ (by omega)⟩).2
    simp only at h2
    simp only [pad, natOf_append, ih h1, List.length_singleton, Nat.pow_one]
    simp only [natOf, List.foldl_cons, List.foldl_nil, Nat.mul_zero, Nat.zero_add, h2]
    omega

/-- a valid date-time whose offset, if any, is less than a day in absolute value (as the
standard library requires of every offset it is asked to print) -/
def Printable (t : DateTime) : Prop :=
  t.Valid ∧ ∀ o, t.offset = some o → -1440 < o ∧ o < 1440

/-- the text of an offset -/
def tzText (o : Int) : Tz :=
  if o < 0 then .minus (pad 2 (o.natAbs / 60)) (pad 2 (o.natAbs % 60))
  else .plus (pad 2 (o.natAbs / 60)) (pad 2 (o.natAbs % 60))

/-- the text of a date-time -/
def textOf (t : DateTime) : Text :=
  ⟨pad 4 t.date.year, pad 2 t.date.month, pad 2 t.date.day,
    some ⟨pad 2 t.hour, pad 2 t.minute,
      some (pad 2 t.second, if t.microsecond = 0 then none else some (pad 6 t.microsecond)),
      t.offset.map tzText⟩⟩

theorem textOf_render (t : DateTime) : (textOf t).render = t.isoformat := by
  simp only [textOf, Text.render, renderTime, TimeText.render, renderSec, DateTime.isoformat,
    Date.isoformat, List.append_assoc, List.cons_append]
  by_cases hm : t.microsecond = 0
  · cases t.offset with
    | none => simp [hm, renderFrac, renderTz, isoOffset]
    | some o => by_cases ho : o < 0 <;> simp [hm, renderFrac, renderTz, isoOffset, tzText, ho, Tz.render]
  · cases t.offset with
    | none => simp [hm, renderFrac, renderTz, isoOffset]
    | some o => by_cases ho : o < 0 <;> simp [hm, renderFrac, renderTz, isoOffset, tzText, ho, Tz.render]

theorem textOf_wf (t : DateTime) : (textOf t).WF := by
  refine ⟨pad_digits _ _, pad_digits _ _, pad_digits _ _, ?_⟩
  intro x hx
  simp only [textOf, Option.some.injEq] at hx
  subst hx
  refine ⟨pad_digits _ _, pad_digits _ _, ?_, ?_⟩
  · intro s f h
    simp only [Option.some.injEq, Prod.mk.injEq] at h
    obtain ⟨rfl, rfl⟩ := h
    refine ⟨Or.inr (pad_digits _ _), ?_⟩
    intro f' hf'
    split at hf'
    · cases hf'
    · simp only [Option.some.injEq] at hf'
      subst hf'
      exact ⟨6, by omega, by omega, pad_digits _ _⟩
  · intro z hz
    simp only [Option.map_eq_some_iff] at hz
    obtain ⟨o, _, rfl⟩ := hz
    unfold tzText
    split <;> exact ⟨pad_digits _ _, pad_digits _ _⟩

theorem daysInMonth_le (y m : Nat) : daysInMonth y m ≤ 31 := by
  unfold daysInMonth; split
  · split <;> omega
  · split <;> omega

theorem textOf_value {t : DateTime} (h : Printable t) : (textOf t).value = t := by
  obtain ⟨⟨⟨hy1, hy2, hm1, hm2, hd1, hd2⟩, hh, hmi, hs, hus⟩, ho⟩ := h
  obtain ⟨⟨y, m, d⟩, hour, minute, second, us, off⟩ := t
  simp only at *
  have := daysInMonth_le y m
  have e1 : natOf (pad 4 y) = y := natOf_pad (by norm_num; omega)
  have e2 : natOf (pad 2 m) = m := natOf_pad (by norm_num; omega)
  have e3 : natOf (pad 2 d) = d := natOf_pad (by norm_num; omega)
  have e4 : natOf (pad 2 hour) = hour := natOf_pad (by norm_num; omega)
  have e5 : natOf (pad 2 minute) = minute := natOf_pad (by norm_num; omega)
  have e6 : natOf (pad 2 second) = second := natOf_pad (by norm_num; omega)
  have e7 : natOf (pad 6 us) = us := natOf_pad (by norm_num; omega)
  have e8 : (pad 6 us).length = 6 := (pad_digits 6 us).1
  have hoff : (off.map tzText).map Tz.minutes = off := by
    cases off with
    | none => rfl
    | some o =>
      have hob := ho o rfl
      have a1 : natOf (pad 2 (o.natAbs / 60)) = o.natAbs / 60 := natOf_pad (by norm_num; omega)
      have a2 : natOf (pad 2 (o.natAbs % 60)) = o.natAbs % 60 := natOf_pad (by norm_num; omega)
      simp only [Option.map_some, Option.some.injEq, tzText]
      split
      · simp only [Tz.minutes, a1, a2]; omega
      · simp only [Tz.minutes, a1, a2]; omega
  by_cases hz : us = 0
  · simp [textOf, Text.value, e1, e2, e3, e4, e5, e6, hz]; simpa using hoff
  · simp [textOf, Text.value, e1, e2, e3, e4, e5, e6, e7, hz, micros, e8]; simpa using hoff

/-- Every printable date-time (naive or with an offset in whole minutes, with or without
microseconds) is read back from its text: same fields, same offset. -/
theorem C14_datetime {t : DateTime} (h : Printable t) : from_iso8601 t.isoformat = .ok t := by
  rw [← textOf_render, C15_whole (textOf_wf t), textOf_value h, if_pos h.1]

/-- Every valid date is read back from its text, as midnight of that day. -/
theorem C14_date {d : Date} (h : d.Valid) : from_iso8601 d.isoformat = .ok ⟨d, 0, 0, 0, 0, none⟩ := by
  obtain ⟨hy1, hy2, hm1, hm2, hd1, hd2⟩ := h
  have := daysInMonth_le d.year d.month
  have e1 : natOf (pad 4 d.year) = d.year := natOf_pad (by norm_num; omega)
  have e2 : natOf (pad 2 d.month) = d.month := natOf_pad (by norm_num; omega)
  have e3 : natOf (pad 2 d.day) = d.day := natOf_pad (by norm_num; omega)
  have hr : d.isoformat = (Text.mk (pad 4 d.year) (pad 2 d.month) (pad 2 d.day) none).render := by
    simp [Date.isoformat, Text.render, renderTime]
  rw [hr, C15_whole ⟨pad_digits _ _, pad_digits _ _, pad_digits _ _, by simp⟩]
  simp only [Text.value, e1, e2, e3]
  rw [if_pos ⟨⟨hy1, hy2, hm1, hm2, hd1, hd2⟩, by norm_num, by norm_num, by norm_num, by norm_num⟩]

/-- The primitives: a `Date`, and a `Datetime`, built from their own text hold the same value. -/
theorem C14_primitives (fromts : PyFloat → Except Exc Date) (utcfromts : PyFloat → Except Exc DateTime) :
    (∀ d : Date, d.Valid → (timeToJson (.date d) >>= fun s => dateApply fromts (.str s)) = .ok (.date d)) ∧
    (∀ t : DateTime, Printable t →
      (timeToJson (.datetime t) >>= fun s => datetimeApply utcfromts (.str s)) = .ok (.datetime t)) := by
  refine ⟨fun d h => ?_, fun t h => ?_⟩
  · simp [dateApply, timeToJson, C14_date h, bind, Except.bind]
  · have ht : timeToJson (.datetime t) = .ok t.isoformat := by
      unfold timeToJson
      cases ho : t.offset with
      | none => simp only [ho]
      | some o => simp only [ho]; rw [if_pos (h.2 o ho)]
    simp [datetimeApply, ht, C14_datetime h, bind, Except.bind]

/-- What the constructors make of each kind of argument. -/
theorem C14_arguments (fromts : PyFloat → Except Exc Date) (utcfromts : PyFloat → Except Exc DateTime) :
    (∀ d, dateApply fromts (.date d) = .ok (.date d)) ∧
    (∀ t, datetimeApply utcfromts (.datetime t) = .ok (.datetime t)) ∧
    (∀ x, dateApply fromts (.float x) = (fromts x).map .date) ∧
    (∀ x, datetimeApply utcfromts (.float x) = (utcfromts x).map .datetime) ∧
    (∀ s, (∃ e, from_iso8601 s = .error e) ↔ dateApply fromts (.str s) = .error .ValueError) ∧
    (∀ s, (∃ e, from_iso8601 s = .error e) ↔ datetimeApply utcfromts (.str s) = .error .ValueError) ∧
    dateApply fromts .other = .error .ValueError ∧ datetimeApply utcfromts .other = .error .ValueError ∧
    (∀ d, datetimeApply utcfromts (.date d) = .error .ValueError) := by
  have herr : ∀ s e, from_iso8601 s = .error e → e = .ValueError := by
    intro s e h
    rw [from_iso8601_eq] at h
    split at h
    · simpa using h.symm
    · unfold mkDateTime at h; split at h
      · cases h
      · simpa using h.symm
  refine ⟨fun _ => rfl, fun _ => rfl, fun x => by simp only [dateApply]; cases fromts x <;> rfl,
    fun x => by simp only [datetimeApply]; cases utcfromts x <;> rfl, fun s => ?_, fun s => ?_, rfl, rfl, fun _ => rfl⟩
  · cases hs : from_iso8601 s with
    | ok t => simp [dateApply, hs]
    | error e => simp [dateApply, hs, herr s e hs]
  · cases hs : from_iso8601 s with
    | ok t => simp [datetimeApply, hs]
    | error e => simp [datetimeApply, hs, herr s e hs]

/-- `Z` is offset zero; a fraction of `k` digits counts units of `10^(6-k)` microseconds. -/
theorem C14_z_and_fraction {y mo d h mi s f : Str} {k : Nat} (hy : Digits 4 y) (hmo : Digits 2 mo)
    (hd : Digits 2 d) (hh : Digits 2 h) (hmi : Digits 2 mi) (hs : Digits 2 s) (hk : 1 ≤ k ∧ k ≤ 6)
    (hf : Digits k f)
    (hv : DateTime.Valid ⟨⟨natOf y, natOf mo, natOf d⟩, natOf h, natOf mi, natOf s, natOf f * 10 ^ (6 - k), some 0⟩) :
    from_iso8601 (y ++ '-' :: (mo ++ '-' :: (d ++ 'T' :: (h ++ ':' :: (mi ++ ':' :: (s ++ '.' :: (f ++ c!"Z"))))))) =
      .ok ⟨⟨natOf y, natOf mo, natOf d⟩, natOf h, natOf mi, natOf s, natOf f * 10 ^ (6 - k), some 0⟩ := by
  have hw : (Text.mk y mo d (some ⟨h, mi, some (s, some f), some .utc⟩)).WF := by
    refine ⟨hy, hmo, hd, ?_⟩
    rintro x hx
    simp only [Option.some.injEq] at hx
    subst hx
    refine ⟨hh, hmi, ?_, ?_⟩
    · intro a b hab
      simp only [Option.some.injEq, Prod.mk.injEq] at hab
      obtain ⟨rfl, rfl⟩ := hab
      exact ⟨Or.inr hs, fun f' hf' => by simp at hf'; subst hf'; exact ⟨k, hk.1, hk.2, hf⟩⟩
    · intro z hz; simp at hz; subst hz; trivial
  have := C15_whole hw
  have hm : micros f = natOf f * 10 ^ (6 - k) := by simp [micros, hf.1]
  simp only [Text.value, hm, Option.map_some, Tz.minutes] at this
  rw [if_pos hv] at this
  rw [← this]
  simp [Text.render, renderTime, TimeText.render, renderSec, renderFrac, renderTz, Tz.render]

/-- non-vacuity -/
example : Printable ⟨⟨2016, 2, 29⟩, 23, 59, 1, 1200, some (-90)⟩ ∧
    DateTime.isoformat ⟨⟨2016, 2, 29⟩, 23, 59, 1, 1200, some (-90)⟩ = c!"2016-02-29T23:59:01.001200-01:30" := by
  refine ⟨⟨by decide, ?_⟩, by decide⟩
  intro o ho; simp at ho; subst ho; decide
example : from_iso8601 c!"2018-01-01T10:20:30.5Z" = .ok ⟨⟨2018, 1, 1⟩, 10, 20, 30, 500000, some 0⟩ := by decide

end Props.C14
