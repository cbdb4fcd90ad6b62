import Verif.Props.C14
import Verif.Spec.Rfc3339
/-!
# C66: dates and times are written in the format the specification asks for

Swagger asks for a `full-date` (format `date`) or a `date-time` (format `date-time`) of RFC 3339.
What holds: every `Date` not made from a `datetime` is written as the `full-date` of its day, and a
`Datetime` with an offset as the `date-time` of its fields. A `Date` made from a `datetime` is
written with the time of the day; a `Datetime` without offset is written without one, which is no
`date-time`; one whose offset reaches a day is accepted and fails when it is written.
-/

namespace Props.C66
open Py Utils Spec.Iso Spec.Rfc3339 Props.C14 Props.C15

/-- what a `Date` is made from, other than a `datetime`, stands for this day -/
inductive Day (fromts : PyFloat → Except Exc Date) : TimeArg → Date → Prop
  | date (d) : Day fromts (.date d) d
  | float (x d) : fromts x = .ok d → Day fromts (.float x) d
  | str (s t) : Longest s t → Day fromts (.str s) t.value.date

/-- what a `Datetime` is made from stands for these fields -/
inductive Moment (utcfromts : PyFloat → Except Exc DateTime) : TimeArg → DateTime → Prop
  | datetime (t) : Moment utcfromts (.datetime t) t
  | float (x t) : utcfromts x = .ok t → Moment utcfromts (.float x) t
  | str (s t) : Longest s t → Moment utcfromts (.str s) t.value

theorem fullDate_iso {d : Date} (h : d.Valid) : FullDate d.isoformat d := by
  obtain ⟨hy1, hy2, hm1, hm2, hd1, hd2⟩ := id h
  have := daysInMonth_le d.year d.month
  have e1 : natOf (pad 4 d.year) = d.year := natOf_pad (by norm_num; omega)
  have e2 : natOf (pad 2 d.month) = d.month := natOf_pad (by norm_num; omega)
  have e3 : natOf (pad 2 d.day) = d.day := natOf_pad (by norm_num; omega)
  exact ⟨_, _, _, pad_digits 4 d.year, pad_digits 2 d.month, pad_digits 2 d.day, by simp [Date.isoformat], by rw [e1, e2, e3], h⟩

/-- Whatever stands for a day is accepted, and written as the `full-date` of that day. -/
theorem C66_date (fromts : PyFloat → Except Exc Date) {arg : TimeArg} {d : Date} (h : Day fromts arg d) (hv : d.Valid)
    (hs : ∀ s t, arg = .str s → Longest s t → t.value.Valid) :
    ∃ v s, dateApply fromts arg = .ok v ∧ timeToJson v = .ok s ∧ FullDate s d := by
  cases h with
  | date => exact ⟨_, _, rfl, rfl, fullDate_iso hv⟩
  | float x d hx => exact ⟨.date d, _, by simp [dateApply, hx], rfl, fullDate_iso hv⟩
  | str s t hl =>
    refine ⟨.date t.value.date, _, ?_, rfl, fullDate_iso hv⟩
    simp [dateApply, (C15_decision s).1 t hl (hs s t rfl hl)]

/-- Nothing else is accepted, but a `datetime`. -/
theorem C66_date_only (fromts : PyFloat → Except Exc Date) {arg : TimeArg} {v : TimeVal} (h : dateApply fromts arg = .ok v)
    (hn : ∀ t, arg ≠ .datetime t) : ∃ d, Day fromts arg d ∧ v = .date d := by
  cases arg with
  | float x =>
    simp only [dateApply] at h
    cases hx : fromts x with
    | error e => rw [hx] at h; cases h
    | ok d => rw [hx] at h; exact ⟨d, .float x d hx, (Except.ok.inj h).symm⟩
  | date d => exact ⟨_, .date d, by simpa [dateApply] using h.symm⟩
  | datetime t => exact absurd rfl (hn t)
  | other => cases h
  | str s =>
    by_cases hl : ∃ t, Longest s t
    · obtain ⟨t, hl⟩ := hl
      by_cases hv : t.value.Valid
      · refine ⟨_, .str s t hl, ?_⟩
        simp [dateApply, (C15_decision s).1 t hl hv] at h
        exact h.symm
      · simp [dateApply, (C15_decision s).2.1 t hl hv] at h
    · simp [dateApply, (C15_decision s).2.2 hl] at h

/-- A `datetime` given for a day is kept whole and written with its time. -/
theorem C66_date_false : ∃ (t : DateTime) (v : TimeVal) (s : Str), t.Valid ∧
    (∀ fromts, dateApply fromts (.datetime t) = .ok v) ∧ timeToJson v = .ok s ∧ ∀ d, ¬ FullDate s d := by
  refine ⟨⟨⟨2018, 1, 2⟩, 3, 4, 5, 0, none⟩, _, c!"2018-01-02T03:04:05", by decide, fun _ => rfl, by decide, ?_⟩
  rintro d ⟨y, m, a, hy, hm, ha, he, _⟩
  have := congrArg List.length he
  simp [hy.1, hm.1, ha.1] at this

/-- the length of an RFC 3339 text with its offset -/
theorem moment_text {t : DateTime} (h : t.Valid) {o : Int} (ho : t.offset = some o) (h1 : -1440 < o) (h2 : o < 1440) :
    DateTimeText t.isoformat t := by
  have hp : Printable t := ⟨h, fun o' e => by rw [ho] at e; cases e; exact ⟨h1, h2⟩⟩
  have hw := textOf_wf t
  have hv := textOf_value hp
  have hr := textOf_render t
  simp only [textOf, ho, Option.map_some] at hw hv hr
  obtain ⟨w1, w2, w3, w4⟩ := hw
  obtain ⟨w5, w6, w7, w8⟩ := w4 _ rfl
  refine ⟨_, _, _, _, _, _, _, _, w1, w2, w3, w5, w6, pad_digits 2 t.second, (w7 _ _ rfl).2, w8 _ rfl, ?_, hr.symm, hv.symm, h⟩
  unfold tzText
  have a1 : natOf (pad 2 (o.natAbs / 60)) = o.natAbs / 60 := natOf_pad (by norm_num; omega)
  have a2 : natOf (pad 2 (o.natAbs % 60)) = o.natAbs % 60 := natOf_pad (by norm_num; omega)
  split <;> simp only [OffsetOk, a1, a2] <;> omega

/-- Whatever stands for a moment with an offset below a day is accepted, and written as the
`date-time` of its fields. -/
theorem C66_datetime (utcfromts : PyFloat → Except Exc DateTime) {arg : TimeArg} {t : DateTime} (h : Moment utcfromts arg t)
    (hv : t.Valid) {o : Int} (ho : t.offset = some o) (h1 : -1440 < o) (h2 : o < 1440) :
    ∃ s, datetimeApply utcfromts arg = .ok (.datetime t) ∧ timeToJson (.datetime t) = .ok s ∧ DateTimeText s t := by
  refine ⟨t.isoformat, ?_, by simp [timeToJson, ho, h1, h2], moment_text hv ho h1 h2⟩
  cases h with
  | datetime => rfl
  | float x t hx => simp [datetimeApply, hx]
  | str s t hl => simp [datetimeApply, (C15_decision s).1 t hl hv]

/-- Nothing else is accepted. -/
theorem C66_datetime_only (utcfromts : PyFloat → Except Exc DateTime) {arg : TimeArg} {v : TimeVal}
    (h : datetimeApply utcfromts arg = .ok v) : ∃ t, Moment utcfromts arg t ∧ v = .datetime t := by
  cases arg with
  | float x =>
    simp only [datetimeApply] at h
    cases hx : utcfromts x with
    | error e => rw [hx] at h; cases h
    | ok d => rw [hx] at h; exact ⟨d, .float x d hx, (Except.ok.inj h).symm⟩
  | datetime t => exact ⟨_, .datetime t, by simpa [datetimeApply] using h.symm⟩
  | date d => cases h
  | other => cases h
  | str s =>
    by_cases hl : ∃ t, Longest s t
    · obtain ⟨t, hl⟩ := hl
      by_cases hv : t.value.Valid
      · refine ⟨_, .str s t hl, ?_⟩
        simp [datetimeApply, (C15_decision s).1 t hl hv] at h
        exact h.symm
      · simp [datetimeApply, (C15_decision s).2.1 t hl hv] at h
    · simp [datetimeApply, (C15_decision s).2.2 hl] at h

/-- the length of a text without offset: 19, or 26 with microseconds -/
theorem naive_length {t : DateTime} (ho : t.offset = none) :
    t.isoformat.length = if t.microsecond = 0 then 19 else 26 := by
  simp only [DateTime.isoformat, Date.isoformat, ho, isoOffset]
  split <;> simp [(pad_digits _ _).1]

/-- A moment without offset (every timestamp is one) is never written as a `date-time`. -/
theorem C66_naive_false {t : DateTime} (hv : t.Valid) (ho : t.offset = none) :
    ∃ s, timeToJson (.datetime t) = .ok s ∧ ∀ t', ¬ DateTimeText s t' := by
  refine ⟨t.isoformat, by simp [timeToJson, ho], ?_⟩
  rintro t' ⟨y, mo, d, h, mi, sec, f, z, hy, hmo, hd, hh, hmi, hsec, hf, hz, _, he, rfl, hv'⟩
  have hp : Printable t := ⟨hv, fun o e => by rw [ho] at e; cases e⟩
  have r1 := C14_datetime hp
  have hw : (Text.mk y mo d (some ⟨h, mi, some (sec, f), some z⟩)).WF := by
    refine ⟨hy, hmo, hd, ?_⟩
    intro x hx; simp only [Option.some.injEq] at hx; subst hx
    refine ⟨hh, hmi, ?_, ?_⟩
    · intro a b hab
      simp only [Option.some.injEq, Prod.mk.injEq] at hab
      obtain ⟨rfl, rfl⟩ := hab
      exact ⟨Or.inr hsec, hf⟩
    · intro z' hz'; simp only [Option.some.injEq] at hz'; subst hz'; exact hz
  have r2 := C15_whole hw
  rw [if_pos hv', ← he, r1] at r2
  have := congrArg (fun e : Except Exc DateTime => e.toOption.bind (·.offset)) r2
  simp [Except.toOption, ho, Text.value] at this

/-- An offset of a day or more is accepted in a text, and refused when the value is written. -/
theorem C66_offset (utcfromts : PyFloat → Except Exc DateTime) {s : Str} {t : Text} (h : Longest s t) (hv : t.value.Valid) {o : Int}
    (ho : t.value.offset = some o) (hbig : o ≤ -1440 ∨ 1440 ≤ o) :
    datetimeApply utcfromts (.str s) = .ok (.datetime t.value) ∧
    timeToJson (.datetime t.value) = .error .ValueError := by
  refine ⟨by simp [datetimeApply, (C15_decision s).1 t h hv], ?_⟩
  simp only [timeToJson, ho]
  rw [if_neg (by omega)]

/-! ## Cases -/

example (u : PyFloat → Except Exc DateTime) : datetimeApply u (.str c!"2018-01-02T03:04:05+25:00") =
    .ok (.datetime ⟨⟨2018, 1, 2⟩, 3, 4, 5, 0, some 1500⟩) ∧
    timeToJson (.datetime ⟨⟨2018, 1, 2⟩, 3, 4, 5, 0, some 1500⟩) = .error .ValueError := by
  refine ⟨rfl, by decide⟩
example (u : PyFloat → Except Exc Date) : dateApply u (.str c!"2018-01-02T03:04:05Z") = .ok (.date ⟨2018, 1, 2⟩) ∧
    timeToJson (.date ⟨2018, 1, 2⟩) = .ok c!"2018-01-02" := ⟨rfl, by decide⟩
example : timeToJson (.datetime ⟨⟨2018, 1, 2⟩, 3, 4, 5, 7, some (-90)⟩) = .ok c!"2018-01-02T03:04:05.000007-01:30" := by
  decide

end Props.C66
