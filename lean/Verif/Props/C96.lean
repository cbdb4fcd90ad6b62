import Verif.Model.RenderFormats
import Verif.Proofs.Calendar
import Verif.Proofs.Render
import Verif.Props.C15
import Verif.Props.C41
import Verif.Props.C66
import Verif.Props.C69
/-!
# C96: what `Renderer` makes for the formats `byte`, `uuid`, `date` and `date-time`, and what is sent for it

What is made is handed to the constructor of the primitive, whose `to_json` gives the text that is sent.
-/

namespace Props.C96
open Py Prim Render Utils Spec.Calendar Spec.Rfc3339 Proofs.Calendar
open Spec.Rendered (Letter)

/-! ## dates -/

/-- Without an allowed value a date is one of the days from January 2, 1970 to before January 19, 2038, and each of them may be
made; what is sent is the `full-date` of RFC 3339 for that day. -/
theorem C96_date (tz : Int) {val : Option Str} (hv : val = none ∨ val = some []) (r : Ends Date) :
    Run (makeDate tz val) r ↔
      ∃ d : Date, r = .value d ∧ d.Valid ∧ ¬ Before d ⟨1970, 1, 2⟩ ∧ Before d ⟨2038, 1, 19⟩ := by
  have hg : given val = none := by rcases hv with rfl | rfl <;> rfl
  have real1 : Real ⟨1970, 1, 2⟩ := ⟨by decide, by decide, by decide, by decide, by decide⟩
  have real2 : Real ⟨2038, 1, 19⟩ := ⟨by decide, by decide, by decide, by decide, by decide⟩
  unfold makeDate
  simp only [hg]
  constructor
  · intro h
    rcases run_bind.1 h with ⟨q, h1, h2⟩ | ⟨e, h, _⟩ | ⟨h, _⟩
    · obtain ⟨i, hi, e⟩ := run_uniform.1 h1
      cases e
      rw [drawn_day] at h2
      have hn : 1 + 24854 * i / 2 ^ 53 < 24855 := by omega
      have hp : 1 ≤ 1 + 24854 * i / 2 ^ 53 := by omega
      generalize 1 + 24854 * i / 2 ^ 53 = n at *
      have hr := dateOfDay_real n
      have hb : Before (dateOfDay n) ⟨2038, 1, 19⟩ := (before_iff hr real2).2 (by rw [dayOf_dateOfDay, lastDay]; exact hn)
      refine ⟨_, run_ret.1 h2, real_valid hr ?_, ?_, hb⟩
      · unfold Before at hb; simp only at hb; omega
      · rw [before_iff hr real1, dayOf_dateOfDay, firstDay]; omega
    · obtain ⟨_, _, e⟩ := run_uniform.1 h
      cases e
    · obtain ⟨_, _, e⟩ := run_uniform.1 h
      cases e
  · rintro ⟨d, rfl, hd, h1, h2⟩
    have hr : Real d := by
      refine ⟨?_, hd.2.2⟩
      unfold Before at h1; simp only at h1; omega
    rw [before_iff hr real1, firstDay] at h1
    rw [before_iff hr real2, lastDay] at h2
    obtain ⟨i, hi, e⟩ := drawn_all (n := dayOf d) (by omega) h2
    refine run_bind.2 (.inl ⟨_, run_uniform.2 ⟨i, hi, rfl⟩, ?_⟩)
    rw [drawn_day, e, dateOfDay_dayOf hr]
    exact .ret _

/-- What is sent for a rendered date is its `full-date`. -/
theorem C96_date_sent (tz : Int) {val : Option Str} {d : Date} (h : Run (makeDate tz val) (.value d)) (fromts : PyFloat → Except Exc Date) :
    ∃ v s, dateApply fromts (.date d) = .ok v ∧ timeToJson v = .ok s ∧ FullDate s d := by
  refine C66.C66_date fromts (.date d) ?_ (fun _ _ h => by cases h)
  cases hg : given val with
  | none =>
    have : val = none ∨ val = some [] := by
      rcases val with _ | (_ | _)
      · exact .inl rfl
      · exact .inr rfl
      · cases hg
    obtain ⟨_, e, hd, _⟩ := (C96_date tz this _).1 h
    cases e
    exact hd
  | some s =>
    unfold makeDate at h
    simp only [hg] at h
    cases hf : from_iso8601 s with
    | error e => rw [hf] at h; cases h
    | ok t =>
      rw [hf] at h
      cases h
      by_cases hl : ∃ x, Spec.Iso.Longest s x
      · obtain ⟨x, hx⟩ := hl
        by_cases hv : x.value.Valid
        · rw [(C15.C15_decision s).1 x hx hv] at hf
          cases hf
          exact hv.1
        · rw [(C15.C15_decision s).2.1 x hx hv] at hf
          cases hf
      · rw [(C15.C15_decision s).2.2 hl] at hf
        cases hf

/-- An allowed value gives the day that it starts with, or `ValueError`. -/
theorem C96_date_allowed (tz : Int) {s : Str} (hs : s ≠ []) (r : Ends Date) :
    Run (makeDate tz (some s)) r ↔
      (∃ t, Spec.Iso.Longest s t ∧ t.value.Valid ∧ r = .value t.value.date) ∨
      ((¬ ∃ t, Spec.Iso.Longest s t ∧ t.value.Valid) ∧ r = .raises .ValueError) := by
  have hg : given (some s) = some s := by
    cases s with
    | nil => exact absurd rfl hs
    | cons => rfl
  obtain ⟨d1, d2, d3⟩ := C15.C15_decision s
  unfold makeDate
  simp only [hg]
  by_cases hl : ∃ t, Spec.Iso.Longest s t ∧ t.value.Valid
  · obtain ⟨t, ht, hv⟩ := hl
    rw [d1 t ht hv]
    simp only [run_ret]
    constructor
    · rintro rfl
      exact .inl ⟨t, ht, hv, rfl⟩
    · rintro (⟨t', ht', hv', rfl⟩ | ⟨hn, _⟩)
      · have := d1 t' ht' hv'
        rw [d1 t ht hv] at this
        rw [Except.ok.inj this]
      · exact absurd ⟨t, ht, hv⟩ hn
  · have he : from_iso8601 s = .error .ValueError := by
      by_cases h : ∃ t, Spec.Iso.Longest s t
      · obtain ⟨t, ht⟩ := h
        exact d2 t ht fun hv => hl ⟨t, ht, hv⟩
      · exact d3 h
    rw [he]
    simp only [run_fail]
    constructor
    · rintro rfl
      exact .inr ⟨hl, rfl⟩
    · rintro (⟨t', ht', hv', _⟩ | ⟨_, e⟩)
      · exact absurd ⟨t', ht', hv'⟩ hl
      · exact e

/-! ## date-times -/

/-- Without an allowed value a date-time is a moment without offset, from local midnight of January 2, 1970 to local midnight of
January 19, 2038 (`tz` seconds ahead of UTC), and each of them may be made. -/
theorem C96_datetime {tz : Int} (htz : -86400 < tz ∧ tz < 86400) {val : Option Str} (hv : val = none ∨ val = some []) (r : Ends DateTime) :
    Run (makeDatetime tz val) r ↔ ∃ t : DateTime, r = .value t ∧ t.Valid ∧ t.offset = none ∧
      micros ⟨⟨1970, 1, 2⟩, 0, 0, 0, 0, none⟩ - tz * 1000000 ≤ micros t ∧
      micros t ≤ micros ⟨⟨2038, 1, 19⟩, 0, 0, 0, 0, none⟩ - tz * 1000000 := by
  have hg : given val = none := by rcases hv with rfl | rfl <;> rfl
  have e1 : micros ⟨⟨1970, 1, 2⟩, 0, 0, 0, 0, none⟩ = 86400000000 := by decide +kernel
  have e2 : micros ⟨⟨2038, 1, 19⟩, 0, 0, 0, 0, none⟩ = 86400000000 * 24855 := by decide +kernel
  rw [e1, e2]
  have real2 : Real ⟨2038, 1, 21⟩ := ⟨by decide, by decide, by decide, by decide, by decide⟩
  unfold makeDatetime
  simp only [hg]
  constructor
  · intro h
    rcases run_bind.1 h with ⟨q, h1, h2⟩ | ⟨e, h, _⟩ | ⟨h, _⟩
    · obtain ⟨i, hi, e⟩ := run_uniform.1 h1
      have e := Ends.value.inj e
      have h2 := run_ret.1 h2
      rw [e] at h2
      unfold utcAt at h2
      rw [drawn_time] at h2
      have hx0 : (0 : Rat) ≤ ((2147385600000000 * i : Nat) : Rat) / (2 ^ 53 : Nat) := by
        rw [le_div_iff₀ (by norm_num), zero_mul]
        exact_mod_cast Nat.zero_le _
      have hx1 : ((2147385600000000 * i : Nat) : Rat) / (2 ^ 53 : Nat) < 2147385600000000 := by
        rw [div_lt_iff₀ (by norm_num)]
        have : ((2147385600000000 * i : Nat) : Rat) < ((2147385600000000 * 2 ^ 53 : Nat) : Rat) := by
          exact_mod_cast (by omega : 2147385600000000 * i < 2147385600000000 * 2 ^ 53)
        push_cast at this ⊢
        linarith
      obtain ⟨b1, b2⟩ := round_bounds (q := (((86400 - tz) * 1000000 : Int) : Rat) + ((2147385600000000 * i : Nat) : Rat) / (2 ^ 53 : Nat))
        (lo := (86400 - tz) * 1000000) (hi := (86400 - tz) * 1000000 + 2147385600000000)
        (by push_cast at *; linarith) (by push_cast at *; linarith)
      generalize roundEven _ = n at *
      have hr := dateOfDay_real (n.toNat / 86400000000)
      have hb : Before (momentOf n.toNat).date ⟨2038, 1, 21⟩ := by
        refine (before_iff hr real2).2 ?_
        rw [dayOf_dateOfDay, show dayOf ⟨2038, 1, 21⟩ = 24857 by decide +kernel]
        omega
      refine ⟨_, h2, moment_valid ?_, rfl, ?_, ?_⟩
      · unfold Before momentOf at hb; simp only at hb; omega
      · rw [micros_momentOf]; omega
      · rw [micros_momentOf]; omega
    · obtain ⟨_, _, e⟩ := run_uniform.1 h
      cases e
    · obtain ⟨_, _, e⟩ := run_uniform.1 h
      cases e
  · rintro ⟨t, rfl, hval, ho, h1, h2⟩
    have hy := year_of_micros hval (by omega)
    obtain ⟨us, hu, ht⟩ := momentOf_micros hval ho hy
    rw [hu] at h1 h2
    obtain ⟨i, hi, hi2⟩ := drawn_micros tz (n := (us - (86400 - tz) * 1000000).toNat) (by omega)
    refine run_bind.2 (.inl ⟨_, run_uniform.2 ⟨i, hi, rfl⟩, run_ret.2 ?_⟩)
    unfold utcAt
    rw [drawn_time, hi2, ← ht]
    congr 2
    omega

/-- An allowed value gives the moment that it starts with, or `ValueError`. -/
theorem C96_datetime_allowed (tz : Int) {s : Str} (hs : s ≠ []) (r : Ends DateTime) :
    Run (makeDatetime tz (some s)) r ↔
      (∃ t, Spec.Iso.Longest s t ∧ t.value.Valid ∧ r = .value t.value) ∨
      ((¬ ∃ t, Spec.Iso.Longest s t ∧ t.value.Valid) ∧ r = .raises .ValueError) := by
  have hg : given (some s) = some s := by
    cases s with
    | nil => exact absurd rfl hs
    | cons => rfl
  obtain ⟨d1, d2, d3⟩ := C15.C15_decision s
  unfold makeDatetime
  simp only [hg]
  by_cases hl : ∃ t, Spec.Iso.Longest s t ∧ t.value.Valid
  · obtain ⟨t, ht, hv⟩ := hl
    rw [d1 t ht hv]
    simp only [run_ret]
    constructor
    · rintro rfl
      exact .inl ⟨t, ht, hv, rfl⟩
    · rintro (⟨t', ht', hv', rfl⟩ | ⟨hn, _⟩)
      · have := d1 t' ht' hv'
        rw [d1 t ht hv] at this
        rw [Except.ok.inj this]
      · exact absurd ⟨t, ht, hv⟩ hn
  · have he : from_iso8601 s = .error .ValueError := by
      by_cases h : ∃ t, Spec.Iso.Longest s t
      · obtain ⟨t, ht⟩ := h
        exact d2 t ht fun hv => hl ⟨t, ht, hv⟩
      · exact d3 h
    rw [he]
    simp only [run_fail]
    constructor
    · rintro rfl
      exact .inr ⟨hl, rfl⟩
    · rintro (⟨t', ht', hv', _⟩ | ⟨_, e⟩)
      · exact absurd ⟨t', ht', hv'⟩ hl
      · exact e

/-- What is sent for a rendered date-time is never a `date-time` of RFC 3339: it has no offset. -/
theorem C96_datetime_false {tz : Int} (htz : -86400 < tz ∧ tz < 86400) {t : DateTime} (h : Run (makeDatetime tz none) (.value t))
    (utcfromts : PyFloat → Except Exc DateTime) :
    ∃ v s, datetimeApply utcfromts (.datetime t) = .ok v ∧ timeToJson v = .ok s ∧ ∀ t', ¬ DateTimeText s t' := by
  obtain ⟨_, e, hv, ho, _⟩ := (C96_datetime htz (.inl rfl) _).1 h
  cases e
  obtain ⟨s, h1, h2⟩ := C66.C66_naive_false hv ho
  exact ⟨_, s, rfl, h1, h2⟩

/-! ## UUIDs -/

/-- Without an allowed value a UUID is one of version 4 and of the variant of RFC 4122 (sections 4.1.1 and 4.1.3), and each of them
may be made. -/
theorem C96_uuid {val : Option Str} (hv : val = none ∨ val = some []) (r : Ends Nat) :
    Run (makeUuid val) r ↔ ∃ n : Nat, r = .value n ∧ n < 2 ^ 128 ∧ n / 2 ^ 76 % 16 = 4 ∧ n / 2 ^ 62 % 4 = 2 := by
  have hg : given val = none := by rcases hv with rfl | rfl <;> rfl
  unfold makeUuid uuid4
  simp only [hg]
  rw [run_pick]
  constructor
  · rintro ⟨n, hn, h⟩
    refine ⟨_, run_ret.1 h, ?_⟩
    omega
  · rintro ⟨n, rfl, h1, h2, h3⟩
    refine ⟨n, by omega, run_ret.2 ?_⟩
    congr 1
    omega

/-- The text sent for a rendered UUID is its canonical form; read as a UUID it is the same again. -/
theorem C96_uuid_sent {val : Option Str} {n : Nat} (h : Run (makeUuid val) (.value n)) (hv : val = none ∨ val = some []) :
    Prim.Uuid.apply (.uuid n) = .ok n ∧ (∃ ds, Spec.Uuid.value ds = n ∧ Spec.Uuid.Canonical (Prim.Uuid.to_json n) ds) ∧
    Prim.Uuid.apply (.str (Prim.Uuid.to_json n)) = .ok n := by
  obtain ⟨_, e, hn, _⟩ := (C96_uuid hv _).1 h
  cases e
  exact ⟨rfl, C69.C69_write hn, C69.C69_roundtrip hn⟩

/-- An allowed value that spells a UUID gives that UUID. -/
theorem C96_uuid_allowed {s : Str} {ds : List Nat} (h : Spec.Uuid.Spelling s ds) (r : Ends Nat) :
    Run (makeUuid (some s)) r ↔ r = .value (Spec.Uuid.value ds) := by
  have ha := C69.C69_read h
  have hs : s ≠ [] := by
    rintro rfl
    obtain ⟨e, he⟩ := C69.C69_short (s := []) (by decide)
    rw [ha] at he
    cases he
  have hg : given (some s) = some s := by
    cases s with
    | nil => exact absurd rfl hs
    | cons => rfl
  have hl := C69.clean_spelling h
  have ho : Py.Uuid.ofText s = .ok (Spec.Uuid.value ds) := by
    have hle : (Py.Uuid.clean s).length = 32 := by rw [hl.1.length, hl.2]
    have hne : Py.Uuid.clean s ≠ [] := by intro e; rw [e] at hle; cases hle
    simp [Py.Uuid.ofText, hle, C69.int16_digits hl.1 hne]
  unfold makeUuid
  simp only [hg, ho, run_ret]

/-! ## bytes -/

/-- Without an allowed value what is made are the bytes of the base64 text of some letters, at most as many as the option says. -/
theorem C96_byte (max : Nat) {val : Option Str} (hv : val = none ∨ val = some []) {r : Ends Byte.Input} (h : Run (makeByte max val) r) :
    ∃ s t : Str, s.length ≤ max ∧ (∀ c ∈ s, Letter c) ∧ r = .value (.bytes (utf8 t)) ∧ Spec.b64decode false t = some (utf8 s) := by
  have hg : given val = none := by rcases hv with rfl | rfl <;> rfl
  unfold makeByte at h
  simp only [hg] at h
  rcases run_bind.1 h with ⟨n, h1, h2⟩ | ⟨e, h, _⟩ | ⟨h, _⟩
  · obtain ⟨n0, n1⟩ := run_randint_value.1 h1
    rcases run_bind.1 h2 with ⟨s, h3, h4⟩ | ⟨e, h, _⟩ | ⟨h, _⟩
    · obtain ⟨_, e, hl, hc⟩ := (run_text (by decide)).1 h3
      cases e
      exact ⟨s, _, by omega, fun c hcs => (mem_letters c).1 (hc c hcs), run_ret.1 h4, b64decode_b64encode false _⟩
    · obtain ⟨_, e, _⟩ := (run_text (by decide)).1 h
      cases e
    · obtain ⟨_, e, _⟩ := (run_text (by decide)).1 h
      cases e
  · have := (run_randint_raises.1 h).1
    omega
  · exact absurd h run_randint_running

/-- Any such letters may be drawn. -/
theorem C96_byte_all (max : Nat) {val : Option Str} (hv : val = none ∨ val = some []) {s : Str} (hs : s.length ≤ max) (hc : ∀ c ∈ s, Letter c) :
    ∃ t, Spec.b64decode false t = some (utf8 s) ∧ Run (makeByte max val) (.value (.bytes (utf8 t))) := by
  have hg : given val = none := by rcases hv with rfl | rfl <;> rfl
  refine ⟨_, b64decode_b64encode false _, ?_⟩
  unfold makeByte
  simp only [hg]
  refine run_bind.2 (.inl ⟨(s.length : Int), run_randint_value.2 ⟨by omega, by omega⟩, run_bind.2 (.inl ⟨s, ?_, .ret _⟩)⟩)
  exact (run_text (by decide)).2 ⟨s, rfl, rfl, fun c h => (mem_letters c).2 (hc c h)⟩

/-- What is made is accepted; the text that is sent decodes, by the URL-safe alphabet, to a text that decodes to the letters drawn. -/
theorem C96_byte_sent (max : Nat) {val : Option Str} (hv : val = none ∨ val = some []) {x : Byte.Input} (h : Run (makeByte max val) (.value x)) :
    ∃ v b t, Byte.apply x = .ok v ∧ Spec.b64decode true (Byte.toJson v) = some b ∧ utf8Decode b = some t ∧
      ∃ s : Str, s.length ≤ max ∧ (∀ c ∈ s, Letter c) ∧ Spec.b64decode false t = some (utf8 s) := by
  obtain ⟨s, t, h1, h2, h3, h4⟩ := C96_byte max hv h
  cases h3
  obtain ⟨v, hv1, hv2⟩ := C41.C41_bytes (utf8 t)
  exact ⟨v, _, t, hv1, hv2, utf8Decode_utf8 t, s, h1, h2, h4⟩

/-- An allowed value is made as it is. -/
theorem C96_byte_allowed (max : Nat) {s : Str} (hs : s ≠ []) (r : Ends Byte.Input) :
    Run (makeByte max (some s)) r ↔ r = .value (.text s) := by
  have hg : given (some s) = some s := by
    cases s with
    | nil => exact absurd rfl hs
    | cons => rfl
  unfold makeByte
  simp only [hg, run_ret]

/-- But it is not sent as it is: the text that is sent for an allowed value is another one, always. -/
theorem C96_byte_false (max : Nat) {s : Str} (hs : s ≠ []) {x : Byte.Input} (h : Run (makeByte max (some s)) (.value x)) :
    ∃ v, Byte.apply x = .ok v ∧ Byte.toJson v ≠ s := by
  have e := Ends.value.inj ((C96_byte_allowed max hs _).1 h)
  subst e
  refine ⟨utf8 s, rfl, fun he => ?_⟩
  have hl := C41.C41_length (utf8 s)
  rw [he] at hl
  have len : ∀ s : Str, s.length ≤ (utf8 s).length := by
    intro s
    induction s with
    | nil => exact Nat.le_refl _
    | cons c s ih =>
      have : 1 ≤ (String.utf8EncodeChar c).length := by
        rw [String.length_utf8EncodeChar]; exact Char.utf8Size_pos c
      simp only [utf8, List.flatMap_cons, List.length_append, List.length_cons] at ih ⊢
      omega
  have := len s
  have hp := List.length_pos_iff.2 hs
  omega

/-! ## Cases -/

/-- the leap day of 2000 may be made, wherever the clock stands -/
example (tz : Int) : Run (makeDate tz none) (.value ⟨2000, 2, 29⟩) :=
  (C96_date tz (.inl rfl) _).2 ⟨_, rfl, by decide, by unfold Before; decide, by unfold Before; decide⟩

/-- 2037 has no such day -/
example (tz : Int) : ¬ Run (makeDate tz none) (.value ⟨2037, 2, 29⟩) := fun h => by
  obtain ⟨d, e, hd, _⟩ := (C96_date tz (.inl rfl) _).1 h
  cases e
  exact absurd hd (by decide)

example : dateOfDay 789 = ⟨1972, 2, 29⟩ := by decide +kernel

/-- the first moment that may be drawn one hour ahead of UTC -/
example : Run (makeDatetime 3600 none) (.value ⟨⟨1970, 1, 1⟩, 23, 0, 0, 0, none⟩) :=
  run_bind.2 (.inl ⟨_, run_uniform.2 ⟨0, by decide, rfl⟩, run_ret.2 (by decide +kernel)⟩)

example : Run (makeUuid none) (.value 0x00000000000040008000000000000000) :=
  (C96_uuid (.inl rfl) _).2 ⟨_, rfl, by decide, by decide, by decide⟩

/-- an allowed `byte` that is base64 for `abc` is sent encoded once more -/
example : ∃ v, Byte.apply (.text c!"YWJj") = .ok v ∧ Byte.toJson v = c!"WVdKag==" := ⟨_, rfl, by decide +kernel⟩

end Props.C96
