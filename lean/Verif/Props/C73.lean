import Verif.Model.World
import Verif.Proofs.Json
import Verif.Proofs.Number
import Verif.Proofs.Quote
import Verif.Spec.Base64
import Verif.Spec.Json
import Verif.Props.C34
import Verif.Props.C35
import Verif.Props.C66
import Verif.Props.C69
import Mathlib.Tactic.Linarith
/-!
# C73: the text of an argument in a path, query, header or form denotes the argument

What a text denotes: an integer or number as JSON writes it, a string itself, a UUID in its canonical form, a date and
a date-time as RFC 3339 has them, bytes in base64, a boolean by `true` or `false`.
-/

namespace Props.C73
open Py Utils Prim Prim.World Spec Spec.Iso Spec.Rfc3339 Props.C66

variable {w : Outside} {e : Prim.Env Atom} {other : Prim Atom → Str} {n id i : Nat} {v : Val} {read : Bool}

/-- what is sent for an argument of an object (parameter, items): the text of the primitive it is converted to -/
def sent (w : Outside) (e : Prim.Env Atom) (other : Prim Atom → Str) (fuel id : Nat) (v : Val) (read : Bool) :
    Except Exc Str :=
  match convert (env w e) fuel id v read with
  | .error x => .error x
  | .ok c => Call.text (leaf w other) c

theorem sent_ok {c : Prim Atom} (h : convert (env w e) n id v read = .ok c) :
    sent w e other n id v read = Call.text (leaf w other) c := by
  simp only [sent, h]

theorem readJson_int (n : Int) : Spec.Json.readJson (intStr n) = some (.int n) :=
  Proofs.Json.dumps_readJson (repr := fun _ => []) (v := .int n) (by simp [Spec.Json.Plain]) rfl

theorem readJson_float {s : Str} {q : Rat} (h : Spec.Json.FloatText s q) :
    Spec.Json.readJson s = some (.float (.fin q)) :=
  Proofs.Json.dumps_readJson (repr := fun _ => s) (v := .float (.fin q)) (by simpa [Spec.Json.Plain] using h) rfl

/-- an object of format uuid, byte, date or date-time, or a file, without allOf -/
theorem convert_atom {k : AtomKind} (hd : (env w e).deref id = .ok i) (ht : Typed (env w e) i (.atom k))
    (ha : (e.node i).allOf = []) (hv : effective (env w e) id v ≠ .none) :
    convert (env w e) (n + 1) id v read = (atom w k (effective (env w e) id v)).map (.atom k) := by
  rw [convert_step _ n id i v read hd hv, first_typed _ _ i _ _ ht.1 ht.2]
  have hE : (env w e).atom k i (effective (env w e) id v) = atom w k (effective (env w e) id v) := rfl
  simp only [create, hE]
  cases atom w k (effective (env w e) id v) with
  | error x => rfl
  | ok x =>
    simp only [Except.map]
    by_cases hf : isFinalAtom (Prim.atom k x) = true
    · rw [if_pos hf]
    · rw [if_neg hf, applyAllOf_nil (env w e) _ _ _ ha]; rfl

/-- an object of type boolean without allOf -/
theorem convert_bool (hd : (env w e).deref id = .ok i) (ht : Typed (env w e) i .bool) (ha : (e.node i).allOf = [])
    (hv : effective (env w e) id v ≠ .none) :
    convert (env w e) (n + 1) id v read = .ok (.bool (toBool w (effective (env w e) id v))) := by
  rw [convert_step _ n id i v read hd hv, first_typed _ _ i _ _ ht.1 ht.2]
  simp only [create, isFinalAtom, Bool.false_eq_true, if_false]
  rw [applyAllOf_nil (env w e) _ _ _ ha]; rfl

/-! ## What holds -/

/-- **C73, integers.** An integer, given as such or as its text. -/
theorem C73_integer (hd : (env w e).deref id = .ok i) (ht : Typed (env w e) i .int) (ha : (e.node i).allOf = [])
    {m : Int} (hv : effective (env w e) id v = .int m ∨ effective (env w e) id v = .str (intStr m))
    (hr : InRange (e.node i) m) :
    ∃ t, sent w e other (n + 1) id v read = .ok t ∧ Spec.Json.readJson t = some (.int m) := by
  refine ⟨_, ?_, readJson_int m⟩
  have hne : effective (env w e) id v ≠ .none := by rcases hv with hv | hv <;> rw [hv] <;> simp
  have hi : (env w e).toInt (effective (env w e) id v) = .ok m := by
    rcases hv with hv | hv <;> rw [hv]
    · rfl
    · have h : (env w e).toInt = Prim.World.toInt w := rfl
      rw [h]
      simp only [Prim.World.toInt, intOfText_intStr]
  exact sent_ok (((C33.C33_integer (env w e) n id i v read hd ht ha hne).2 m hi).1 hr)

/-- `m` is the whole part of `q` -/
def Whole (q : Rat) (m : Int) : Prop := |(m : Rat)| ≤ |q| ∧ |q| < |(m : Rat)| + 1 ∧ 0 ≤ (m : Rat) * q

theorem whole_truncate (q : Rat) : Whole q (truncate q) := by
  have hd : (0 : Rat) < q.den := by exact_mod_cast q.den_pos
  have hdi : (0 : Int) < q.den := by exact_mod_cast q.den_pos
  have hq : q = (q.num : Rat) / (q.den : Rat) := (Rat.num_div_den q).symm
  unfold Whole truncate
  rcases Int.le_total 0 q.num with hn | hn
  · have e : q.num.tdiv q.den = q.num / q.den := Int.tdiv_eq_ediv_of_nonneg hn
    have h1 : q.num / (q.den : Int) * q.den ≤ q.num := Int.ediv_mul_le _ (by omega)
    have h2 : q.num < (q.num / (q.den : Int) + 1) * q.den := Int.lt_ediv_add_one_mul_self _ hdi
    have h3 : 0 ≤ q.num / (q.den : Int) := Int.ediv_nonneg hn (by omega)
    have hq0 : 0 ≤ q := Rat.num_nonneg.1 hn
    have h3' : (0 : Rat) ≤ ((q.num / (q.den : Int) : Int) : Rat) := by exact_mod_cast h3
    rw [e, abs_of_nonneg h3', abs_of_nonneg hq0]
    refine ⟨?_, ?_, mul_nonneg h3' hq0⟩
    · conv => rhs; rw [hq]
      rw [le_div_iff₀ hd]; exact_mod_cast h1
    · conv => lhs; rw [hq]
      rw [div_lt_iff₀ hd]; exact_mod_cast h2
  · have e : q.num.tdiv q.den = -((-q.num) / q.den) := by
      rw [← Int.tdiv_eq_ediv_of_nonneg (by omega), Int.neg_tdiv, Int.neg_neg]
    have h1 : (-q.num) / (q.den : Int) * q.den ≤ -q.num := Int.ediv_mul_le _ (by omega)
    have h2 : -q.num < ((-q.num) / (q.den : Int) + 1) * q.den := Int.lt_ediv_add_one_mul_self _ hdi
    have h3 : 0 ≤ (-q.num) / (q.den : Int) := Int.ediv_nonneg (by omega) (by omega)
    have hq0 : q ≤ 0 := by
      rw [hq]
      exact div_nonpos_of_nonpos_of_nonneg (by exact_mod_cast hn) hd.le
    generalize (-q.num) / (q.den : Int) = m at *
    have h3' : (0 : Rat) ≤ (m : Rat) := by exact_mod_cast h3
    have hq' : -q = ((-q.num : Int) : Rat) / (q.den : Rat) := by
      push_cast
      rw [neg_div, ← hq]
    rw [e, Int.cast_neg, abs_neg, abs_of_nonneg h3', abs_of_nonpos hq0, hq']
    refine ⟨?_, ?_, ?_⟩
    · rw [le_div_iff₀ hd]; exact_mod_cast h1
    · rw [div_lt_iff₀ hd]; exact_mod_cast h2
    · rw [neg_mul, ← mul_neg]; exact mul_nonneg h3' (by linarith)

/-- a float given for an integer: its whole part is sent, if that is in range -/
theorem C73_integer_float (hd : (env w e).deref id = .ok i) (ht : Typed (env w e) i .int) (ha : (e.node i).allOf = [])
    {q : Rat} (hv : effective (env w e) id v = .float (.fin q)) :
    ∃ m, Whole q m ∧ (InRange (e.node i) m → ∃ t, sent w e other (n + 1) id v read = .ok t ∧
      Spec.Json.readJson t = some (.int m)) := by
  refine ⟨truncate q, whole_truncate q, fun hr => ⟨_, ?_, readJson_int _⟩⟩
  exact sent_ok (((C33.C33_integer (env w e) n id i v read hd ht ha (by rw [hv]; simp)).2 _ (by rw [hv]; rfl)).1 hr)

/-- **C73, refuted for fractions given for an integer.** They are not refused; another number is sent. -/
theorem C73_fraction_false (hd : (env w e).deref id = .ok i) (ht : Typed (env w e) i .int) (ha : (e.node i).allOf = [])
    {q : Rat} (hv : effective (env w e) id v = .float (.fin q)) (hq : ∀ m : Int, q ≠ m)
    (hr : ∀ m, InRange (e.node i) (m : Int)) :
    ∃ t m, sent w e other (n + 1) id v read = .ok t ∧ Spec.Json.readJson t = some (.int m) ∧ q ≠ m := by
  obtain ⟨m, -, h⟩ := C73_integer_float (n := n) (read := read) (other := other) hd ht ha hv
  obtain ⟨t, h1, h2⟩ := h (hr m)
  exact ⟨t, m, h1, h2, hq m⟩

/-- **C73, numbers.** A finite number whose `repr` is a decimal text of it, given as a float, an integer or as
text. -/
theorem C73_number {q : Rat} (hrepr : Spec.Json.FloatText (w.repr (.fin q)) q) (hd : (env w e).deref id = .ok i)
    (ht : Typed (env w e) i .float) (ha : (e.node i).allOf = [])
    (hv : effective (env w e) id v = .float (.fin q) ∨ (∃ m : Int, effective (env w e) id v = .int m ∧ q = m) ∨
      ∃ s, effective (env w e) id v = .str s ∧ Spec.Json.FloatText s q)
    (hr : InRange (e.node i) q ∧ ((e.node i).multipleOf ≠ 0 → MultipleOf (e.node i).multipleOf q)) :
    ∃ t, sent w e other (n + 1) id v read = .ok t ∧ Spec.Json.readJson t = some (.float (.fin q)) := by
  refine ⟨_, ?_, readJson_float hrepr⟩
  have hne : effective (env w e) id v ≠ .none := by
    rcases hv with hv | ⟨m, hv, -⟩ | ⟨s, hv, -⟩ <;> rw [hv] <;> simp
  have hi : (env w e).toFloat (effective (env w e) id v) = .ok (.fin q) := by
    rcases hv with hv | ⟨m, hv, rfl⟩ | ⟨s, hv, hs⟩ <;> rw [hv]
    · rfl
    · rfl
    · have h : (env w e).toFloat = Prim.World.toFloat w := rfl
      rw [h]
      simp only [Prim.World.toFloat, floatOfText_floatText hs]
  exact sent_ok (((C33.C33_number (env w e) n id i v read hd ht ha hne).2 q hi).1 hr)

/-- **C73, strings.** -/
theorem C73_string (hd : (env w e).deref id = .ok i) (ht : Typed (env w e) i .str) (ha : (e.node i).allOf = [])
    {s : Str} (hv : effective (env w e) id v = .str s) (hc : C34.Conforms (e.node i) s) :
    sent w e other (n + 1) id v read = .ok s :=
  sent_ok ((C34.C34_string (env w e) n id i v read hd ht ha (by rw [hv]; simp) s (.inl hv)).1 hc)

/-- the argument stands for the UUID of this number -/
inductive StandsForUuid (w : Outside) : Val → Nat → Prop
  | text (s ds) : Spec.Uuid.Spelling s ds → StandsForUuid w (.str s) (Spec.Uuid.value ds)
  | object (k n) : w.obj k = .uuid n → n < 2 ^ 128 → StandsForUuid w (.other k) n

theorem value_lt {ds : List Nat} (h : ∀ d ∈ ds, d < 16) : Spec.Uuid.value ds < 16 ^ ds.length := by
  induction ds with
  | nil => simp [Spec.Uuid.value]
  | cons d ds ih =>
    have h1 := ih fun x hx => h x (by simp [hx])
    have h2 := h d (by simp)
    simp only [Spec.Uuid.value, List.length_cons, Nat.pow_succ]
    have : d * 16 ^ ds.length ≤ 15 * 16 ^ ds.length := Nat.mul_le_mul_right _ (by omega)
    omega

theorem hyphened_lt {s : Str} {ds : List Nat} (h : Spec.Uuid.Hyphened s ds) : ∀ d ∈ ds, d < 16 := by
  induction h with
  | nil => simp
  | hyphen s ds _ ih => exact ih
  | digit c d s ds hc _ ih =>
    intro x hx
    rcases List.mem_cons.1 hx with rfl | hx
    · exact C69.digit_lt hc
    · exact ih x hx

theorem spelling_lt {s : Str} {ds : List Nat} (h : Spec.Uuid.Spelling s ds) : Spec.Uuid.value ds < 2 ^ 128 := by
  have e : (2 : Nat) ^ 128 = 16 ^ 32 := by decide
  rw [e]
  cases h with
  | plain s ds h hl => exact hl ▸ value_lt (hyphened_lt h)
  | braces s ds h hl => exact hl ▸ value_lt (hyphened_lt h)
  | urn s ds h hl => exact hl ▸ value_lt (hyphened_lt h)

/-- **C73, UUIDs.** -/
theorem C73_uuid (hd : (env w e).deref id = .ok i) (ht : Typed (env w e) i (.atom .uuid)) (ha : (e.node i).allOf = [])
    {m : Nat} (hv : StandsForUuid w (effective (env w e) id v) m) :
    ∃ t ds, sent w e other (n + 1) id v read = .ok t ∧ Spec.Uuid.Canonical t ds ∧ Spec.Uuid.value ds = m := by
  have hne : effective (env w e) id v ≠ .none := by intro h; rw [h] at hv; cases hv
  have key : m < 2 ^ 128 ∧ atom w .uuid (effective (env w e) id v) = .ok (.uuid m) := by
    generalize effective (env w e) id v = x at hv
    cases hv with
    | text s ds h => exact ⟨spelling_lt h, by simp [atom, uuidArg, C69.C69_read h, Except.map]⟩
    | object k n h hn => exact ⟨hn, by simp [atom, uuidArg, h, Prim.Uuid.apply, Except.map]⟩
  obtain ⟨ds, h1, h2⟩ := C69.C69_write key.1
  refine ⟨_, ds, ?_, h2, h1⟩
  have := convert_atom (n := n) (read := read) hd ht ha hne
  rw [key.2] at this
  exact sent_ok this

/-- the argument stands for this day -/
inductive StandsForDay (w : Outside) : Val → Date → Prop
  | date (k d) : w.obj k = .date d → StandsForDay w (.other k) d
  | timestamp (x d) : w.fromtimestamp x = .ok d → StandsForDay w (.float x) d
  | text (s t) : Longest s t → t.value.Valid → StandsForDay w (.str s) t.value.date

/-- the argument stands for this moment -/
inductive StandsForMoment (w : Outside) : Val → DateTime → Prop
  | datetime (k t) : w.obj k = .datetime t → StandsForMoment w (.other k) t
  | timestamp (x t) : w.utcfromtimestamp x = .ok t → StandsForMoment w (.float x) t
  | text (s t) : Longest s t → StandsForMoment w (.str s) t.value

/-- **C73, dates.** What stands for a day (a date, a timestamp, a text) is sent as its `full-date`. -/
theorem C73_date (hd : (env w e).deref id = .ok i) (ht : Typed (env w e) i (.atom .date)) (ha : (e.node i).allOf = [])
    {d : Date} (hv : StandsForDay w (effective (env w e) id v) d) (hvalid : d.Valid) :
    ∃ t, sent w e other (n + 1) id v read = .ok t ∧ FullDate t d := by
  have hne : effective (env w e) id v ≠ .none := by intro h; rw [h] at hv; cases hv
  have := convert_atom (n := n) (read := read) hd ht ha hne
  generalize effective (env w e) id v = x at hv this
  have key : ∃ y t, dateApply w.fromtimestamp (timeArg w x) = .ok y ∧ timeToJson y = .ok t ∧ FullDate t d := by
    cases hv with
    | date k d h =>
      rw [show timeArg w (.other k) = .date d by simp [timeArg, h]]
      exact C66.C66_date w.fromtimestamp (.date d) hvalid (by simp)
    | timestamp x d h =>
      exact C66.C66_date w.fromtimestamp (.float x d h) hvalid (fun _ _ h => by cases h)
    | text s t h hval =>
      exact C66.C66_date w.fromtimestamp (.str s t h) hvalid (by
        intro s' t' he hl
        cases he
        by_contra hn
        have := (C15.C15_decision s).1 t h hval
        rw [(C15.C15_decision s).2.1 t' hl hn] at this
        cases this)
  obtain ⟨y, t, h1, h2, h3⟩ := key
  rw [show atom w .date x = .ok (.time y) by simp [atom, h1, Except.map]] at this
  exact ⟨t, (sent_ok this).trans h2, h3⟩

/-- **C73, date-times.** What stands for a moment with an offset is sent as its `date-time`. -/
theorem C73_datetime (hd : (env w e).deref id = .ok i) (ht : Typed (env w e) i (.atom .datetime))
    (ha : (e.node i).allOf = []) {d : DateTime} (hv : StandsForMoment w (effective (env w e) id v) d) (hvalid : d.Valid)
    {o : Int} (ho : d.offset = some o) (h1 : -1440 < o) (h2 : o < 1440) :
    ∃ t, sent w e other (n + 1) id v read = .ok t ∧ DateTimeText t d := by
  have hne : effective (env w e) id v ≠ .none := by intro h; rw [h] at hv; cases hv
  have := convert_atom (n := n) (read := read) hd ht ha hne
  generalize effective (env w e) id v = x at hv this
  have hm : Moment w.utcfromtimestamp (timeArg w x) d := by
    cases hv with
    | datetime k d h => simp only [timeArg, h]; exact .datetime d
    | timestamp x d h => exact .float x d h
    | text s t h => exact .str s t h
  obtain ⟨t, h1, h2, h3⟩ := C66.C66_datetime w.utcfromtimestamp hm hvalid ho h1 h2
  rw [show atom w .datetime x = .ok (.time (.datetime d)) by simp [atom, h1, Except.map]] at this
  exact ⟨t, (sent_ok this).trans h2, h3⟩

theorem texts_ok {leaf : Prim Atom → Except Exc Str} {l : List (Prim Atom)} {ts : List Str}
    (h : List.Forall₂ (fun c t => Call.text leaf c = .ok t) l ts) : Call.texts leaf l = .ok ts := by
  induction h with
  | nil => rfl
  | cons h _ ih => simp only [Call.texts, h, ih]

/-- **C73, arrays.** The elements are separated by the separator of the collection format: if no text of an element is
empty or has the separator, cutting the text at the separators gives the texts of the elements, in order. -/
theorem C73_array (hd : (env w e).deref id = .ok i) (ht : Typed (env w e) i .array) (ha : (e.node i).allOf = [])
    {it : Nat} (hit : (e.node i).items = some it) (hu : (e.node i).uniqueItems = false) {c : Char}
    (hc : separator (C35.formatOf (e.node i)) = some c) {vs : List Val} (hv : effective (env w e) id v = .list vs)
    (hvs : vs ≠ []) (hl : C35.Limits (e.node i) vs.length)
    (hx : ∀ x ∈ vs, ∃ t, sent w e other n it x true = .ok t ∧ t ≠ [] ∧ c ∉ t) :
    ∃ t, sent w e other (n + 1) id v read = .ok t ∧
      List.Forall₂ (fun x p => sent w e other n it x true = .ok p) vs (splitChar c t) := by
  have hcs : ∃ cs ts, List.Forall₂ (fun x p => convert (env w e) n it x true = .ok p) vs cs ∧
      List.Forall₂ (fun c t => Call.text (leaf w other) c = .ok t) cs ts ∧
      List.Forall₂ (fun x p => sent w e other n it x true = .ok p) vs ts ∧ ∀ t ∈ ts, t ≠ [] ∧ c ∉ t := by
    clear hv hl hvs
    induction vs with
    | nil => exact ⟨[], [], .nil, .nil, .nil, by simp⟩
    | cons x vs ih =>
      obtain ⟨cs, ts, a1, a2, a3, a4⟩ := ih fun y hy => hx y (by simp [hy])
      obtain ⟨t, b1, b2, b3⟩ := hx x (by simp)
      cases hp : convert (env w e) n it x true with
      | error z => simp [sent, hp] at b1
      | ok p =>
        refine ⟨p :: cs, t :: ts, .cons hp a1, .cons (by rw [sent_ok hp] at b1; exact b1) a2, .cons b1 a3, ?_⟩
        intro y hy
        rcases List.mem_cons.1 hy with rfl | hy
        · exact ⟨b2, b3⟩
        · exact a4 y hy
  obtain ⟨cs, ts, h1, h2, h3, h4⟩ := hcs
  have hconv := ((C35.C35_array (env w e) n id i it v read vs vs hd ht ha hit (by rw [hv]; rfl)
    (by simp only [show ((env w e).node i).uniqueItems = false from hu, Bool.false_eq_true, if_false])).1 _).2
    ⟨cs, rfl, h1, hl⟩
  have hts : ts ≠ [] := by
    intro h0; subst h0
    cases h3; exact hvs rfl
  have hdrop : ts.dropWhile (· = []) = ts := by
    cases ts with
    | nil => rfl
    | cons t ts => rw [List.dropWhile_cons, if_neg (by simp [(h4 t (by simp)).1])]
  refine ⟨join [c] ts, ?_, ?_⟩
  · rw [sent_ok hconv, Call.text, if_neg (by rw [show ((env w e).node i) = e.node i from rfl, hc]; simp), texts_ok h2]
    have := (C35.C35_text (C35.formatOf (e.node i)) c hc ts fun x hx => (h4 x hx).2).1
    rw [hdrop] at this
    exact this
  · rw [splitChar_join hts fun x hx => (h4 x hx).2]
    exact h3

/-- **C73, arrays of integers.** -/
theorem C73_integers (hd : (env w e).deref id = .ok i) (ht : Typed (env w e) i .array) (ha : (e.node i).allOf = [])
    {it j : Nat} (hit : (e.node i).items = some it) (hu : (e.node i).uniqueItems = false) {c : Char}
    (hc : separator (C35.formatOf (e.node i)) = some c) (hdj : (env w e).deref it = .ok j)
    (htj : Typed (env w e) j .int) (haj : (e.node j).allOf = []) {ms : List Int}
    (hv : effective (env w e) id v = .list (ms.map .int)) (hms : ms ≠ []) (hl : C35.Limits (e.node i) ms.length)
    (hr : ∀ m ∈ ms, InRange (e.node j) m) :
    ∃ t, sent w e other (n + 2) id v read = .ok t ∧ (splitChar c t).map Spec.Json.readJson = ms.map fun m => some (.int m) := by
  have hm : ∀ m ∈ ms, sent w e other (n + 1) it (.int m) true = .ok (intStr m) := by
    intro m hm
    have hi := ((C33.C33_integer (env w e) n it j (.int m) true hdj htj haj (by simp [effective])).2 m
      (by simp [effective]; rfl)).1 (hr m hm)
    exact sent_ok hi
  have hsep : c ∈ [',', ' ', '\t', '|'] := by
    have := (C35.C35_separators _ c).1 hc
    simp only [List.mem_cons, Prod.mk.injEq, List.not_mem_nil, or_false] at this ⊢
    rcases this with h | h | h | h <;> simp [h.2]
  obtain ⟨t, h1, h2⟩ := C73_array (n := n + 1) (read := read) (other := other) hd ht ha hit hu hc hv (by simpa using hms)
    (by simpa using hl) (by
      intro x hx
      obtain ⟨m, hm', rfl⟩ := List.mem_map.1 hx
      refine ⟨_, hm m hm', ?_, ?_⟩
      · cases m with
        | ofNat k =>
          obtain ⟨a, b, h, -⟩ := natStr_cons k
          simp [intStr, h]
        | negSucc k => simp [intStr]
      · intro hc'
        rcases intStr_chars m c hc' with rfl | ⟨d, rfl⟩
        · exact absurd hsep (by decide)
        · exact (plain_digit d).2.2 hsep)
  refine ⟨t, h1, ?_⟩
  clear hv hms hl h1
  generalize splitChar c t = ps at h2
  induction ms generalizing ps with
  | nil => cases h2; rfl
  | cons m ms ih =>
    cases h2 with
    | cons a b =>
      rw [hm m (by simp)] at a
      cases a
      rw [List.map_cons, List.map_cons, readJson_int, ih (fun x hx => hr x (by simp [hx])) (fun x hx => hm x (by simp [hx])) _ b]

/-! ## What does not -/

/-- **C73, refuted for booleans.** They are sent as `True` and `False`, which JSON does not know. -/
theorem C73_boolean_false (hd : (env w e).deref id = .ok i) (ht : Typed (env w e) i .bool) (ha : (e.node i).allOf = [])
    (b : Bool) : sent w e other (n + 1) id (.bool b) read = .ok (if b then c!"True" else c!"False") ∧
      ∀ t x, sent w e other (n + 1) id (.bool b) read = .ok t → Spec.Json.readJson t ≠ some x := by
  have h := sent_ok (other := other) (convert_bool (n := n) (v := .bool b) (read := read) hd ht ha (by simp [effective]))
  have h' : sent w e other (n + 1) id (.bool b) read = .ok (if b then c!"True" else c!"False") := h
  refine ⟨h', fun t x hx => ?_⟩
  rw [h'] at hx
  cases hx
  have : Spec.Json.readJson (if b then c!"True" else c!"False") = none := by cases b <;> decide +kernel
  rw [this]; simp

/-- text given for a boolean: every text but the empty one is sent as `True` -/
theorem C73_boolean_text_false (hd : (env w e).deref id = .ok i) (ht : Typed (env w e) i .bool)
    (ha : (e.node i).allOf = []) (s : Str) :
    sent w e other (n + 1) id (.str s) read = .ok (if s = [] then c!"False" else c!"True") := by
  have h := sent_ok (other := other) (convert_bool (n := n) (v := .str s) (read := read) hd ht ha (by simp [effective]))
  refine h.trans ?_
  simp only [effective, Call.text, leaf]
  by_cases hs : s = [] <;> simp [hs, Prim.World.toBool]

/-- bytes are sent as the text they are the UTF-8 encoding of, and refused if they are none -/
theorem C73_byte (hd : (env w e).deref id = .ok i) (ht : Typed (env w e) i (.atom .byte)) (ha : (e.node i).allOf = [])
    {k : Nat} {b : Bytes} (hk : w.obj k = .bytes b) :
    (∀ t, sent w e other (n + 1) id (.other k) read = .ok t ↔ utf8 t = b) ∧
    ((∀ t, utf8 t ≠ b) → sent w e other (n + 1) id (.other k) read = .error .ValueError) := by
  have h := convert_atom (n := n) (v := .other k) (read := read) hd ht ha (by simp [effective])
  rw [show atom w .byte (effective (env w e) id (.other k)) = .ok (.byte b) by
    simp [atom, effective, byteArg, hk, Prim.Byte.apply, Except.map]] at h
  have h : sent w e other (n + 1) id (.other k) read = Prim.Byte.str b := sent_ok h
  rw [h]
  cases hu : utf8Decode b with
  | none =>
    refine ⟨fun t => ⟨fun h => by simp [Prim.Byte.str, hu] at h, fun h => ?_⟩, fun _ => by simp [Prim.Byte.str, hu]⟩
    rw [← h, utf8Decode_utf8] at hu; cases hu
  | some s =>
    have hs : utf8 s = b := utf8_of_decode hu
    refine ⟨fun t => ⟨fun h => ?_, fun h => ?_⟩, fun h => absurd hs (h s)⟩
    · simp only [Prim.Byte.str, hu, Except.ok.injEq] at h
      rw [← h, hs]
    · rw [← h, utf8Decode_utf8] at hu
      simp only [Prim.Byte.str, ← h, utf8Decode_utf8]

theorem b64decode_length {u : Bool} : ∀ {s : Str} {b : Bytes}, b64decode u s = some b → 4 * b.length ≤ 3 * s.length := by
  intro s
  fun_induction b64decode u s with
  | case1 => intro b h; cases h; simp
  | case2 a b =>
    intro x h
    simp only [Option.bind_eq_bind, Option.bind_eq_some_iff] at h
    obtain ⟨_, _, _, _, h⟩ := h
    cases h; simp
  | case3 a b c =>
    intro x h
    simp only [Option.bind_eq_bind, Option.bind_eq_some_iff] at h
    obtain ⟨_, _, _, _, _, _, h⟩ := h
    cases h; simp
  | case4 a b c d rest _ _ ih =>
    intro x h
    simp only [Option.bind_eq_bind, Option.bind_eq_some_iff] at h
    obtain ⟨_, _, _, _, _, _, _, _, r, hr, h⟩ := h
    cases h
    have := ih hr
    simp only [List.length_cons]; omega
  | case5 => intro b h; cases h

/-- **C73, refuted for bytes.** What is sent for non-empty bytes is never their base64, of either alphabet. -/
theorem C73_byte_false (hd : (env w e).deref id = .ok i) (ht : Typed (env w e) i (.atom .byte))
    (ha : (e.node i).allOf = []) {k : Nat} {b : Bytes} (hk : w.obj k = .bytes b) (hb : b ≠ []) {t : Str}
    (h : sent w e other (n + 1) id (.other k) read = .ok t) (u : Bool) : b64decode u t ≠ some b := by
  have he := ((C73_byte (other := other) (n := n) (read := read) hd ht ha hk).1 t).1 h
  intro hd
  have h1 := b64decode_length hd
  have len : t.length ≤ (utf8 t).length := by
    clear h he hd h1
    induction t with
    | nil => exact Nat.le_refl _
    | cons c s ih =>
      have : 1 ≤ (String.utf8EncodeChar c).length := by
        rw [String.length_utf8EncodeChar]; exact Char.utf8Size_pos c
      simp only [utf8, List.flatMap_cons, List.length_append, List.length_cons] at ih ⊢
      omega
  rw [he] at len
  have : b.length ≠ 0 := fun e => hb (List.length_eq_zero_iff.1 e)
  omega

/-! ## Cases -/

def objs : Nat → Node
  | 0 => { type := some c!"integer", minimum := some (-5) }
  | 1 => { type := some c!"array", items := some 0, collectionFormat := some c!"pipes" }
  | 2 => { type := some c!"boolean" }
  | 3 => { type := some c!"string", format := some c!"byte" }
  | 4 => { type := some c!"string", format := some c!"uuid" }
  | 5 => { type := some c!"string", format := some c!"date" }
  | 6 => { type := some c!"string", format := some c!"date-time" }
  | 7 => { type := some c!"number", multipleOf := 2 }
  | _ => { type := some c!"string", maxLength := some 3 }

def outside : Outside where
  obj := fun k => if k = 0 then .bytes [104, 105] else if k = 1 then .uuid 255 else if k = 2 then .date ⟨2018, 1, 2⟩
    else if k = 3 then .bytes [255] else .unknown
  fromtimestamp := fun _ => .ok ⟨1970, 1, 1⟩
  utcfromtimestamp := fun _ => .error .OverflowError
  repr := fun x => match x with | .fin q => if q = 4 then c!"4.0" else [] | _ => []
  str := fun _ => []
  int := fun _ => .error .TypeError
  float := fun _ => .error .TypeError
  truth := fun _ => true

def base : Prim.Env Atom where
  node := objs
  deref := .ok
  reg := builtins
  toInt := fun _ => .error .ValueError
  toFloat := fun _ => .error .ValueError
  toStr := fun _ => []
  toBool := fun _ => true
  validEmail := fun _ => true
  eq := fun a b => a = b
  atom := fun _ _ _ => .error .ValueError
  mismatch := fun _ _ _ => .error .TypeError
  order := fun l => l

abbrev send (id : Nat) (v : Val) : Except Exc Str := sent outside base (fun _ => []) 3 id v false

example : send 0 (.int (-5)) = .ok c!"-5" ∧ send 0 (.str c!" 1_0 ") = .ok c!"10" ∧ send 0 (.int (-6)) = .error .ValidationError := by
  decide +kernel
example : send 0 (.float (.fin ⟨-5, 2, by decide, by decide⟩)) = .ok c!"-2" := by decide +kernel
example : send 1 (.list [.int 1, .str c!"+2", .int (-3)]) = .ok c!"1|2|-3" := by decide +kernel
example : send 2 (.bool false) = .ok c!"False" ∧ send 2 (.str c!"false") = .ok c!"True" := by decide +kernel
example : send 3 (.other 0) = .ok c!"hi" ∧ send 3 (.other 3) = .error .ValueError := by decide +kernel
example : send 4 (.other 1) = .ok c!"00000000-0000-0000-0000-0000000000ff" ∧
    send 4 (.str c!"{000000000000000000000000000000FF}") = .ok c!"00000000-0000-0000-0000-0000000000ff" := by decide +kernel
example : send 5 (.other 2) = .ok c!"2018-01-02" ∧ send 5 (.float (.fin 1)) = .ok c!"1970-01-01" := by decide +kernel
example : send 6 (.str c!"2018-01-02T03:04:05Z") = .ok c!"2018-01-02T03:04:05+00:00" ∧
    send 6 (.float (.fin 1)) = .error .OverflowError := by decide +kernel
example : send 7 (.int 4) = .ok c!"4.0" ∧ send 7 (.int 5) = .error .ValidationError := by decide +kernel
example : send 8 (.str c!"abc") = .ok c!"abc" ∧ send 8 (.int 1234) = .error .ValidationError := by decide +kernel

example : Typed (env outside base) 0 .int ∧ Typed (env outside base) 1 .array ∧ Typed (env outside base) 2 .bool ∧
    Typed (env outside base) 3 (.atom .byte) ∧ Typed (env outside base) 4 (.atom .uuid) ∧
    Typed (env outside base) 7 .float ∧ Typed (env outside base) 8 .str := by
  refine ⟨?_, ?_, ?_, ?_, ?_, ?_, ?_⟩ <;> exact ⟨by simp [env, base, objs], by rfl⟩

example : InRange (objs 0) (-5 : Int) := by
  constructor
  · intro m hm; simp [objs] at hm; subst hm; simp [objs]
  · intro m hm; simp [objs] at hm

end Props.C73
