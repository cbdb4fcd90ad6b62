import Verif.Proofs.Render
import Verif.Props.C33
import Verif.Props.C34
import Verif.Props.C35
import Verif.Props.C36
/-!
# C57: generated integers, strings and arrays satisfy their schema

`Run g r` says that some sequence of random draws makes `g` end in `r`; the theorems are about all
of them. `fuel` is the depth of the Python stack, `rounds` the rounds granted to each `while` loop.
-/

namespace Props.C57
open Py Prim Render Spec.Rendered

variable {ω : Type}

/-- `id` stands for the object `t` after `final(deref(...))`, and its type is `type` -/
structure Is (env : Render.Env) (id t : Nat) (type : Str) : Prop where
  target : env.target id = .ok t
  type : (env.node t).type = some type

/-! ## what is rendered -/

/-- **C57** (integers). For an integer schema without enum, exactly the integers within the limits
are drawn, and rounded to a multiple of an integer `multipleOf`; a missing limit, or one of 0,
counts as plus or minus 2^30 (2^62 unless the format is int32 or missing). If the limits are not
integers, or no integer lies between them, `ValueError` is raised. -/
theorem C57_integer (env : Render.Env) (opt : Opt) (rounds fuel id t : Nat) (r : Ends Val)
    (hi : Is env id t c!"integer") (he : (env.node t).enum = [])
    (hf : (env.node t).format ∈ [none, some c!"", some c!"int32", some c!"int64"])
    (hm : (env.node t).multipleInt = true → (env.node t).multipleOf.den = 1) :
    Run (generate env opt rounds (fuel + 1) id) r ↔
      (∃ d n, Drawn (env.node t) d ∧ RoundedTo (env.node t) d n ∧ r = .value (.int n)) ∨
      ((¬ ∃ d, Drawn (env.node t) d) ∧ r = .raises .ValueError) := by
  have hk : maker c!"integer" (env.node t).format = some .int := by
    simp only [List.mem_cons, List.not_mem_nil, or_false] at hf
    rcases hf with h | h | h | h <;> rw [h] <;> decide
  rw [generate_leaf env opt rounds fuel id t _ hi.1 hi.2 (by decide) (by decide), run_leaf]
  simp only [he, hk, roundedTo_iff _ hm]
  have key : Run (make env opt rounds t .none .int) r ↔ _ := run_makeInt (o := env.node t)
  simp only [List.not_mem_nil, or_false, true_and, reduceCtorEq, false_and, false_or, Option.some.injEq,
    exists_eq_left, exists_eq_left', key]
  constructor
  · rintro (⟨d, h, rfl⟩ | h)
    · exact .inl ⟨d, _, h, rfl, rfl⟩
    · exact .inr h
  · rintro (⟨d, n, h, rfl, rfl⟩ | h)
    · exact .inl ⟨d, h, rfl⟩
    · exact .inr h

/-- **C57** (strings). For a string schema without enum, exactly the texts of letters whose length
lies between the limits; a missing limit, or one of 0, counts as 0 or as the option
`max_str_length`. If the lower limit exceeds the upper, `ValueError` is raised. -/
theorem C57_string (env : Render.Env) (opt : Opt) (rounds fuel id t : Nat) (r : Ends Val)
    (hi : Is env id t c!"string") (he : (env.node t).enum = [])
    (hf : (env.node t).format ∈ [none, some c!"", some c!"password"]) :
    Run (generate env opt rounds (fuel + 1) id) r ↔
      (∃ s : Str, r = .value (.str s) ∧ (∀ c ∈ s, Letter c) ∧
        LengthBetween (env.node t).minLength (env.node t).maxLength opt.maxStrLength s.length) ∨
      ((∃ lo hi, LimitOr (env.node t).minLength 0 lo ∧ LimitOr (env.node t).maxLength opt.maxStrLength hi ∧
        hi < lo) ∧ r = .raises .ValueError) := by
  have hk : maker c!"string" (env.node t).format = some .str := by
    simp only [List.mem_cons, List.not_mem_nil, or_false] at hf
    rcases hf with h | h | h <;> rw [h] <;> decide
  rw [generate_leaf env opt rounds fuel id t _ hi.1 hi.2 (by decide) (by decide), run_leaf]
  simp only [he, hk]
  have key : Run (make env opt rounds t .none .str) r ↔ _ := run_makeStr (opt := opt) (o := env.node t)
  simp only [List.not_mem_nil, or_false, true_and, reduceCtorEq, false_and, false_or, Option.some.injEq,
    exists_eq_left, exists_eq_left', key]

/-- **C57** (arrays). For an array schema with items, exactly the lists whose length lies between
the limits (0 counts as none) and whose elements are rendered for the items; it raises
`ValueError` if the lower limit exceeds the upper, and what rendering an item raises if the list
can have elements. -/
theorem C57_array (env : Render.Env) (opt : Opt) (rounds fuel id t it : Nat)
    (hi : Is env id t c!"array") (hit : (env.node t).items = some it) :
    (∀ v, Run (generate env opt rounds (fuel + 1) id) (.value v) ↔
      ∃ l : List Val, v = .list l ∧
        LengthBetween (env.node t).minItems (env.node t).maxItems opt.maxArrayLength l.length ∧
        ∀ x ∈ l, Run (generate env opt rounds fuel it) (.value x)) ∧
    (∀ e, Run (generate env opt rounds (fuel + 1) id) (.raises e) ↔
      ((∃ lo hi, LimitOr (env.node t).minItems 0 lo ∧ LimitOr (env.node t).maxItems opt.maxArrayLength hi ∧
        hi < lo) ∧ e = .ValueError) ∨
      ((∃ n, 0 < n ∧ LengthBetween (env.node t).minItems (env.node t).maxItems opt.maxArrayLength n) ∧
        Run (generate env opt rounds fuel it) (.raises e))) := by
  rw [generate_array env opt rounds fuel id t hi.1 hi.2]
  simp only [run_array, hit, item]
  constructor
  · intro v
    constructor
    · rintro (⟨l, h, h1, h2⟩ | ⟨_, h⟩ | ⟨_, ⟨_, h, _⟩ | ⟨h, _⟩⟩)
      all_goals first | (cases h; done) | skip
      cases h; exact ⟨l, rfl, h1, h2⟩
    · rintro ⟨l, rfl, h1, h2⟩; exact .inl ⟨l, rfl, h1, h2⟩
  · intro e
    constructor
    · rintro (⟨l, h, h1, h2⟩ | ⟨h1, h⟩ | ⟨h1, ⟨_, h, h2⟩ | ⟨h, _⟩⟩)
      all_goals first | (cases h; done) | skip
      · cases h; exact .inl ⟨h1, rfl⟩
      · cases h; exact .inr ⟨h1, h2⟩
    · rintro (⟨h1, rfl⟩ | ⟨h1, h2⟩)
      · exact .inr (.inl ⟨h1, rfl⟩)
      · exact .inr (.inr ⟨h1, .inl ⟨e, rfl, h2⟩⟩)

/-- **C57** (e-mail addresses). For a string schema of format email without enum, exactly the
texts of this shape: one to four words separated by dots, `@`, and two parts separated by a dot.
The limits of the length are not looked at. -/
theorem C57_email (env : Render.Env) (opt : Opt) (rounds fuel id t : Nat) (v : Val)
    (hi : Is env id t c!"string") (he : (env.node t).enum = []) (hf : (env.node t).format = some c!"email") :
    Run (generate env opt rounds (fuel + 1) id) (.value v) ↔ ∃ s, v = .str s ∧ Email s := by
  rw [generate_leaf env opt rounds fuel id t _ hi.1 hi.2 (by decide) (by decide), run_leaf, hf]
  have hk : maker c!"string" (some c!"email") = some .email := by decide
  simp only [he, hk, List.not_mem_nil, or_false, true_and, reduceCtorEq, false_and, false_or, Option.some.injEq,
    exists_eq_left, exists_eq_left']
  exact run_makeEmail

/-- the schema without its enum -/
def noEnum (env : Render.Env) (t : Nat) : Render.Env :=
  { env with node := fun i => if i = t then { env.node t with enum := [] } else env.node i }

theorem make_noEnum (env : Render.Env) (opt : Opt) (rounds t : Nat) (m : Maker)
    (hm : m ∈ [Maker.int, .float, .str, .email]) (v : Val) :
    (truth v = true → make env opt rounds t v m = .ret v) ∧
    (truth v = false → make env opt rounds t v m = make (noEnum env t) opt rounds t .none m) := by
  have e : (noEnum env t).node t = { env.node t with enum := [] } := by simp [noEnum]
  simp only [List.mem_cons, List.not_mem_nil, or_false] at hm
  constructor
  · intro h
    rcases hm with rfl | rfl | rfl | rfl
    · exact if_pos h
    · exact if_pos h
    · exact if_pos h
    · exact if_pos h
  · intro h
    have h' : ¬ truth v = true := by simp [h]
    have h0 : ¬ truth .none = true := by simp [truth]
    rcases hm with rfl | rfl | rfl | rfl
    · simp only [make, makeInt, e, if_neg h', if_neg h0]; rfl
    · simp only [make, makeFloat, e, if_neg h', if_neg h0]
      have : ∀ lo hi n, floatLoop (env.node t) lo hi n = floatLoop { env.node t with enum := [] } lo hi n := by
        intro lo hi n
        induction n with
        | zero => rfl
        | succ n ih => simp only [floatLoop, ih]; rfl
      exact this _ _ _
    · simp only [make, makeStr, e, if_neg h', if_neg h0]
    · simp only [make, makeEmail, if_neg h', if_neg h0]

/-- **C57** (enum). For an integer, number, string or email schema with an enum: exactly the
values of the enum that are not falsy (0, '', false, None), and, if one of them is falsy, also
everything that would be rendered without the enum. -/
theorem C57_enum (env : Render.Env) (opt : Opt) (rounds fuel id t : Nat) (type : Str) (r : Ends Val)
    (hi : Is env id t type) (he : (env.node t).enum ≠ [])
    (hf : (type = c!"integer" ∧ (env.node t).format ∈ [none, some c!"", some c!"int32", some c!"int64"]) ∨
      (type = c!"number" ∧ (env.node t).format ∈ [none, some c!"", some c!"float", some c!"double"]) ∨
      (type = c!"string" ∧ (env.node t).format ∈ [none, some c!"", some c!"password", some c!"email"])) :
    Run (generate env opt rounds (fuel + 1) id) r ↔
      (∃ v ∈ (env.node t).enum, truth v = true ∧ r = .value v) ∨
      ((∃ v ∈ (env.node t).enum, truth v = false) ∧
        Run (generate (noEnum env t) opt rounds (fuel + 1) id) r) := by
  have hty : type ≠ c!"object" ∧ type ≠ c!"array" := by
    rcases hf with ⟨rfl, _⟩ | ⟨rfl, _⟩ | ⟨rfl, _⟩ <;> decide
  have hk : ∃ m, maker type (env.node t).format = some m ∧ m ∈ [Maker.int, .float, .str, .email] := by
    simp only [List.mem_cons, List.not_mem_nil, or_false] at hf
    rcases hf with ⟨rfl, h⟩ | ⟨rfl, h⟩ | ⟨rfl, h⟩ <;> rcases h with h | h | h | h <;> rw [h] <;>
      first
        | exact ⟨.int, by decide, by decide⟩
        | exact ⟨.float, by decide, by decide⟩
        | exact ⟨.str, by decide, by decide⟩
        | exact ⟨.email, by decide, by decide⟩
  obtain ⟨m, hm, hmm⟩ := hk
  have e : (noEnum env t).node t = { env.node t with enum := [] } := by simp [noEnum]
  have hi' : (noEnum env t).target id = .ok t := hi.1
  have ht' : ((noEnum env t).node t).type = some type := by rw [e]; exact hi.2
  rw [generate_leaf env opt rounds fuel id t _ hi.1 hi.2 hty.1 hty.2, run_leaf,
    generate_leaf _ opt rounds fuel id t _ hi' ht' hty.1 hty.2, run_leaf]
  have e1 : ((noEnum env t).node t).enum = [] := by rw [e]
  have e2 : ((noEnum env t).node t).format = (env.node t).format := by rw [e]
  rw [e1, e2, hm]
  have key := make_noEnum env opt rounds t m hmm
  constructor
  · rintro ⟨v, ⟨h0, _⟩ | hv, ⟨h, _⟩ | ⟨m', h, hr⟩⟩
    · exact absurd h0 he
    · exact absurd h0 he
    · cases h
    · cases h
      cases htr : truth v with
      | true =>
        rw [(key v).1 htr, run_ret] at hr
        exact .inl ⟨v, hv, htr, hr⟩
      | false =>
        rw [(key v).2 htr] at hr
        exact .inr ⟨⟨v, hv, htr⟩, .none, .inl ⟨rfl, rfl⟩, .inr ⟨m, rfl, hr⟩⟩
  · rintro (⟨v, hv, htr, rfl⟩ | ⟨⟨v, hv, htr⟩, w, ⟨_, rfl⟩ | h, ⟨h', _⟩ | ⟨m', h', hr⟩⟩)
    · exact ⟨v, .inr hv, .inr ⟨m, rfl, by rw [(key v).1 htr]; exact .ret v⟩⟩
    · cases h'
    · cases h'
      exact ⟨v, .inr hv, .inr ⟨m, rfl, by rw [(key v).2 htr]; exact hr⟩⟩
    · simp at h
    · simp at h

/-- The types and formats the renderer knows, besides object and array. -/
def Known (type : Str) (format : Option Str) : Prop :=
  (type = c!"integer" ∧ format ∈ [none, some c!"", some c!"int32", some c!"int64"]) ∨
  (type = c!"number" ∧ format ∈ [none, some c!"", some c!"float", some c!"double"]) ∨
  (type = c!"string" ∧ format ∈ [none, some c!"", some c!"password", some c!"byte", some c!"date",
    some c!"date-time", some c!"uuid", some c!"email"]) ∨
  (type = c!"boolean" ∧ format ∈ [none, some c!""]) ∨ (type = c!"file" ∧ format ∈ [none, some c!""])

theorem mem_of_get {α β : Type} [DecidableEq α] {d : Dict α β} {k : α} (h : Dict.get? d k ≠ none) :
    k ∈ d.map Prod.fst := by
  cases hg : Dict.get? d k with
  | none => exact absurd hg h
  | some v => exact List.mem_map_of_mem (f := Prod.fst) (Dict.mem_of_get? hg)

/-- **C57** (unknown formats). For a schema with a type that is neither object nor array, an
`Exception` is raised instead of anything else exactly when type and format are not among those
known. -/
theorem C57_unknown (env : Render.Env) (opt : Opt) (rounds fuel id t : Nat) (type : Str)
    (hi : Is env id t type) (h1 : type ≠ c!"object") (h2 : type ≠ c!"array")
    (hn : ¬ Known type (env.node t).format) (r : Ends Val) :
    Run (generate env opt rounds (fuel + 1) id) r ↔ r = .raises .Exception := by
  have hk : maker type (env.node t).format = none := by
    unfold maker
    cases hg : Dict.get? makers type with
    | none => rfl
    | some row =>
      simp only
      apply Classical.byContradiction
      intro hx
      apply hn
      have hm := Dict.mem_of_get? hg
      have hf := mem_of_get hx
      simp only [makers, List.mem_cons, Prod.mk.injEq, List.not_mem_nil, or_false] at hm
      unfold Known
      rcases hm with ⟨rfl, rfl⟩ | ⟨rfl, rfl⟩ | ⟨rfl, rfl⟩ | ⟨rfl, rfl⟩ | ⟨rfl, rfl⟩
      · exact .inl ⟨rfl, by simpa [or_left_comm] using hf⟩
      · exact .inr (.inl ⟨rfl, by simpa [or_left_comm] using hf⟩)
      · refine .inr (.inr (.inl ⟨rfl, ?_⟩))
        simp only [List.map_cons, List.map_nil, List.mem_cons, List.not_mem_nil, or_false] at hf ⊢
        rcases hf with h | h | h | h | h | h | h | h <;> simp [h]
      · exact .inr (.inr (.inr (.inl ⟨rfl, by simpa [or_comm] using hf⟩)))
      · exact .inr (.inr (.inr (.inr ⟨rfl, by simpa [or_comm] using hf⟩)))
  rw [generate_leaf env opt rounds fuel id t _ hi.1 hi.2 h1 h2, run_leaf, hk]
  constructor
  · rintro ⟨v, _, ⟨_, h⟩ | ⟨m, h, _⟩⟩
    · exact h
    · cases h
  · rintro rfl
    cases he : (env.node t).enum with
    | nil => exact ⟨.none, .inl ⟨rfl, rfl⟩, .inl ⟨rfl, rfl⟩⟩
    | cons a l => exact ⟨a, .inr List.mem_cons_self, .inl ⟨rfl, rfl⟩⟩

/-! ## the limits are kept -/

/-- the lower limit is a multiple of the divisor, which is positive -/
def Aligned (o : Render.Node) : Prop :=
  ∀ m : Int, o.multipleInt = true → o.multipleOf = m → m ≠ 0 →
    0 < m ∧ ∀ lo : Int, o.minimum = some (lo : Rat) → m ∣ (if o.exclusiveMinimum then lo + 1 else lo)

theorem rounded_le (o : Render.Node) (ha : Aligned o) (hd : o.multipleInt = true → o.multipleOf.den = 1)
    (d n : Int) (hr : RoundedTo o d n) :
    n ≤ d ∧ ∀ lo : Int, o.minimum = some (lo : Rat) →
      (if o.exclusiveMinimum then lo + 1 else lo) ≤ d → (if o.exclusiveMinimum then lo + 1 else lo) ≤ n := by
  by_cases h : o.multipleInt = true ∧ o.multipleOf ≠ 0
  · have em := eq_num_of_den (hd h.1)
    have hm0 : o.multipleOf.num ≠ 0 := by
      intro h0; rw [h0] at em; exact h.2 em
    obtain ⟨hpos, hal⟩ := ha _ h.1 em hm0
    obtain ⟨⟨k, hk⟩, h1, _⟩ := hr.2 _ h.1 em hm0
    have h1 := h1 hpos
    refine ⟨h1.1, ?_⟩
    intro lo hlo hle
    obtain ⟨j, hj⟩ := hal lo hlo
    rw [hj] at hle ⊢
    generalize o.multipleOf.num = m at *
    subst hk
    have : m * j < m * (k + 1) := by rw [Int.mul_add]; omega
    have : j < k + 1 := Int.lt_of_mul_lt_mul_left this (Int.le_of_lt hpos)
    exact Int.mul_le_mul_of_nonneg_left (by omega) (Int.le_of_lt hpos)
  · have : n = d := by
      apply hr.1
      by_cases hx : o.multipleInt = true
      · exact .inr (Classical.not_not.1 fun y => h ⟨hx, y⟩)
      · exact .inl (by simpa using hx)
    subst this
    exact ⟨Int.le_refl _, fun _ _ h => h⟩

theorem limits_of_drawn (o : Render.Node) (h1 : o.minimum ≠ some 0) (h2 : o.maximum ≠ some 0)
    (ha : Aligned o) (hd : o.multipleInt = true → o.multipleOf.den = 1) (d n : Int)
    (h : Drawn o d) (hr : RoundedTo o d n) : Spec.InRange o.toNode n := by
  obtain ⟨b, lo, hi, _, h3, h4, h5, h6⟩ := h
  obtain ⟨r1, r2⟩ := rounded_le o ha hd d n hr
  constructor
  · intro m hm
    rcases h3 with ⟨h3, _⟩ | ⟨h3 | h3, _⟩
    · rw [h3] at hm; cases hm
      have := r2 lo h3
      by_cases hx : o.exclusiveMinimum = true
      · simp only [hx, if_true] at this h5
        have := this (by omega)
        exact ⟨Rat.intCast_le_intCast.2 (by omega), fun _ he => by have := Rat.intCast_inj.1 he; omega⟩
      · simp only [if_neg hx] at this h5
        exact ⟨Rat.intCast_le_intCast.2 (this h5), fun h => absurd h hx⟩
    · rw [h3] at hm; cases hm
    · exact absurd h3 h1
  · intro m hm
    rcases h4 with ⟨h4, _⟩ | ⟨h4 | h4, _⟩
    · rw [h4] at hm; cases hm
      by_cases hx : o.exclusiveMaximum = true
      · simp only [hx, if_true] at h6
        exact ⟨Rat.intCast_le_intCast.2 (by omega), fun _ he => by have := Rat.intCast_inj.1 he; omega⟩
      · simp only [if_neg hx] at h6
        exact ⟨Rat.intCast_le_intCast.2 (by omega), fun h => absurd h hx⟩
    · rw [h4] at hm; cases hm
    · exact absurd h4 h2

/-- **C57** (limits of integers). If neither limit is 0 and the lower limit is a multiple of
`multipleOf`, every rendered integer respects the limits and is such a multiple. -/
theorem C57_integer_limits (env : Render.Env) (opt : Opt) (rounds fuel id t : Nat) (v : Val)
    (hi : Is env id t c!"integer") (he : (env.node t).enum = [])
    (hf : (env.node t).format ∈ [none, some c!"", some c!"int32", some c!"int64"])
    (hm : (env.node t).multipleInt = true → (env.node t).multipleOf.den = 1)
    (h1 : (env.node t).minimum ≠ some 0) (h2 : (env.node t).maximum ≠ some 0) (ha : Aligned (env.node t))
    (h : Run (generate env opt rounds (fuel + 1) id) (.value v)) :
    ∃ n : Int, v = .int n ∧ Spec.InRange (env.node t).toNode n ∧
      ((env.node t).multipleInt = true → (env.node t).multipleOf ≠ 0 →
        Spec.MultipleOf (env.node t).multipleOf n) := by
  rw [C57_integer env opt rounds fuel id t _ hi he hf hm] at h
  rcases h with ⟨d, n, h3, h4, hv⟩ | ⟨_, h⟩
  · cases hv
    refine ⟨n, rfl, limits_of_drawn _ h1 h2 ha hm d n h3 h4, ?_⟩
    intro hb h0
    have em := eq_num_of_den (hm hb)
    obtain ⟨⟨k, hk⟩, _⟩ := h4.2 _ hb em (by intro hz; rw [hz] at em; exact h0 em)
    exact ⟨k, by rw [hk, Rat.intCast_mul, ← em]⟩
  · cases h

/-- **C57** (numbers). For a number schema without enum and `multipleOf`: exactly the numbers
`lo + (hi - lo) * k / 2^53` with `k < 2^53`, above `lo` if the minimum is exclusive. A missing
limit, or one of 0, counts as the smallest positive or the largest float. Nothing is raised. -/
theorem C57_number (env : Render.Env) (opt : Opt) (rounds fuel id t : Nat) (lo hi : Rat)
    (h : Is env id t c!"number") (he : (env.node t).enum = [])
    (hf : (env.node t).format ∈ [none, some c!"", some c!"float", some c!"double"])
    (hm : (env.node t).multipleOf = 0) (hr : 0 < rounds)
    (hlo : LimitOr (env.node t).minimum (1 / 2 ^ 1022) lo)
    (hhi : LimitOr (env.node t).maximum ((2 - 1 / 2 ^ 52) * 2 ^ 1023) hi) :
    (∀ v, Run (generate env opt rounds (fuel + 1) id) (.value v) ↔
      ∃ k : Nat, k < 2 ^ 53 ∧ v = .float (.fin (lo + (hi - lo) * ((k : Rat) / 2 ^ 53))) ∧
        ((env.node t).exclusiveMinimum = true → lo < lo + (hi - lo) * ((k : Rat) / 2 ^ 53))) ∧
    ∀ e, ¬ Run (generate env opt rounds (fuel + 1) id) (.raises e) := by
  have hk : maker c!"number" (env.node t).format = some .float := by
    simp only [List.mem_cons, List.not_mem_nil, or_false] at hf
    rcases hf with h | h | h | h <;> rw [h] <;> decide
  have key : ∀ r, Run (generate env opt rounds (fuel + 1) id) r ↔
      Run (floatLoop (env.node t) lo hi rounds) r := by
    intro r
    rw [generate_leaf env opt rounds fuel id t _ h.1 h.2 (by decide) (by decide), run_leaf]
    simp only [he, hk]
    have e1 : make env opt rounds t .none .float = floatLoop (env.node t) lo hi rounds := by
      unfold make makeFloat
      rw [if_neg (by simp [truth])]
      rw [← (orElse_iff _ _ _).2 hlo, ← (orElse_iff _ _ _).2 hhi]
      rfl
    simp only [List.not_mem_nil, or_false, true_and, reduceCtorEq, false_and, false_or, Option.some.injEq,
      exists_eq_left, exists_eq_left', e1]
  have e0 : ∀ q, floatMultiple (env.node t) q = q := fun q => by
    unfold floatMultiple; rw [if_neg (by simp [hm])]
  constructor
  · intro v
    rw [key, run_floatLoop]
    simp only [e0]
    constructor
    · rintro (⟨_, k, h1, h2, h3⟩ | ⟨h, _⟩)
      · cases h3
        refine ⟨k, h1, rfl, fun hx => ?_⟩
        apply Rat.not_le.1
        exact fun hy => h2 ⟨hy, hx⟩
      · cases h
    · rintro ⟨k, h1, rfl, h2⟩
      refine .inl ⟨hr, k, h1, ?_, rfl⟩
      rintro ⟨h3, h4⟩
      exact Rat.not_le.2 (h2 h4) h3
  · intro e
    rw [key, run_floatLoop]
    rintro (⟨_, _, _, _, h⟩ | ⟨h, _⟩) <;> cases h

theorem between (lo hi : Rat) (h : lo ≤ hi) (k : Nat) (hk : k < 2 ^ 53) :
    lo ≤ lo + (hi - lo) * ((k : Rat) / 2 ^ 53) ∧ lo + (hi - lo) * ((k : Rat) / 2 ^ 53) ≤ hi ∧
      (lo < hi → lo + (hi - lo) * ((k : Rat) / 2 ^ 53) < hi) := by
  have h0 : (0 : Rat) ≤ (k : Rat) / 2 ^ 53 := by
    have : (0 : Rat) ≤ (k : Rat) := by exact_mod_cast Nat.zero_le k
    have p : (0 : Rat) < 2 ^ 53 := by decide +kernel
    rw [Rat.div_def]
    exact Rat.mul_nonneg this (Rat.le_of_lt (Rat.inv_pos.2 p))
  have h1 : (k : Rat) / 2 ^ 53 < 1 := by
    have p : (0 : Rat) < 2 ^ 53 := by decide +kernel
    have e : ((2 ^ 53 : Nat) : Rat) = 2 ^ 53 := by decide +kernel
    have q : (k : Rat) < 2 ^ 53 := by rw [← e]; exact Rat.natCast_lt_natCast.2 hk
    rw [Rat.div_lt_iff p]; simpa using q
  generalize (k : Rat) / 2 ^ 53 = x at h0 h1
  have hd : 0 ≤ hi - lo := by grind
  have a := Rat.mul_nonneg hd h0
  have b := Rat.mul_nonneg hd (show (0 : Rat) ≤ 1 - x by grind)
  refine ⟨by grind, by grind, ?_⟩
  intro hlt
  have c := Rat.mul_pos (show (0 : Rat) < hi - lo by grind) (show (0 : Rat) < 1 - x by grind)
  grind

/-- the integer part of a number: what is left when its digits after the point are cut off -/
def IntegerPart (y : Rat) (j : Int) : Prop :=
  (0 ≤ y → (j : Rat) ≤ y ∧ y < j + 1) ∧ (y < 0 → y ≤ j ∧ (j : Rat) - 1 < y)

theorem trunc_iff (y : Rat) (j : Int) : trunc y = j ↔ IntegerPart y j := by
  have fl : ∀ (z : Rat) (k : Int), z.floor = k ↔ ((k : Rat) ≤ z ∧ z < k + 1) := by
    intro z k
    constructor
    · rintro rfl
      exact ⟨Rat.floor_le z, by have := Rat.lt_floor_add_one z; push_cast at this; exact this⟩
    · rintro ⟨h1, h2⟩
      have a := Rat.le_floor_iff.2 h1
      have b : z.floor < k + 1 := by
        rw [Rat.floor_lt_iff]
        push_cast
        exact h2
      omega
  unfold trunc IntegerPart
  split
  · next h =>
    constructor
    · intro hj
      refine ⟨fun h0 => absurd h (Rat.not_lt.2 h0), fun _ => ?_⟩
      obtain ⟨h1, h2⟩ := (fl (-y) (-j)).1 (by omega)
      push_cast at h1 h2
      exact ⟨by grind, by grind⟩
    · rintro ⟨_, h2⟩
      obtain ⟨h3, h4⟩ := h2 h
      have := (fl (-y) (-j)).2 ⟨by push_cast; grind, by push_cast; grind⟩
      omega
  · next h =>
    rw [fl]
    exact ⟨fun hj => ⟨fun _ => hj, fun h0 => absurd h0 h⟩, fun hj => hj.1 (Rat.not_lt.1 h)⟩

/-- **C57** (multiples). For a number schema with a `multipleOf` and without enum: exactly the numbers
of `C57_number` cut down to a multiple, towards zero, above `lo` if the minimum is exclusive. Nothing
is raised. -/
theorem C57_multiples (env : Render.Env) (opt : Opt) (rounds fuel id t : Nat) (lo hi : Rat)
    (h : Is env id t c!"number") (he : (env.node t).enum = [])
    (hf : (env.node t).format ∈ [none, some c!"", some c!"float", some c!"double"])
    (hm : (env.node t).multipleOf ≠ 0) (hr : 0 < rounds)
    (hlo : LimitOr (env.node t).minimum (1 / 2 ^ 1022) lo)
    (hhi : LimitOr (env.node t).maximum ((2 - 1 / 2 ^ 52) * 2 ^ 1023) hi) :
    (∀ v, Run (generate env opt rounds (fuel + 1) id) (.value v) ↔
      ∃ (k : Nat) (j : Int), k < 2 ^ 53 ∧ v = .float (.fin (j * (env.node t).multipleOf)) ∧
        IntegerPart ((lo + (hi - lo) * ((k : Rat) / 2 ^ 53)) / (env.node t).multipleOf) j ∧
        ((env.node t).exclusiveMinimum = true → lo < j * (env.node t).multipleOf)) ∧
    ∀ e, ¬ Run (generate env opt rounds (fuel + 1) id) (.raises e) := by
  have hk : maker c!"number" (env.node t).format = some .float := by
    simp only [List.mem_cons, List.not_mem_nil, or_false] at hf
    rcases hf with h | h | h | h <;> rw [h] <;> decide
  have key : ∀ r, Run (generate env opt rounds (fuel + 1) id) r ↔
      Run (floatLoop (env.node t) lo hi rounds) r := by
    intro r
    rw [generate_leaf env opt rounds fuel id t _ h.1 h.2 (by decide) (by decide), run_leaf]
    simp only [he, hk]
    have e1 : make env opt rounds t .none .float = floatLoop (env.node t) lo hi rounds := by
      unfold make makeFloat
      rw [if_neg (by simp [truth])]
      rw [← (orElse_iff _ _ _).2 hlo, ← (orElse_iff _ _ _).2 hhi]
      rfl
    simp only [List.not_mem_nil, or_false, true_and, reduceCtorEq, false_and, false_or, Option.some.injEq,
      exists_eq_left, exists_eq_left', e1]
  have e0 : ∀ q, floatMultiple (env.node t) q =
      (trunc (q / (env.node t).multipleOf) : Int) * (env.node t).multipleOf := fun q => by
    unfold floatMultiple; rw [if_pos hm]
  constructor
  · intro v
    rw [key, run_floatLoop]
    simp only [e0]
    constructor
    · rintro (⟨_, k, h1, h2, h3⟩ | ⟨h, _⟩)
      · cases h3
        refine ⟨k, _, h1, rfl, (trunc_iff _ _).1 rfl, fun hx => ?_⟩
        apply Rat.not_le.1
        exact fun hy => h2 ⟨hy, hx⟩
      · cases h
    · rintro ⟨k, j, h1, rfl, hj, h2⟩
      rw [← trunc_iff] at hj
      refine .inl ⟨hr, k, h1, ?_, by rw [hj]⟩
      rw [hj]
      rintro ⟨h3, h4⟩
      exact Rat.not_le.2 (h2 h4) h3
  · intro e
    rw [key, run_floatLoop]
    rintro (⟨_, _, _, _, h⟩ | ⟨h, _⟩) <;> cases h

/-- **C57** (multiples). With a minimum below and a maximum above zero the multiples keep within the
limits. -/
theorem C57_multiples_limits (env : Render.Env) (opt : Opt) (rounds fuel id t : Nat) (lo hi : Rat) (v : Val)
    (h : Is env id t c!"number") (he : (env.node t).enum = [])
    (hf : (env.node t).format ∈ [none, some c!"", some c!"float", some c!"double"])
    (hm : 0 < (env.node t).multipleOf) (hr : 0 < rounds)
    (hlo : (env.node t).minimum = some lo) (hhi : (env.node t).maximum = some hi) (h1 : lo < 0) (h2 : 0 < hi)
    (hv : Run (generate env opt rounds (fuel + 1) id) (.value v)) :
    ∃ q : Rat, v = .float (.fin q) ∧ Spec.InRange (env.node t).toNode q ∧
      Spec.MultipleOf (env.node t).multipleOf q := by
  have hm0 : (env.node t).multipleOf ≠ 0 := by grind
  have l1 : LimitOr (env.node t).minimum (1 / 2 ^ 1022) lo := by
    exact .inl ⟨hlo, by grind⟩
  have l2 : LimitOr (env.node t).maximum ((2 - 1 / 2 ^ 52) * 2 ^ 1023) hi := by
    exact .inl ⟨hhi, by grind⟩
  obtain ⟨k, j, hk, rfl, hj, hx⟩ :=
    ((C57_multiples env opt rounds fuel id t lo hi h he hf hm0 hr l1 l2).1 v).1 hv
  obtain ⟨b1, _, b3⟩ := between lo hi (by grind) k hk
  have b3 := b3 (by grind)
  generalize lo + (hi - lo) * ((k : Rat) / 2 ^ 53) = x at hj b1 b3
  have key : (x ≤ j * (env.node t).multipleOf ∧ (j : Rat) * (env.node t).multipleOf ≤ 0) ∨
      (0 ≤ (j : Rat) * (env.node t).multipleOf ∧ j * (env.node t).multipleOf ≤ x) := by
    generalize (env.node t).multipleOf = m at hm hj
    have ex : x = x / m * m := (Rat.div_mul_cancel (by grind)).symm
    generalize x / m = y at hj ex
    obtain ⟨i1, i2⟩ := hj
    by_cases hy : y < 0
    · obtain ⟨p1, p2⟩ := i2 hy
      have hj0 : j ≤ 0 := by
        have : (j : Rat) < ((1 : Int) : Rat) := by push_cast; grind
        have := Rat.intCast_lt_intCast.1 this
        omega
      have hj1 : (j : Rat) ≤ 0 := by exact_mod_cast hj0
      have a := Rat.mul_nonneg (show 0 ≤ (j : Rat) - y by grind) (Rat.le_of_lt hm)
      have b := Rat.mul_nonneg (show 0 ≤ -(j : Rat) by grind) (Rat.le_of_lt hm)
      exact .inl ⟨by grind, by grind⟩
    · have hy := Rat.not_lt.1 hy
      obtain ⟨p1, p2⟩ := i1 hy
      have hj0 : 0 ≤ j := by
        have : ((-1 : Int) : Rat) < (j : Rat) := by push_cast; grind
        have := Rat.intCast_lt_intCast.1 this
        omega
      have hj1 : 0 ≤ (j : Rat) := by exact_mod_cast hj0
      have a := Rat.mul_nonneg (show 0 ≤ y - (j : Rat) by grind) (Rat.le_of_lt hm)
      have b := Rat.mul_nonneg hj1 (Rat.le_of_lt hm)
      exact .inr ⟨by grind, by grind⟩
  refine ⟨_, rfl, ?_, ⟨j, by grind⟩⟩
  generalize (j : Rat) * (env.node t).multipleOf = q at hx key
  unfold Spec.InRange Spec.AboveMin Spec.BelowMax
  rw [hlo, hhi]
  refine ⟨fun m hm => ?_, fun m hm => ?_⟩
  · cases hm
    refine ⟨by grind, fun he => ?_⟩
    have := hx he
    grind
  · cases hm
    exact ⟨by grind, fun _ => by grind⟩

/-! ## the values are accepted -/

/-- The renderer's objects are those of the factory, without aggregated versions; the factory has
its built-in handlers and Python's conversions leave numbers as they are. -/
structure Linked (e : Render.Env) (p : Prim.Env ω) : Prop where
  node : ∀ i, p.node i = (e.node i).toNode
  deref : ∀ i, p.deref i = e.target i
  reg : p.reg = builtins
  toInt : ∀ n : Int, p.toInt (.int n) = .ok n
  toFloat : ∀ q : Rat, p.toFloat (.float (.fin q)) = .ok (.fin q)
  order : ∀ l, (p.order l).Perm l

/-- Schemas whose rendered values are accepted; `S` are the objects that may be referred to. -/
inductive Fit (opt : Opt) (node : Nat → Render.Node) (S : Nat → Prop) (o : Render.Node) : Prop where
  | integer : o.type = some c!"integer" →
      o.format ∈ [none, some c!"", some c!"int32", some c!"int64"] →
      o.minimum ≠ some 0 → o.maximum ≠ some 0 → Aligned o →
      (o.multipleInt = true → o.multipleOf.den = 1) →
      (∀ v ∈ o.enum, ∃ n : Int, v = .int n ∧ n ≠ 0 ∧ Spec.InRange o.toNode n) → Fit opt node S o
  | number (lo hi : Rat) : o.type = some c!"number" →
      o.format ∈ [none, some c!"", some c!"float", some c!"double"] →
      o.minimum ≠ some 0 → o.maximum ≠ some 0 → o.multipleOf = 0 →
      LimitOr o.minimum (1 / 2 ^ 1022) lo → LimitOr o.maximum ((2 - 1 / 2 ^ 52) * 2 ^ 1023) hi →
      lo ≤ hi → (o.exclusiveMaximum = true → lo < hi) → o.enum = [] → Fit opt node S o
  | string : o.type = some c!"string" → o.format ∈ [none, some c!"", some c!"password"] →
      (∀ v ∈ o.enum, ∃ s, v = .str s ∧ s ≠ [] ∧ (∀ m, o.maxLength = some m → m ≠ 0 → s.length ≤ m) ∧
        (∀ m, o.minLength = some m → m ≤ s.length)) → Fit opt node S o
  | boolean : o.type = some c!"boolean" → o.format ∈ [none, some c!""] → Fit opt node S o
  | array (it : Nat) : o.type = some c!"array" → o.format ∈ [none, some c!""] → o.items = some it →
      S it → o.uniqueItems = false → Fit opt node S o
  | object : o.type = some c!"object" → o.format ∈ [none, some c!""] → o.isSchema = true →
      Dict.WF o.properties → (∀ k p, Dict.get? o.properties k = some p → S p ∧ (node p).readOnly = false ∧
        (node p).defaultSet = false) →
      (∀ k ∈ o.required, Dict.get? o.properties k ≠ none) →
      (o.discriminator ≠ none → o.name ≠ none) →
      (∀ p, o.additional = .schema p → S p ∧ ∀ x : Str, x.length ≤ opt.maxNameLength → (∀ c ∈ x, Letter c) →
        Dict.get? o.properties x = none ∨ x ∈ o.required ∨ opt.maxProperty = true) → Fit opt node S o

theorem typed_of (p : Prim.Env ω) (t : Nat) (type : Str) (h : Handler) (hr : p.reg = builtins)
    (ht : (p.node t).type = some type) (hne : type ≠ [])
    (hg : Registry.get builtins (some type) (p.node t).format = .handler h) : Typed p t h :=
  ⟨by rw [ht]; exact ⟨by simp, by simpa using hne⟩, by rw [hr, ht]; exact hg⟩

theorem convert_bool (p : Prim.Env ω) (n id t : Nat) (b read : Bool) (hd : p.deref id = .ok t)
    (ht : Typed p t .bool) (ha : (p.node t).allOf = []) :
    ∃ x, convert p (n + 1) id (.bool b) read = .ok x := by
  have hv : effective p id (.bool b) = .bool b := by simp [effective]
  rw [convert_step p n id t _ read hd (by rw [hv]; simp), first_typed p _ t _ _ ht.1 ht.2]
  simp only [create, isFinalAtom, applyAllOf_nil p _ t _ ha, finish, Bool.false_eq_true, if_false]
  exact ⟨_, rfl⟩

theorem get_of_mem_append {d x : Dict Str Val} {k : Str} {v : Val} (h : Dict.get? (d ++ x) k = some v) :
    (k, v) ∈ d ∨ (k, v) ∈ x := by
  have := Dict.mem_of_get? h
  exact List.mem_append.1 this

/-- **C57** (accepted). Take a set of schemas closed under items, properties and additional
properties, each of them `Fit`, without allOf, and template values that are accepted. Whatever the
random draws, a value rendered for one of them is accepted when it is passed back (with one stack
frame to spare, for the template values, which cost the renderer none). -/
theorem C57_accepted (e : Render.Env) (p : Prim.Env ω) (opt : Opt) (rounds : Nat) (S : Nat → Prop)
    (hl : Linked e p)
    (hS : ∀ id, S id → ∃ t, e.target id = .ok t ∧ (e.node t).allOf = [] ∧ Fit opt e.node S (e.node t))
    (hT : ∀ fuel name v id, Dict.get? opt.objectTemplate name = some v → S id →
      ∃ x, convert p (fuel + 1) id v true = .ok x)
    (fuel id : Nat) (v : Val) (read : Bool) (hid : S id)
    (h : Run (generate e opt rounds fuel id) (.value v)) :
    ∃ x, convert p (fuel + 1) id v read = .ok x := by
  induction fuel generalizing id v read with
  | zero => cases h
  | succ fuel ih =>
    obtain ⟨t, ht, ha, hfit⟩ := hS id hid
    have hd : p.deref id = .ok t := by rw [hl.deref]; exact ht
    have hn := hl.node t
    have ha' : (p.node t).allOf = [] := by rw [hn]; exact ha
    cases hfit with
    | integer hty hf h1 h2 hal hden henum =>
      have hk : Registry.get builtins (some c!"integer") (p.node t).format = .handler .int := by
        rw [hn]
        simp only [List.mem_cons, List.not_mem_nil, or_false] at hf
        rcases hf with x | x | x | x <;> rw [x] <;> decide
      have htyp : Typed p t .int := typed_of p t c!"integer" .int hl.reg (by rw [hn]; exact hty) (by simp) hk
      have good : ∀ n : Int, Spec.InRange (e.node t).toNode n → ∃ x, convert p (fuel + 1 + 1) id (.int n) read = .ok x := by
        intro n hr
        have hv : effective p id (.int n) = .int n := by simp [effective]
        obtain ⟨_, hc⟩ := C33.C33_integer p (fuel + 1) id t (.int n) read hd htyp ha' (by rw [hv]; simp)
        exact ⟨_, (hc n (by rw [hv]; exact hl.toInt n)).1 (by rw [hn]; exact hr)⟩
      have is : Is e id t c!"integer" := ⟨ht, hty⟩
      by_cases he : (e.node t).enum = []
      · obtain ⟨n, rfl, hr, _⟩ := C57_integer_limits e opt rounds fuel id t v is he hf hden h1 h2 hal h
        exact good n hr
      · rw [C57_enum e opt rounds fuel id t c!"integer" _ is he (.inl ⟨rfl, hf⟩)] at h
        rcases h with ⟨w, hw, _, hx⟩ | ⟨⟨w, hw, hx⟩, _⟩
        · cases hx
          obtain ⟨n, rfl, _, hr⟩ := henum v hw
          exact good n hr
        · obtain ⟨n, rfl, h0, _⟩ := henum w hw
          simp [truth, h0] at hx
    | number lo hi hty hf h1 h2 h3 hlo hhi hle hlt he =>
      have hk : Registry.get builtins (some c!"number") (p.node t).format = .handler .float := by
        rw [hn]
        simp only [List.mem_cons, List.not_mem_nil, or_false] at hf
        rcases hf with x | x | x | x <;> rw [x] <;> decide
      have htyp : Typed p t .float := typed_of p t c!"number" .float hl.reg (by rw [hn]; exact hty) (by simp) hk
      have hrounds : 0 < rounds := by
        rcases Nat.eq_zero_or_pos rounds with h0 | h0
        · subst h0
          have hmk : maker c!"number" (e.node t).format = some .float := by
            simp only [List.mem_cons, List.not_mem_nil, or_false] at hf
            rcases hf with x | x | x | x <;> rw [x] <;> decide
          rw [generate_leaf e opt 0 fuel id t _ ht hty (by decide) (by decide), run_leaf, hmk] at h
          obtain ⟨w, ⟨_, rfl⟩ | hw, ⟨h, _⟩ | ⟨m, h, h'⟩⟩ := h
          · cases h
          · cases h
            unfold make makeFloat at h'
            rw [if_neg (by simp [truth])] at h'
            cases h'
          · cases h
          · rw [he] at hw; simp at hw
        · exact h0
      obtain ⟨k, hk1, rfl, hk2⟩ := ((C57_number e opt rounds fuel id t lo hi ⟨ht, hty⟩ he hf h3 hrounds hlo hhi).1 v).1 h
      obtain ⟨b1, b2, b3⟩ := between lo hi hle k hk1
      generalize hq : lo + (hi - lo) * ((k : Rat) / 2 ^ 53) = q at *
      have hv : effective p id (.float (.fin q)) = .float (.fin q) := by simp [effective]
      obtain ⟨_, hc⟩ := C33.C33_number p (fuel + 1) id t (.float (.fin q)) read hd htyp ha' (by rw [hv]; simp)
      refine ⟨_, (hc q (by rw [hv]; exact hl.toFloat q)).1 ⟨⟨?_, ?_⟩, ?_⟩⟩
      · intro m hm
        rw [hn] at hm
        have hm : (e.node t).minimum = some m := hm
        have : m = lo := by
          rcases hlo with ⟨x, _⟩ | ⟨x | x, _⟩
          · rw [hm] at x; cases x; rfl
          · rw [hm] at x; cases x
          · exact absurd x h1
        subst this
        refine ⟨b1, ?_⟩
        intro hx
        have hx : (e.node t).exclusiveMinimum = true := by rw [hn] at hx; exact hx
        have := hk2 hx
        grind
      · intro m hm
        rw [hn] at hm
        have hm : (e.node t).maximum = some m := hm
        have : m = hi := by
          rcases hhi with ⟨x, _⟩ | ⟨x | x, _⟩
          · rw [hm] at x; cases x; rfl
          · rw [hm] at x; cases x
          · exact absurd x h2
        subst this
        refine ⟨b2, ?_⟩
        intro hx
        have hx : (e.node t).exclusiveMaximum = true := by rw [hn] at hx; exact hx
        have := b3 (hlt hx)
        grind
      · intro hx; rw [hn] at hx; exact absurd h3 hx
    | string hty hf henum =>
      have hk : Registry.get builtins (some c!"string") (p.node t).format = .handler .str := by
        rw [hn]
        simp only [List.mem_cons, List.not_mem_nil, or_false] at hf
        rcases hf with x | x | x <;> rw [x] <;> decide
      have htyp : Typed p t .str := typed_of p t c!"string" .str hl.reg (by rw [hn]; exact hty) (by simp) hk
      have good : ∀ s : Str, C34.Conforms (e.node t).toNode s → ∃ x, convert p (fuel + 1 + 1) id (.str s) read = .ok x := by
        intro s hr
        have hv : effective p id (.str s) = .str s := by simp [effective]
        exact ⟨_, (C34.C34_string p (fuel + 1) id t (.str s) read hd htyp ha' (by rw [hv]; simp) s (.inl hv)).1
          (by rw [hn]; exact hr)⟩
      have is : Is e id t c!"string" := ⟨ht, hty⟩
      by_cases he : (e.node t).enum = []
      · rcases (C57_string e opt rounds fuel id t _ is he hf).1 h with ⟨s, hx, _, lo, hi, h1, h2, h3, h4⟩ | ⟨_, hx⟩
        · cases hx
          refine good s ⟨fun x => absurd he x, ?_, ?_⟩
          · intro m hm h0
            rcases h2 with ⟨x, _⟩ | ⟨x | x, _⟩
            · rw [show (e.node t).maxLength = some m from hm] at x; cases x; exact h4
            · rw [show (e.node t).maxLength = some m from hm] at x; cases x
            · rw [show (e.node t).maxLength = some m from hm] at x; cases x; exact absurd rfl h0
          · intro m hm
            rcases h1 with ⟨x, _⟩ | ⟨x | x, _⟩
            · rw [show (e.node t).minLength = some m from hm] at x; cases x; exact h3
            · rw [show (e.node t).minLength = some m from hm] at x; cases x
            · rw [show (e.node t).minLength = some m from hm] at x; cases x; exact Nat.zero_le _
        · cases hx
      · have hf' : (e.node t).format ∈ [none, some c!"", some c!"password", some c!"email"] := by
          simp only [List.mem_cons, List.not_mem_nil, or_false] at hf ⊢
          rcases hf with x | x | x <;> simp [x]
        rw [C57_enum e opt rounds fuel id t c!"string" _ is he (.inr (.inr ⟨rfl, hf'⟩))] at h
        rcases h with ⟨w, hw, _, hx⟩ | ⟨⟨w, hw, hx⟩, _⟩
        · cases hx
          obtain ⟨s, rfl, _, h1, h2⟩ := henum v hw
          exact good s ⟨fun _ => hw, h1, h2⟩
        · obtain ⟨s, rfl, h0, _⟩ := henum w hw
          simp [truth, h0] at hx
    | boolean hty hf =>
      have hk : Registry.get builtins (some c!"boolean") (p.node t).format = .handler .bool := by
        rw [hn]
        simp only [List.mem_cons, List.not_mem_nil, or_false] at hf
        rcases hf with x | x <;> rw [x] <;> decide
      have hmk : maker c!"boolean" (e.node t).format = some .bool := by
        simp only [List.mem_cons, List.not_mem_nil, or_false] at hf
        rcases hf with x | x <;> rw [x] <;> decide
      have htyp : Typed p t .bool := typed_of p t c!"boolean" .bool hl.reg (by rw [hn]; exact hty) (by simp) hk
      rw [generate_leaf e opt rounds fuel id t _ ht hty (by decide) (by decide), run_leaf, hmk] at h
      obtain ⟨w, _, ⟨hx, _⟩ | ⟨m, hx, hr⟩⟩ := h
      · cases hx
      · cases hx
        obtain ⟨b, hb⟩ := run_makeBool (v := w) hr
        cases hb
        exact convert_bool p (fuel + 1) id t b read hd htyp ha'
    | array it hty hf hit hin hu =>
      have hk : Registry.get builtins (some c!"array") (p.node t).format = .handler .array := by
        rw [hn]
        simp only [List.mem_cons, List.not_mem_nil, or_false] at hf
        rcases hf with x | x <;> rw [x] <;> decide
      have htyp : Typed p t .array := typed_of p t c!"array" .array hl.reg (by rw [hn]; exact hty) (by simp) hk
      obtain ⟨l, rfl, ⟨lo, hi, h1, h2, h3, h4⟩, hel⟩ :=
        ((C57_array e opt rounds fuel id t it ⟨ht, hty⟩ hit).1 v).1 h
      have hv : effective p id (.list l) = .list l := by simp [effective]
      have hu' : (p.node t).uniqueItems = false := by rw [hn]; exact hu
      have hc := (C35.C35_array p (fuel + 1) id t it (.list l) read l l hd htyp ha' (by rw [hn]; exact hit)
        (by rw [hv]; rfl) (by rw [hu']; rfl)).1
      have hall : ∃ xs, List.Forall₂ (fun v x => convert p (fuel + 1) it v true = .ok x) l xs := by
        clear hc h3 h4 hv h
        induction l with
        | nil => exact ⟨[], .nil⟩
        | cons a l ihl =>
          obtain ⟨x, hx⟩ := ih it a true hin (hel a List.mem_cons_self)
          obtain ⟨xs, hxs⟩ := ihl (fun b hb => hel b (List.mem_cons_of_mem _ hb))
          exact ⟨x :: xs, .cons hx hxs⟩
      obtain ⟨xs, hxs⟩ := hall
      refine ⟨_, (hc _).2 ⟨xs, rfl, hxs, ⟨?_, ?_⟩⟩⟩
      · intro m hm
        rw [hn] at hm
        have hm : (e.node t).minItems = some m := hm
        rcases h1 with ⟨x, _⟩ | ⟨x | x, _⟩
        · rw [hm] at x; cases x; exact h3
        · rw [hm] at x; cases x
        · rw [hm] at x; cases x; exact Nat.zero_le _
      · intro m hm h0
        rw [hn] at hm
        have hm : (e.node t).maxItems = some m := hm
        rcases h2 with ⟨x, _⟩ | ⟨x | x, _⟩
        · rw [hm] at x; cases x; exact h4
        · rw [hm] at x; cases x
        · rw [hm] at x; cases x; exact absurd rfl h0
    | object hty hf hsch hwf hprops hreq hdisc hadd =>
      have hk : Registry.get builtins (some c!"object") (p.node t).format = .handler .model := by
        rw [hn]
        simp only [List.mem_cons, List.not_mem_nil, or_false] at hf
        rcases hf with x | x <;> rw [x] <;> decide
      have htyp : Typed p t .model := typed_of p t c!"object" .model hl.reg (by rw [hn]; exact hty) (by simp) hk
      rw [generate_object e opt rounds fuel id t ht hty, run_object hwf] at h
      obtain ⟨_, d, n, x, rfl, hdec, hx1, hx2⟩ := h
      -- the extra properties
      have hxm : (x.map Prod.fst).Nodup ∧ ∀ k v, (k, v) ∈ x → k ∉ d.map Prod.fst ∧
          Dict.get? (e.node t).properties k = none ∧
          ∃ q, (e.node t).additional = .schema q ∧ Run (generate e opt rounds fuel q) (.value v) := by
        cases hadd' : (e.node t).additional with
        | schema q =>
          obtain ⟨lo, hi, total, _, _, _, _, _, _, _, hmore⟩ := hx1 q hadd'
          obtain ⟨m1, m2⟩ := more_mem hmore
          refine ⟨m1, fun k v hkv => ?_⟩
          obtain ⟨a1, a2, a3, a4⟩ := m2 k v hkv
          refine ⟨a1, ?_, q, rfl, a4⟩
          rcases (hadd q hadd').2 k a2 a3 with g | g | g
          · exact g
          · cases hg : Dict.get? (e.node t).properties k with
            | none => rfl
            | some pp => exact absurd (declared_has hdec (Dict.mem_of_get? hg) (.inr (.inr g))) a1
          · cases hg : Dict.get? (e.node t).properties k with
            | none => rfl
            | some pp => exact absurd (declared_has hdec (Dict.mem_of_get? hg) (.inr (.inl g))) a1
        | no =>
          have := hx2 (by rw [hadd']; simp)
          subst this; simp
        | yes =>
          have := hx2 (by rw [hadd']; simp)
          subst this; simp
      have hw : Dict.WF (d ++ x) := by
        unfold Dict.WF Dict.keys
        rw [List.map_append, List.nodup_append]
        refine ⟨(declared_sub hdec).nodup hwf, hxm.1, ?_⟩
        rintro a h1 b h2 rfl
        obtain ⟨⟨k, w⟩, h3, rfl⟩ := List.mem_map.1 h2
        exact (hxm.2 k w h3).1 h1
      have hacc : C36.Accepts p (fuel + 1) t read (d ++ x) := by
        refine ⟨?_, ?_, ?_, ?_, ?_⟩
        · intro k w q hkw hq
          rw [hn] at hq
          have hq : Dict.get? (e.node t).properties k = some q := hq
          obtain ⟨sq, ro, ds⟩ := hprops k q hq
          refine ⟨fun hro => ?_, ?_⟩
          · rw [hl.node] at hro; rw [show (e.node q).readOnly = true from hro] at ro; cases ro
          · rcases get_of_mem_append hkw with hm | hm
            · obtain ⟨q', hq', hor⟩ := declared_mem hdec hm
              have : q' = q := by
                have := Dict.get?_of_mem hwf hq'
                rw [hq] at this; cases this; rfl
              subst this
              rcases hor with hor | ⟨_, hor⟩
              · exact hT fuel k w _ hor sq
              · exact ih _ w true sq hor
            · have := (hxm.2 k w hm).2.1
              rw [hq] at this; cases this
        · intro k q _ hq hds
          rw [hn] at hq
          obtain ⟨_, _, ds⟩ := hprops k q hq
          rw [hl.node] at hds
          rw [show (e.node q).defaultSet = true from hds] at ds; cases ds
        · intro k hkr
          rw [hn] at hkr ⊢
          have hkr : k ∈ (e.node t).required := hkr
          cases hg : Dict.get? (e.node t).properties k with
          | none => exact absurd hg (hreq k hkr)
          | some q =>
            refine ⟨q, rfl, .inl ?_⟩
            have := declared_has hdec (Dict.mem_of_get? hg) (.inr (.inr hkr))
            intro hnone
            rw [Dict.get?_eq_none_iff] at hnone
            apply hnone
            unfold Dict.keys
            rw [List.map_append]
            exact List.mem_append_left _ this
        · intro hdn
          rw [hn] at hdn ⊢
          exact hdisc hdn
        · intro q hq k w hkw hnone
          rw [hn] at hq hnone
          rcases get_of_mem_append hkw with hm | hm
          · obtain ⟨q', hq', _⟩ := declared_mem hdec hm
            have := Dict.get?_of_mem hwf hq'
            rw [show Dict.get? (e.node t).properties k = none from hnone] at this; cases this
          · obtain ⟨_, _, q', hq', hrun⟩ := hxm.2 k w hm
            rw [show (e.node t).additional = .schema q from hq] at hq'; cases hq'
            exact ih q w true (hadd q hq).1 hrun
      obtain ⟨m, hm, _⟩ := C36.C36_content p (fuel + 1) id t (d ++ x) read hd ⟨by rw [hn]; exact hsch, .inl htyp⟩ ha' hw
        (by rw [hn]; exact hwf) hl.order hacc
      exact ⟨_, hm⟩

/-! ## concrete cases -/

/-- a renderer that knows these objects, none of them a reference -/
def only (node : Nat → Render.Node) : Render.Env where
  node := node
  target := .ok
  special := fun _ _ _ => .fail .Exception

/-- a number between -5.5 and 7 that is a multiple of 2 -/
example (v : Val) (h : Run (generate (only fun _ =>
    { type := some c!"number", minimum := some (-11 / 2), maximum := some 7, multipleOf := 2 }) {} 1 1 0) (.value v)) :
    ∃ q : Rat, v = .float (.fin q) ∧ -11 / 2 ≤ q ∧ q ≤ 7 ∧ ∃ k : Int, q = 2 * k := by
  obtain ⟨q, e, h1, h2⟩ := C57_multiples_limits (only fun _ =>
    { type := some c!"number", minimum := some (-11 / 2), maximum := some 7, multipleOf := 2 }) {} 1 0 0 0
    (-11 / 2) 7 v ⟨rfl, rfl⟩ rfl (by simp [only]) (by decide +kernel) (by decide) rfl rfl
    (by decide +kernel) (by decide +kernel) h
  exact ⟨q, e, (h1.1 _ rfl).1, (h1.2 _ rfl).1, h2⟩

/-- the factory with the same objects -/
def fac (node : Nat → Render.Node) : Prim.Env Nat := C33.world fun i => (node i).toNode

theorem linked (node : Nat → Render.Node) : Linked (only node) (fac node) :=
  ⟨fun _ => rfl, fun _ => rfl, rfl, fun _ => rfl, fun _ => rfl, fun _ => List.Perm.refl _⟩

/-- integers between 10 and 20, multiples of 5 -/
def fives : Render.Node :=
  { type := some c!"integer", minimum := some 10, maximum := some 20, multipleOf := 5 }

/-- texts of 2 to 4 letters -/
def short : Render.Node := { type := some c!"string", minLength := some 2, maxLength := some 4 }

/-- `Pet`: 0; its property `id`: 1; `tags`: 2, an array of 3. The additional properties are 3. -/
def pet : Nat → Render.Node
  | 0 => { type := some c!"object", isSchema := true, required := [c!"id"],
           properties := [(c!"id", 1), (c!"tags", 2)] }
  | 1 => fives
  | 2 => { type := some c!"array", items := some 3, maxItems := some 2 }
  | _ => short

theorem drawn_fives (n : Int) (h1 : 10 ≤ n) (h2 : n ≤ 20) : Drawn fives n := by
  refine ⟨2 ^ 30, 10, 20, .inl ⟨.inl rfl, rfl⟩, .inl ⟨rfl, by decide⟩, .inl ⟨rfl, by decide⟩, h1, h2⟩

/-- 17 is drawn and becomes 15. -/
example : Run (generate (only pet) {} 0 1 1) (.value (.int 15)) :=
  (C57_integer (only pet) {} 0 0 1 1 _ ⟨rfl, rfl⟩ rfl (by decide) (by decide)).2
    (.inl ⟨17, 15, drawn_fives 17 (by decide) (by decide), by
      refine ⟨by rintro (h | h) <;> revert h <;> decide, ?_⟩
      intro m _ hm h0
      have e : ((5 : Int) : Rat) = (m : Rat) := hm
      have := Rat.intCast_inj.1 e
      subst this
      omega, rfl⟩)

/-- a text of two letters for `short`, a list of two such for `tags` -/
example : Run (generate (only pet) {} 0 2 2) (.value (.list [.str c!"ab", .str c!"ZZz"])) := by
  refine ((C57_array (only pet) {} 0 1 2 2 3 ⟨rfl, rfl⟩ rfl).1 _).2
    ⟨_, rfl, ⟨0, 2, .inr ⟨.inl rfl, rfl⟩, .inl ⟨rfl, by decide⟩, by decide, by decide⟩, ?_⟩
  intro x hx
  simp only [List.mem_cons, List.not_mem_nil, or_false] at hx
  rcases hx with rfl | rfl
  all_goals
    refine (C57_string (only pet) {} 0 0 3 3 _ ⟨rfl, rfl⟩ rfl (by decide)).2 (.inl ⟨_, rfl, ?_,
      2, 4, .inl ⟨rfl, by decide⟩, .inl ⟨rfl, by decide⟩, by decide, by decide⟩)
    unfold Letter
    decide

theorem aligned_fives : Aligned fives := by
  intro m _ hm h0
  have e : ((5 : Int) : Rat) = (m : Rat) := hm
  have := Rat.intCast_inj.1 e
  subst this
  refine ⟨by decide, ?_⟩
  intro lo hlo
  have e : ((10 : Int) : Rat) = (lo : Rat) := by
    have : (some (10 : Rat)) = some (lo : Rat) := hlo
    cases this; rfl
  have := Rat.intCast_inj.1 e
  subst this
  decide

theorem fit_pet (i : Nat) : Fit {} pet (fun _ => True) (pet i) := by
  match i with
  | 0 =>
    refine .object rfl (by decide) rfl (by decide) ?_ (by decide) (by decide) ?_
    · intro k p hk
      have := Dict.mem_of_get? hk
      simp only [pet, List.mem_cons, List.not_mem_nil, or_false, Prod.mk.injEq] at this
      rcases this with ⟨_, rfl⟩ | ⟨_, rfl⟩ <;> exact ⟨trivial, rfl, rfl⟩
    · intro p hp; cases hp
  | 1 => exact .integer rfl (by decide) (by decide) (by decide) aligned_fives (by decide) (by intro v hv; cases hv)
  | 2 => exact .array 3 rfl (by decide) rfl trivial rfl
  | _ + 3 => exact .string rfl (.head _) (by intro v hv; cases hv)

/-- Every pet that is rendered is accepted. -/
example (rounds fuel : Nat) (v : Val) (h : Run (generate (only pet) {} rounds fuel 0) (.value v)) :
    ∃ x, convert (fac pet) (fuel + 1) 0 v true = .ok x :=
  C57_accepted (only pet) (fac pet) {} rounds (fun _ => True) (linked pet)
    (fun id _ => ⟨id, rfl, by
      match id with
      | 0 => rfl
      | 1 => rfl
      | 2 => rfl
      | _ + 3 => rfl, fit_pet id⟩)
    (fun _ _ _ _ h => by cases h) fuel 0 v true trivial h

/-- A number between 1 and 2. -/
example : Run (generate (only fun _ => { type := some c!"number", minimum := some 1, maximum := some 2 }) {} 1 1 0)
    (.value (.float (.fin 1))) :=
  ((C57_number (only fun _ => { type := some c!"number", minimum := some 1, maximum := some 2 }) {} 1 0 0 0 1 2
    ⟨rfl, rfl⟩ rfl (by decide) rfl (by decide) (.inl ⟨rfl, by decide⟩) (.inl ⟨rfl, by decide⟩)).1 _).2
    ⟨0, by decide, by decide +kernel, by intro h; cases h⟩

/-- An e-mail address. -/
example : Run (generate (only fun _ => { type := some c!"string", format := some c!"email" }) {} 1 1 0)
    (.value (.str c!"a-b.c4d@e_f.g-h")) := by
  refine (C57_email _ {} 1 0 0 0 _ ⟨rfl, rfl⟩ rfl rfl).2
    ⟨_, rfl, [c!"a-b", c!"c4d"], c!"e_f", c!"g-h", rfl, by decide, by decide, ?_,
      ⟨'e', c!"_f", rfl, ?_⟩, ⟨'g', c!"-h", rfl, ?_⟩⟩
  · intro w hw
    simp only [List.mem_cons, List.not_mem_nil, or_false] at hw
    rcases hw with rfl | rfl
    · exact ⟨'a', c!"-", 'b', rfl, by unfold NameChar Letter; decide⟩
    · exact ⟨'c', c!"4", 'd', rfl, by unfold NameChar Letter; decide⟩
  · unfold NameChar Letter; decide
  · unfold NameChar Letter; decide

/-- An enum: only its values. -/
example (r : Ends Val) :
    Run (generate (only fun _ => { type := some c!"string", enum := [.str c!"a", .str c!"b"] }) {} 1 1 0) r ↔
      r = .value (.str c!"a") ∨ r = .value (.str c!"b") := by
  rw [C57_enum (only fun _ => { type := some c!"string", enum := [.str c!"a", .str c!"b"] }) {} 1 0 0 0 c!"string" r
    ⟨rfl, rfl⟩ (by decide) (.inr (.inr ⟨rfl, by decide⟩))]
  simp [only, truth]

/-! ## what does not hold -/

/-- A minimum of 0 is ignored: negative integers are rendered, and refused when passed back. -/
theorem C57_minimum_false :
    ¬ ∀ (o : Render.Node) (v : Val), o.type = some c!"integer" →
      Run (generate (only fun _ => o) {} 1 1 0) (.value v) →
      ∃ x, convert (fac fun _ => o) 1 0 v true = .ok x := by
  intro H
  obtain ⟨x, hx⟩ := H { type := some c!"integer", minimum := some 0 } (.int (-1)) rfl
    ((C57_integer _ {} 1 0 0 0 _ ⟨rfl, rfl⟩ rfl (by decide) (by decide)).2
      (.inl ⟨-1, -1, ⟨2 ^ 30, -2 ^ 30, 2 ^ 30, .inl ⟨.inl rfl, rfl⟩, .inr ⟨.inr rfl, by decide +kernel⟩,
        .inr ⟨.inl rfl, by decide +kernel⟩, by decide, by decide⟩,
        ⟨fun _ => rfl, fun m _ hm h0 => absurd (Rat.intCast_inj.1 (show ((0 : Int) : Rat) = m from hm)).symm h0⟩,
        rfl⟩))
  have : convert (fac fun _ => ({ type := some c!"integer", minimum := some 0 } : Render.Node)) 1 0 (.int (-1)) true =
    .error .ValidationError := by rfl
  rw [this] at hx
  cases hx

/-- A maximum of 0 is ignored as well. -/
theorem C57_maximum_false :
    ¬ ∀ (o : Render.Node) (v : Val), o.type = some c!"integer" →
      Run (generate (only fun _ => o) {} 1 1 0) (.value v) →
      ∃ x, convert (fac fun _ => o) 1 0 v true = .ok x := by
  intro H
  obtain ⟨x, hx⟩ := H { type := some c!"integer", maximum := some 0 } (.int 1) rfl
    ((C57_integer _ {} 1 0 0 0 _ ⟨rfl, rfl⟩ rfl (by decide) (by decide)).2
      (.inl ⟨1, 1, ⟨2 ^ 30, -2 ^ 30, 2 ^ 30, .inl ⟨.inl rfl, rfl⟩, .inr ⟨.inl rfl, by decide +kernel⟩,
        .inr ⟨.inr rfl, by decide +kernel⟩, by decide, by decide⟩,
        ⟨fun _ => rfl, fun m _ hm h0 => absurd (Rat.intCast_inj.1 (show ((0 : Int) : Rat) = m from hm)).symm h0⟩,
        rfl⟩))
  have : convert (fac fun _ => ({ type := some c!"integer", maximum := some 0 } : Render.Node)) 1 0 (.int 1) true =
    .error .ValidationError := by rfl
  rw [this] at hx
  cases hx

/-- Rounding to a multiple can go below the minimum: 5 for multiples of 5 from 7 on. -/
theorem C57_multiple_false :
    ¬ ∀ (o : Render.Node) (v : Val), o.type = some c!"integer" → o.minimum ≠ some 0 → o.maximum ≠ some 0 →
      Run (generate (only fun _ => o) {} 1 1 0) (.value v) →
      ∃ x, convert (fac fun _ => o) 1 0 v true = .ok x := by
  intro H
  obtain ⟨x, hx⟩ := H { type := some c!"integer", minimum := some 7, multipleOf := 5 } (.int 5) rfl (by decide)
    (by decide)
    ((C57_integer _ {} 1 0 0 0 _ ⟨rfl, rfl⟩ rfl (by decide) (by decide)).2
      (.inl ⟨8, 5, ⟨2 ^ 30, 7, 2 ^ 30, .inl ⟨.inl rfl, rfl⟩, .inl ⟨rfl, by decide⟩,
        .inr ⟨.inl rfl, by decide +kernel⟩, by decide, by decide⟩, by
          refine ⟨by rintro (h | h) <;> revert h <;> decide, ?_⟩
          intro m _ hm h0
          have e : ((5 : Int) : Rat) = (m : Rat) := hm
          have := Rat.intCast_inj.1 e
          subst this
          omega, rfl⟩))
  have : convert (fac fun _ => ({ type := some c!"integer", minimum := some 7, multipleOf := 5 } : Render.Node)) 1 0
    (.int 5) true = .error .ValidationError := by rfl
  rw [this] at hx
  cases hx

/-- A falsy value of the enum stands for any value: with the enum `['']` every text is rendered. -/
theorem C57_enum_false :
    ¬ ∀ (o : Render.Node) (v : Val), o.type = some c!"string" → o.enum ≠ [] →
      Run (generate (only fun _ => o) {} 1 1 0) (.value v) → v ∈ o.enum := by
  intro H
  have := H { type := some c!"string", enum := [.str []] } (.str c!"a") rfl (by decide)
    ((C57_enum _ {} 1 0 0 0 c!"string" _ ⟨rfl, rfl⟩ (by decide) (.inr (.inr ⟨rfl, by decide⟩))).2
      (.inr ⟨⟨.str [], List.mem_cons_self, rfl⟩,
        (C57_string _ {} 1 0 0 0 _ ⟨rfl, rfl⟩ rfl (by decide)).2
          (.inl ⟨_, rfl, by unfold Letter; decide, 0, 100, .inr ⟨.inl rfl, rfl⟩, .inr ⟨.inl rfl, rfl⟩, by decide,
            by decide⟩)⟩))
  revert this; decide

/-- A boolean schema with the enum `[false]` can yield true. -/
theorem C57_bool_enum_false :
    ¬ ∀ (o : Render.Node) (v : Val), o.type = some c!"boolean" → o.enum ≠ [] →
      Run (generate (only fun _ => o) {} 1 1 0) (.value v) → v ∈ o.enum := by
  intro H
  have := H { type := some c!"boolean", enum := [.bool false] } (.bool true) rfl (by decide)
    (.pick 0 _ 0 _ (Nat.le_refl 0) (.pick 1 _ 0 _ (Nat.zero_le 1) (.ret _)))
  revert this; decide

/-- No text is rendered for a minimum length above the option `max_str_length` (100) when the
schema has no maximum: `ValueError`. -/
theorem C57_long_false :
    ¬ ∀ o : Render.Node, o.type = some c!"string" → o.enum = [] → o.format = none → o.maxLength = none →
      ∃ v, Run (generate (only fun _ => o) {} 1 1 0) (.value v) := by
  intro H
  obtain ⟨v, hv⟩ := H { type := some c!"string", minLength := some 200 } rfl rfl rfl rfl
  rcases (C57_string _ {} 1 0 0 0 _ ⟨rfl, rfl⟩ rfl (by decide)).1 hv with
    ⟨s, _, _, lo, hi, h1, h2, h3, h4⟩ | ⟨_, h⟩
  · rcases h1 with ⟨x, _⟩ | ⟨x | x, _⟩ <;> cases x
    rcases h2 with ⟨x, _⟩ | ⟨x | x, h2⟩ <;> cases x
    subst h2
    exact absurd (Nat.le_trans h3 h4) (by decide)
  · cases h

/-- `uniqueItems` is ignored: `[true, true]` is rendered for at least two different booleans, and
refused when passed back. -/
theorem C57_unique_false :
    ¬ ∀ (node : Nat → Render.Node) (v : Val), (node 0).type = some c!"array" →
      Run (generate (only node) {} 1 2 0) (.value v) →
      ∃ x, convert (fac node) 3 0 v true = .ok x := by
  intro H
  have hr : ∀ node : Nat → Render.Node, node = (fun i => if i = 0 then
      { type := some c!"array", items := some 1, minItems := some 2, uniqueItems := true }
      else { type := some c!"boolean" }) →
      Run (generate (only node) {} 1 2 0) (.value (.list [.bool true, .bool true])) := by
    rintro node rfl
    refine ((C57_array (only _) {} 1 1 0 0 1 ⟨rfl, rfl⟩ rfl).1 _).2
      ⟨_, rfl, ⟨2, 100, .inl ⟨rfl, by decide⟩, .inr ⟨.inl rfl, rfl⟩, by decide, by decide⟩, ?_⟩
    intro x hx
    simp only [List.mem_cons, List.not_mem_nil, or_false, or_self] at hx
    subst hx
    exact .pick 1 _ 0 _ (Nat.zero_le 1) (.ret _)
  obtain ⟨x, hx⟩ := H _ _ rfl (hr _ rfl)
  revert hx
  have : ∀ y : Except Exc (Prim.Prim Nat), y = .error .ValidationError → y = .ok x → False := by
    rintro y rfl h; cases h
  exact this _ (by rfl)

/-- An array without items cannot be rendered: `AttributeError`. -/
theorem C57_items_false :
    ¬ ∀ o : Render.Node, o.type = some c!"array" →
      ¬ Run (generate (only fun _ => o) {} 1 2 0) (.raises .AttributeError) := by
  intro H
  exact H { type := some c!"array", maxItems := some 1 } rfl
    (.pick 1 _ 1 _ (Nat.le_refl 1) (.fail _))

/-- A number schema with a negative maximum and no minimum yields positive numbers, above the
maximum. -/
theorem C57_number_false :
    ¬ ∀ (o : Render.Node) (v : Val), o.type = some c!"number" → o.maximum ≠ some 0 → o.minimum ≠ some 0 →
      Run (generate (only fun _ => o) {} 1 1 0) (.value v) →
      ∃ x, convert (fac fun _ => o) 1 0 v true = .ok x := by
  intro H
  have hr := ((C57_number (only fun _ => { type := some c!"number", maximum := some (-5) }) {} 1 0 0 0
    (1 / 2 ^ 1022) (-5) ⟨rfl, rfl⟩ rfl (by decide) rfl (by decide) (.inr ⟨.inl rfl, rfl⟩)
    (.inl ⟨rfl, by decide⟩)).1 (.float (.fin (1 / 2 ^ 1022)))).2 ⟨0, by decide, by
      congr 2
      have : ((0 : Nat) : Rat) / 2 ^ 53 = 0 := by decide +kernel
      rw [this]
      grind, by intro h; cases h⟩
  obtain ⟨x, hx⟩ := H _ _ rfl (by decide) (by decide) hr
  have hv : effective (fac fun _ => ({ type := some c!"number", maximum := some (-5) } : Render.Node)) 0
    (.float (.fin (1 / 2 ^ 1022))) = .float (.fin (1 / 2 ^ 1022)) := rfl
  obtain ⟨_, hc⟩ := C33.C33_number (fac fun _ => ({ type := some c!"number", maximum := some (-5) } : Render.Node))
    0 0 0 (.float (.fin (1 / 2 ^ 1022))) true rfl ⟨by decide, by decide⟩ rfl (by simp [effective])
  have h2 := (hc (1 / 2 ^ 1022) rfl).2
  rw [h2 (by
    rintro ⟨⟨_, h⟩, _⟩
    have h := (h (-5) rfl).1
    have : ¬ ((1 : Rat) / 2 ^ 1022 ≤ -5) := by decide +kernel
    exact this h)] at hx
  cases hx

/-- The factory falls back to the type for a format it does not know; the renderer raises. -/
theorem C57_format_false :
    ¬ ∀ o : Render.Node, o.type = some c!"integer" →
      (∃ x, convert (fac fun _ => o) 1 0 (.int 3) true = .ok x) →
      ∃ v, Run (generate (only fun _ => o) {} 1 1 0) (.value v) := by
  intro H
  obtain ⟨v, hv⟩ := H { type := some c!"integer", format := some c!"int16" } rfl ⟨.int 3, by rfl⟩
  have := (C57_unknown _ {} 1 0 0 0 c!"integer" ⟨rfl, rfl⟩ (by decide) (by decide) (by
    unfold Known; decide) _).1 hv
  cases this

/-- 1/2 -/
def half : Rat := { num := 1, den := 2, den_nz := by decide, reduced := by decide }

/-- Limits of an integer schema that are not integers make the renderer raise. -/
theorem C57_fraction_false :
    ¬ ∀ o : Render.Node, o.type = some c!"integer" →
      (∃ x, convert (fac fun _ => o) 1 0 (.int 3) true = .ok x) →
      ∃ v, Run (generate (only fun _ => o) {} 1 1 0) (.value v) := by
  intro H
  obtain ⟨v, hv⟩ := H { type := some c!"integer", minimum := some half } rfl ⟨.int 3, by rfl⟩
  rcases (C57_integer _ {} 1 0 0 0 _ ⟨rfl, rfl⟩ rfl (by decide) (by decide)).1 hv with
    ⟨_, _, ⟨b, lo, hi, _, h1, _⟩, _⟩ | ⟨_, h⟩
  · rcases h1 with ⟨x, _⟩ | ⟨x | x, _⟩
    · have h := congrArg Rat.den (Option.some.inj (show some half = some (lo : Rat) from x))
      rw [Rat.den_intCast] at h
      revert h
      decide +kernel
    · cases x
    · revert x; decide +kernel
  · cases h

end Props.C57
