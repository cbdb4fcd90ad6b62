import Verif.Proofs.Prim
import Verif.Spec.Range
/-!
# C33: numbers outside the declared range are never accepted

Numbers are rationals (Python `int`, and `float` idealised: finite without rounding, infinities,
NaN).
-/

namespace Props.C33
open Py Prim Spec

variable {ω : Type}

theorem minMax_fin (o : Node) (q : Rat) :
    (minMax o (.fin q) = .ok () ↔ InRange o q) ∧
    (minMax o (.fin q) = .error .ValidationError ↔ ¬ InRange o q) := by
  have key : (minMax o (.fin q) = .ok () ∧ InRange o q) ∨
      (minMax o (.fin q) = .error .ValidationError ∧ ¬ InRange o q) := by
    unfold minMax InRange AboveMin BelowMax PyFloat.le PyFloat.lt PyFloat.ge PyFloat.gt
    cases hmin : o.minimum with
    | none =>
      cases hmax : o.maximum with
      | none => simp
      | some b =>
        cases hx : o.exclusiveMaximum <;> simp <;> grind
    | some a =>
      cases hmax : o.maximum with
      | none => cases hx : o.exclusiveMinimum <;> simp <;> grind
      | some b =>
        cases hx : o.exclusiveMinimum <;> cases hy : o.exclusiveMaximum <;> simp <;> grind
  rcases key with ⟨h1, h2⟩ | ⟨h1, h2⟩ <;> simp [h1, h2]

theorem notMultiple_iff (q m : Rat) (hm : m ≠ 0) :
    (PyFloat.fin q).notMultiple m = true ↔ ¬ MultipleOf m q := by
  unfold PyFloat.notMultiple MultipleOf
  simp only [ne_eq, decide_eq_true_eq]
  apply not_congr
  constructor
  · intro h
    exact ⟨(q / m).floor, by grind⟩
  · rintro ⟨k, rfl⟩
    have : m * (k : Rat) / m = (k : Rat) := by grind
    rw [this, Rat.floor_intCast]
    grind

/-- **C33** (integers). An integer schema (any schema read by the integer handler, without allOf):
a value is accepted iff Python's `int` converts it to a number within the limits, and the result
is that number; a number outside raises `ValidationError`; failures of `int` pass through. -/
theorem C33_integer (env : Env ω) (n id i : Nat) (v : Val) (read : Bool)
    (hd : env.deref id = .ok i) (ht : Typed env i .int) (ha : (env.node i).allOf = [])
    (hv : effective env id v ≠ .none) :
    (∀ e, env.toInt (effective env id v) = .error e → convert env (n + 1) id v read = .error e) ∧
    (∀ k : Int, env.toInt (effective env id v) = .ok k →
      (InRange (env.node i) k → convert env (n + 1) id v read = .ok (.int k)) ∧
      (¬ InRange (env.node i) k → convert env (n + 1) id v read = .error .ValidationError)) := by
  rw [convert_step env n id i v read hd hv, first_typed env _ i _ _ ht.1 ht.2]
  constructor
  · intro e he
    simp only [create, he]
  · intro k hk
    constructor
    · intro hr
      have := (minMax_fin (env.node i) k).1.2 hr
      simp only [create, hk, validateInt, this, isFinalAtom, applyAllOf_nil env _ i _ ha, finish,
        Bool.false_eq_true, if_false]
    · intro hr
      have := (minMax_fin (env.node i) k).2.2 hr
      simp only [create, hk, validateInt, this]

/-- **C33** (numbers). A number schema without allOf: a finite value is accepted iff it lies within
the limits and is a multiple of `multipleOf` (if that is not 0), unchanged; otherwise
`ValidationError`. -/
theorem C33_number (env : Env ω) (n id i : Nat) (v : Val) (read : Bool)
    (hd : env.deref id = .ok i) (ht : Typed env i .float) (ha : (env.node i).allOf = [])
    (hv : effective env id v ≠ .none) :
    (∀ e, env.toFloat (effective env id v) = .error e → convert env (n + 1) id v read = .error e) ∧
    (∀ q : Rat, env.toFloat (effective env id v) = .ok (.fin q) →
      (InRange (env.node i) q ∧ ((env.node i).multipleOf ≠ 0 → MultipleOf (env.node i).multipleOf q) →
        convert env (n + 1) id v read = .ok (.float (.fin q))) ∧
      (¬ (InRange (env.node i) q ∧ ((env.node i).multipleOf ≠ 0 → MultipleOf (env.node i).multipleOf q)) →
        convert env (n + 1) id v read = .error .ValidationError)) := by
  rw [convert_step env n id i v read hd hv, first_typed env _ i _ _ ht.1 ht.2]
  constructor
  · intro e he
    simp only [create, he]
  · intro q hq
    constructor
    · rintro ⟨hr, hm⟩
      have h1 := (minMax_fin (env.node i) q).1.2 hr
      have h2 : ¬ ((env.node i).multipleOf ≠ 0 ∧ (PyFloat.fin q).notMultiple (env.node i).multipleOf = true) := by
        rintro ⟨ha, hb⟩
        exact (notMultiple_iff q _ ha).1 hb (hm ha)
      simp only [create, hq, validateFloat, h1, if_neg h2, isFinalAtom, applyAllOf_nil env _ i _ ha,
        finish, Bool.false_eq_true, if_false]
    · intro hr
      by_cases h : InRange (env.node i) q
      · have h1 := (minMax_fin (env.node i) q).1.2 h
        have h2 : (env.node i).multipleOf ≠ 0 ∧ (PyFloat.fin q).notMultiple (env.node i).multipleOf = true := by
          by_cases hz : (env.node i).multipleOf = 0
          · exact absurd ⟨h, fun hc => absurd hz hc⟩ hr
          · refine ⟨hz, (notMultiple_iff q _ hz).2 ?_⟩
            intro hm
            exact hr ⟨h, fun _ => hm⟩
        simp only [create, hq, validateFloat, h1, if_pos h2]
      · have h1 := (minMax_fin (env.node i) q).2.2 h
        simp only [create, hq, validateFloat, h1]

/-- **C33** (allOf, integers). A non-zero integer is accepted by an integer schema iff it lies
within the limits of the schema and of every part of its allOf; the result is that integer. -/
theorem C33_allOf (env : Env ω) (n id i : Nat) (v : Val) (read : Bool)
    (hd : env.deref id = .ok i) (ht : Typed env i .int) (hv : effective env id v ≠ .none)
    (k : Int) (hk : env.toInt (effective env id v) = .ok k) (h0 : k ≠ 0) :
    ((InRange (env.node i) k ∧
        ∀ a ∈ (env.node i).allOf, ∃ a', env.deref a = .ok a' ∧ InRange (env.node a') k) →
      convert env (n + 1) id v read = .ok (.int k)) ∧
    (¬ (InRange (env.node i) k ∧
        ∀ a ∈ (env.node i).allOf, ∃ a', env.deref a = .ok a' ∧ InRange (env.node a') k) →
      ∃ e, convert env (n + 1) id v read = .error e) := by
  have htr : truthy (Prim.int k : Prim ω) = true := by simp [truthy, h0]
  have hsp : ∀ a, secondPass env .int a (.int k : Prim ω) = .ok () ↔ InRange (env.node a) k :=
    fun a => (minMax_fin (env.node a) k).1
  by_cases hin : InRange (env.node i) k
  · have hm := (minMax_fin (env.node i) k).1.2 hin
    have hf : first env (produce env n) i (effective env id v) (topCtx env i read) =
        .ok (.int k, effective env id v, { topCtx env i read with second := some .int }) := by
      rw [first_typed env _ i _ _ ht.1 ht.2]
      simp only [create, hk, validateInt, hm]
    obtain ⟨c1, c2⟩ := convert_scalar env n id i v read hd hv hf rfl htr
    simp only [hsp] at c1 c2
    exact ⟨fun h => c1 h.2, fun h => (c2 fun hall => h ⟨hin, hall⟩).imp fun e he => he.1⟩
  · refine ⟨fun h => absurd h.1 hin, fun _ => ⟨.ValidationError, ?_⟩⟩
    rw [convert_step env n id i v read hd hv, first_typed env _ i _ _ ht.1 ht.2]
    simp only [create, hk, validateInt, (minMax_fin (env.node i) k).2.2 hin]

theorem validateFloat_fin (o : Node) (q : Rat) :
    validateFloat o (.fin q) = .ok () ↔ InRange o q ∧ (o.multipleOf ≠ 0 → MultipleOf o.multipleOf q) := by
  unfold validateFloat
  by_cases hr : InRange o q
  · simp only [(minMax_fin o q).1.2 hr, hr, true_and]
    by_cases hm : o.multipleOf ≠ 0 ∧ (PyFloat.fin q).notMultiple o.multipleOf = true
    · rw [if_pos hm]
      have := (notMultiple_iff q _ hm.1).1 hm.2
      simp [hm.1, this]
    · rw [if_neg hm]
      simp only [true_iff]
      intro hz
      exact Classical.byContradiction fun hn => hm ⟨hz, (notMultiple_iff q _ hz).2 hn⟩
  · simp [(minMax_fin o q).2.2 hr, hr]

/-- **C33** (allOf, numbers). A finite non-zero number is accepted by a number schema iff it lies
within the limits, and is a multiple, of the schema and of every part of its allOf. -/
theorem C33_allOf_number (env : Env ω) (n id i : Nat) (v : Val) (read : Bool)
    (hd : env.deref id = .ok i) (ht : Typed env i .float) (hv : effective env id v ≠ .none)
    (q : Rat) (hq : env.toFloat (effective env id v) = .ok (.fin q)) (h0 : q ≠ 0) :
    let good := fun j => InRange (env.node j) q ∧
      ((env.node j).multipleOf ≠ 0 → MultipleOf (env.node j).multipleOf q)
    ((good i ∧ ∀ a ∈ (env.node i).allOf, ∃ a', env.deref a = .ok a' ∧ good a') →
      convert env (n + 1) id v read = .ok (.float (.fin q))) ∧
    (¬ (good i ∧ ∀ a ∈ (env.node i).allOf, ∃ a', env.deref a = .ok a' ∧ good a') →
      ∃ e, convert env (n + 1) id v read = .error e) := by
  intro good
  have htr : truthy (Prim.float (.fin q) : Prim ω) = true := by simp [truthy, h0]
  have hsp : ∀ a, secondPass env .float a (.float (.fin q) : Prim ω) = .ok () ↔ good a :=
    fun a => validateFloat_fin (env.node a) q
  by_cases hin : good i
  · have hm := (validateFloat_fin (env.node i) q).2 hin
    have hf : first env (produce env n) i (effective env id v) (topCtx env i read) =
        .ok (.float (.fin q), effective env id v, { topCtx env i read with second := some .float }) := by
      rw [first_typed env _ i _ _ ht.1 ht.2]
      simp only [create, hq, hm]
    obtain ⟨c1, c2⟩ := convert_scalar env n id i v read hd hv hf rfl htr
    simp only [hsp] at c1 c2
    exact ⟨fun h => c1 h.2, fun h => (c2 fun hall => h ⟨hin, hall⟩).imp fun e he => he.1⟩
  · refine ⟨fun h => absurd h.1 hin, fun _ => ?_⟩
    rw [convert_step env n id i v read hd hv, first_typed env _ i _ _ ht.1 ht.2]
    simp only [create, hq]
    cases hm : validateFloat (env.node i) (.fin q) with
    | ok u => exact absurd ((validateFloat_fin (env.node i) q).1 hm) hin
    | error e => exact ⟨e, rfl⟩

/-! ## examples and refutations -/

/-- a world of one or two objects with the built-in handlers -/
def world (node : Nat → Node) : Env Nat where
  node := node
  deref := .ok
  reg := builtins
  toInt := fun v => match v with | .int n => .ok n | _ => .error .ValueError
  toFloat := fun v => match v with
    | .int n => .ok (.fin n)
    | .float x => .ok x
    | .str ['n', 'a', 'n'] => .ok .nan
    | _ => .error .ValueError
  toStr := fun v => match v with | .int n => (toString n).toList | _ => []
  toBool := fun v => v ≠ .bool false
  validEmail := fun s => '@' ∈ s
  eq := fun a b => a = b
  atom := fun _ _ v => match v with | .str s => .ok s.length | _ => .error .ValueError
  mismatch := fun _ _ _ => .error .TypeError
  order := id

def limited : Node := { type := some c!"integer", minimum := some 0, maximum := some 10, exclusiveMaximum := true }

example : Typed (world fun _ => limited) 0 .int ∧ (∀ k : Int, InRange limited k ↔ 0 ≤ k ∧ k < 10) := by
  refine ⟨⟨by decide, by decide⟩, ?_⟩
  intro k
  simp only [InRange, AboveMin, BelowMax, limited, Option.some.injEq, Bool.false_eq_true,
    false_implies, and_true, forall_eq']
  constructor
  · rintro ⟨h1, h2, h3⟩
    have h1 : (0 : Rat) ≤ (k : Rat) := h1
    have h4 : (k : Rat) < ((10 : Int) : Rat) := by
      have := h3 trivial
      have e : ((10 : Int) : Rat) = 10 := rfl
      rw [e]; grind
    exact ⟨Rat.intCast_nonneg.1 h1, Rat.intCast_lt_intCast.1 h4⟩
  · rintro ⟨h1, h2⟩
    have h4 : (k : Rat) < ((10 : Int) : Rat) := Rat.intCast_lt_intCast.2 h2
    have e : ((10 : Int) : Rat) = 10 := rfl
    rw [e] at h4
    exact ⟨Rat.intCast_nonneg.2 h1, by grind, by grind⟩

/-- `multipleOf` is not checked for integers. -/
theorem C33_integer_multiple_false :
    ¬ ∀ (o : Node) (k : Int), o.type = some c!"integer" →
      (∃ r, convert (world fun _ => o) 1 0 (.int k) true = .ok r) → o.multipleOf ≠ 0 →
      MultipleOf o.multipleOf k := by
  intro H
  obtain ⟨j, hj⟩ := H { type := some c!"integer", multipleOf := 2 } 3 rfl
    ⟨.int 3, by rfl⟩ (by decide)
  have e : ((3 : Int) : Rat) = ((2 * j : Int) : Rat) := by
    rw [hj, Rat.intCast_mul]; rfl
  have := Rat.intCast_inj.1 e
  omega

/-- NaN passes every limit: it is accepted for a number schema with a minimum. -/
theorem C33_nan_false :
    ¬ ∀ (o : Node) (v : Val) (x : PyFloat) (m : Rat), o.type = some c!"number" → o.minimum = some m →
      convert (world fun _ => o) 1 0 v true = .ok (.float x) → x.ge m = true := by
  intro H
  have := H { type := some c!"number", minimum := some 0 } (.str c!"nan") .nan 0 rfl rfl (by rfl)
  revert this; decide

/-- Zero is not accepted by an integer schema with an allOf part that only states limits, although
it conforms: the part is then taken for the schema of an object. -/
theorem C33_allOf_zero_false :
    ¬ ∀ (node : Nat → Node) (k : Int), (node 0).type = some c!"integer" → InRange (node 0) k →
      (∀ a ∈ (node 0).allOf, InRange (node a) k) →
      ∃ r, convert (world node) 5 0 (.int k) true = .ok r := by
  intro H
  obtain ⟨r, hr⟩ := H (fun i => if i = 0 then { type := some c!"integer", allOf := [1] }
    else { minimum := some (-5) }) 0 rfl ⟨by simp [AboveMin], by simp [BelowMax]⟩ (by
      intro a ha
      simp at ha
      subst ha
      refine ⟨?_, by simp [BelowMax]⟩
      intro m hm
      simp at hm
      subst hm
      exact ⟨by decide, by simp⟩)
  have e : convert (world (fun i => if i = 0 then { type := some c!"integer", allOf := [1] }
    else { minimum := some (-5) })) 5 0 (.int 0) true = .error .AttributeError := by rfl
  rw [e] at hr
  cases hr

end Props.C33
