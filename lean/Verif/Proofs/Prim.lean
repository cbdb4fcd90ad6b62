import Verif.Model.Prim
/-! Basic lemmas about `produce`. -/

namespace Prim
open Py Utils

variable {ω : Type}

/-- the value converted: the object's default stands for `None` -/
def effective (env : Env ω) (id : Nat) (v : Val) : Val :=
  if v = .none then (env.node id).default else v

/-- the context of a top-level conversion when the first pass starts -/
def topCtx (env : Env ω) (i : Nat) (read : Bool) : Ctx :=
  { name := (env.node i).name, guard := [i], read := read }

theorem convert_none (env : Env ω) (n id : Nat) (v : Val) (read : Bool)
    (h : effective env id v = .none) : convert env (n + 1) id v read = .ok .none := by
  unfold effective at h
  unfold convert produce produceBody
  simp only [h, if_true]

theorem convert_step (env : Env ω) (n id i : Nat) (v : Val) (read : Bool)
    (hd : env.deref id = .ok i) (hv : effective env id v ≠ .none) :
    convert env (n + 1) id v read =
      match first env (produce env n) i (effective env id v) (topCtx env i read) with
      | .error e => .error e
      | .ok p =>
        if isFinalAtom p.1 then .ok p.1
        else
          match applyAllOf env (produce env n) i p with
          | .error e => .error e
          | .ok p =>
            match finish env (produce env n) p with
            | .error e => .error e
            | .ok r => .ok r.1 := by
  have hv' : (if v = .none then (env.node id).default else v) = effective env id v := rfl
  have hp : produce env (n + 1) = produceBody env (produce env n) := rfl
  unfold convert
  rw [hp]
  generalize produce env n = rec
  unfold produceBody topCtx
  simp only [hv', hv, if_false, hd, CycleGuard.update, List.not_mem_nil, List.nil_append,
    Option.none_or]
  cases first env rec i (effective env id v) { name := (env.node i).name, guard := [i], read := read } with
  | error e => rfl
  | ok p =>
    simp only
    by_cases hf : isFinalAtom p.1 = true
    · rw [if_pos hf, if_pos hf]
    · rw [if_neg hf, if_neg hf]
      cases applyAllOf env rec i p with
      | error e => rfl
      | ok p =>
        simp only
        cases finish env rec p <;> rfl

theorem applyAllOf_nil (env : Env ω) (rec : Rec ω) (i : Nat) (p : Pass ω)
    (h : (env.node i).allOf = []) : applyAllOf env rec i p = .ok p := by
  unfold applyAllOf
  rw [h]
  simp only [allOfLoop, applyLeft]
  split <;> rfl

/-- a typed object: the first pass is that of the handler registered -/
theorem first_typed (env : Env ω) (rec : Rec ω) (i : Nat) (v : Val) (ctx : Ctx) {h : Handler}
    (hh : (env.node i).type ≠ none ∧ (env.node i).type ≠ some [])
    (hr : env.reg.get (env.node i).type (env.node i).format = .handler h) :
    first env rec i v ctx = create env rec h i v ctx := by
  unfold first
  simp only
  rw [if_pos hh, hr]

/-- primitives that have no `apply_with` -/
def isScalar : Prim ω → Bool
  | .array _ _ => false
  | .model _ => false
  | .atom _ _ => false
  | _ => true

theorem applyTo_scalar (env : Env ω) (rec : Rec ω) (a : Nat) (r : Prim ω) (v : Val) (ctx : Ctx)
    (hr : isScalar r = true) {h : Handler} (hc : ctx.second = some h) :
    applyTo env rec a (r, v, ctx) =
      match secondPass env h a r with
      | .error e => .error e
      | .ok () => .ok (r, v, ctx) := by
  cases r <;> first
    | (simp [isScalar] at hr; done)
    | (simp only [applyTo, hc]
       cases secondPass env h a _ <;> rfl)

/-- every part of an allOf is checked by the second pass of the handler -/
theorem allOf_scalar (env : Env ω) (rec : Rec ω) (r : Prim ω) (hr : isScalar r = true)
    (ht : truthy r = true) (v : Val) (ctx : Ctx) {h : Handler} (hc : ctx.second = some h)
    (skipped l : List Nat) :
    ((∀ a ∈ l, ∃ a', env.deref a = .ok a' ∧ secondPass env h a' r = .ok ()) →
      allOfLoop env rec (r, v, ctx) skipped l = .ok ((r, v, ctx), skipped)) ∧
    ((¬ ∀ a ∈ l, ∃ a', env.deref a = .ok a' ∧ secondPass env h a' r = .ok ()) →
      ∃ e, allOfLoop env rec (r, v, ctx) skipped l = .error e ∧
        ∃ a ∈ l, env.deref a = .error e ∨ ∃ a', env.deref a = .ok a' ∧ secondPass env h a' r = .error e) := by
  induction l with
  | nil => exact ⟨fun _ => rfl, fun h => absurd (by simp) h⟩
  | cons a l ih =>
    rw [allOfLoop]
    cases hda : env.deref a with
    | error e =>
      refine ⟨fun h => ?_, fun _ => ⟨e, rfl, a, List.mem_cons_self .., Or.inl hda⟩⟩
      obtain ⟨a', ha, _⟩ := h a (List.mem_cons_self ..)
      rw [hda] at ha; cases ha
    | ok a' =>
      simp only [ht, if_true, applyTo_scalar env rec a' r v ctx hr hc]
      cases hs : secondPass env h a' r with
      | error e =>
        refine ⟨fun h => ?_, fun _ => ⟨e, rfl, a, List.mem_cons_self .., Or.inr ⟨a', hda, hs⟩⟩⟩
        obtain ⟨b, hb, hb'⟩ := h a (List.mem_cons_self ..)
        rw [hda] at hb; cases hb
        rw [hs] at hb'; cases hb'
      | ok u =>
        simp only [ht, if_true]
        constructor
        · intro h
          exact ih.1 fun b hb => h b (List.mem_cons_of_mem _ hb)
        · intro h
          obtain ⟨e, h1, b, hb, h2⟩ := ih.2 (fun hall => h (by
            intro b hb
            rcases List.mem_cons.1 hb with rfl | hb
            · exact ⟨a', hda, hs⟩
            · exact hall b hb))
          exact ⟨e, h1, b, List.mem_cons_of_mem _ hb, h2⟩

/-- a scalar result with allOf: the parts are checked by the second pass of the handler -/
theorem convert_scalar (env : Env ω) (n id i : Nat) (v : Val) (read : Bool) {h : Handler} {r : Prim ω}
    (hd : env.deref id = .ok i) (hv : effective env id v ≠ .none)
    (hf : first env (produce env n) i (effective env id v) (topCtx env i read) =
      .ok (r, effective env id v, { topCtx env i read with second := some h }))
    (hr : isScalar r = true) (ht : truthy r = true) :
    ((∀ a ∈ (env.node i).allOf, ∃ a', env.deref a = .ok a' ∧ secondPass env h a' r = .ok ()) →
      convert env (n + 1) id v read = .ok r) ∧
    ((¬ ∀ a ∈ (env.node i).allOf, ∃ a', env.deref a = .ok a' ∧ secondPass env h a' r = .ok ()) →
      ∃ e, convert env (n + 1) id v read = .error e ∧ ∃ a ∈ (env.node i).allOf,
        env.deref a = .error e ∨ ∃ a', env.deref a = .ok a' ∧ secondPass env h a' r = .error e) := by
  rw [convert_step env n id i v read hd hv, hf]
  have hfin : isFinalAtom r = false := by cases r <;> first | rfl | (simp [isScalar] at hr; done)
  obtain ⟨a1, a2⟩ := allOf_scalar env (produce env n) r hr ht (effective env id v)
    { topCtx env i read with second := some h } rfl [] (env.node i).allOf
  constructor
  · intro hall
    simp only [hfin, Bool.false_eq_true, if_false, applyAllOf, a1 hall, ht, if_true, applyLeft]
    cases r <;> first | rfl | (simp [isScalar] at hr; done)
  · intro hall
    obtain ⟨e, e1, e2⟩ := a2 hall
    refine ⟨e, ?_, e2⟩
    simp only [hfin, Bool.false_eq_true, if_false, applyAllOf, e1]

/-- the object `i` is read by handler `h` -/
structure Typed (env : Env ω) (i : Nat) (h : Handler) : Prop where
  named : (env.node i).type ≠ none ∧ (env.node i).type ≠ some []
  handled : env.reg.get (env.node i).type (env.node i).format = .handler h

end Prim
