import Verif.Model.Prim
/-! A deeper stack does not change the result of a conversion. -/

namespace Prim
open Py Utils

variable {ω : Type}

/-- the second result agrees with the first unless the first ran out of stack -/
def Agree {α : Type} (x y : Except Exc α) : Prop := x = .error .RecursionError ∨ y = x

theorem Agree.rfl {α : Type} {x : Except Exc α} : Agree x x := .inr (by simp)

/-- recursive calls that agree -/
def RecAgree (rec rec' : Rec ω) : Prop := ∀ id v ctx, Agree (rec id v ctx) (rec' id v ctx)

variable {rec rec' : Rec ω}

theorem nested_agree (h : RecAgree rec rec') (id : Nat) (v : Val) :
    Agree (nested rec id v) (nested rec' id v) := by
  unfold nested
  rcases h id v {} with h1 | h1
  · left; rw [h1]
  · right; rw [h1]

theorem produceAll_agree (h : RecAgree rec rec') (id : Nat) :
    ∀ l, Agree (produceAll rec id l) (produceAll rec' id l)
  | [] => .rfl
  | v :: l => by
    unfold produceAll
    rcases nested_agree h id v with h1 | h1
    · left; rw [h1]
    · rw [h1]
      rcases produceAll_agree h id l with h2 | h2
      · cases nested rec id v with
        | error e => exact .rfl
        | ok x => left; rw [h2]
      · rw [h2]; exact .rfl

theorem extend_agree (h : RecAgree rec rec') (o : Node) (l : List (Prim ω)) (v : Val) :
    Agree (extend rec o l v) (extend rec' o l v) := by
  unfold extend
  cases o.items with
  | none => exact .rfl
  | some it =>
    cases elems v with
    | none => exact .rfl
    | some es =>
      cases es with
      | nil => exact .rfl
      | cons e es =>
        rcases produceAll_agree h it (e :: es) with h2 | h2
        · left; simp only [h2]
        · simp only [h2]; exact .rfl

theorem bind_agree {α β : Type} {x y : Except Exc α} {f g : α → Except Exc β} (h : Agree x y)
    (hf : ∀ a, x = .ok a → Agree (f a) (g a)) : Agree (x >>= f) (y >>= g) := by
  rcases h with h | h
  · left; rw [h]; rfl
  · subst h
    cases y with
    | error e => exact .rfl
    | ok a => exact hf a rfl

theorem arrayApply_agree (env : Env ω) (h : RecAgree rec rec') (id : Nat) (l : List (Prim ω)) (v : Val) :
    Agree (arrayApply env rec id l v) (arrayApply env rec' id l v) := by
  unfold arrayApply
  refine bind_agree .rfl fun _ _ => bind_agree .rfl fun _ _ => bind_agree (extend_agree h _ _ _) fun _ _ => .rfl

theorem supply_agree (env : Env ω) (h : RecAgree rec rec') (id : Nat) (self : Dict Str (Prim ω))
    (ctx : Ctx) (k : Str) (v : Val) :
    Agree (supply env rec id self ctx k v) (supply env rec' id self ctx k v) := by
  unfold supply
  simp only
  cases Dict.get? (env.node id).properties k with
  | none => exact .rfl
  | some p =>
    simp only
    split
    · exact .rfl
    · rcases nested_agree h p v with h1 | h1
      · left; rw [h1]
      · rw [h1]; exact .rfl

theorem supplyAll_agree (env : Env ω) (h : RecAgree rec rec') (id : Nat) :
    ∀ (l : List (Str × Val)) (self : Dict Str (Prim ω)) (ctx : Ctx),
      Agree (supplyAll env rec id self ctx l) (supplyAll env rec' id self ctx l)
  | [], _, _ => .rfl
  | (k, v) :: l, self, ctx => by
    unfold supplyAll
    rcases supply_agree env h id self ctx k v with h1 | h1
    · left; rw [h1]
    · rw [h1]
      cases supply env rec id self ctx k v with
      | error e => exact .rfl
      | ok r => exact supplyAll_agree env h id l _ _

theorem fillDefaults_agree (env : Env ω) (h : RecAgree rec rec') (o : Node) :
    ∀ (l : List Str) (self : Dict Str (Prim ω)),
      Agree (fillDefaults env rec o self l) (fillDefaults env rec' o self l)
  | [], _ => .rfl
  | k :: l, self => by
    unfold fillDefaults
    cases Dict.get? o.properties k with
    | none => exact fillDefaults_agree env h o l self
    | some p =>
      simp only
      split
      · rcases nested_agree h p (env.node p).default with h1 | h1
        · left; rw [h1]
        · rw [h1]
          cases nested rec p (env.node p).default with
          | error e => exact .rfl
          | ok x => exact fillDefaults_agree env h o l _
      · exact fillDefaults_agree env h o l self

theorem modelApply_agree (env : Env ω) (h : RecAgree rec rec') (id : Nat) (self : Dict Str (Prim ω))
    (v : Val) (ctx : Ctx) :
    Agree (modelApply env rec id self v ctx) (modelApply env rec' id self v ctx) := by
  unfold modelApply
  split
  · simp only
    split
    · exact .rfl
    · exact bind_agree (supplyAll_agree env h id _ _ _) fun _ _ =>
        bind_agree (fillDefaults_agree env h _ _ _) fun _ _ => .rfl
  · exact .rfl

theorem addConverted_agree (h : RecAgree rec rec') (p : Nat) :
    ∀ (l : List (Str × Val)) (self : Dict Str (Prim ω)),
      Agree (addConverted rec p self l) (addConverted rec' p self l)
  | [], _ => .rfl
  | (k, v) :: l, self => by
    unfold addConverted
    rcases nested_agree h p v with h1 | h1
    · left; rw [h1]
    · rw [h1]
      cases nested rec p v with
      | error e => exact .rfl
      | ok x => exact addConverted_agree h p l _

theorem cleanup_agree (env : Env ω) (h : RecAgree rec rec') (self : Dict Str (Prim ω)) (v : Val) (ctx : Ctx) :
    Agree (cleanup env rec self v ctx) (cleanup env rec' self v ctx) := by
  unfold cleanup
  split
  · exact .rfl
  · cases ctx.addpSchema with
    | none => exact .rfl
    | some id =>
      simp only
      split
      · rename_i d p _
        rcases addConverted_agree h p d self with h1 | h1
        · left; rw [h1]
        · rw [h1]; exact .rfl
      · exact .rfl

theorem create_agree (env : Env ω) (h : RecAgree rec rec') (hd : Handler) (id : Nat) (v : Val) (ctx : Ctx) :
    Agree (create env rec hd id v ctx) (create env rec' hd id v ctx) := by
  cases hd with
  | array =>
    simp only [create]
    rcases arrayApply_agree env h id [] v with h1 | h1
    · left; rw [h1]
    · rw [h1]; exact .rfl
  | model =>
    simp only [create]
    rcases modelApply_agree env h id [] v ctx with h1 | h1
    · left; rw [h1]
    · rw [h1]; exact .rfl
  | _ => exact .rfl

theorem first_agree (env : Env ω) (h : RecAgree rec rec') (id : Nat) (v : Val) (ctx : Ctx) :
    Agree (first env rec id v ctx) (first env rec' id v ctx) := by
  unfold first
  simp only
  split
  · split
    · exact .rfl
    · exact .rfl
    · exact create_agree env h _ _ _ _
  · split
    · exact .rfl
    · split
      · rcases modelApply_agree env h id [] v ctx with h1 | h1
        · left; rw [h1]
        · rw [h1]; exact .rfl
      · exact .rfl

theorem applyTo_agree (env : Env ω) (h : RecAgree rec rec') (a : Nat) (p : Pass ω) :
    Agree (applyTo env rec a p) (applyTo env rec' a p) := by
  obtain ⟨r, v, ctx⟩ := p
  cases r with
  | array f l =>
    simp only [applyTo]
    rcases arrayApply_agree env h a l v with h1 | h1
    · left; rw [h1]
    · rw [h1]; exact .rfl
  | model d =>
    simp only [applyTo]
    rcases modelApply_agree env h a d v ctx with h1 | h1
    · left; rw [h1]
    · rw [h1]; exact .rfl
  | _ => exact .rfl

theorem allOfLoop_agree (env : Env ω) (h : RecAgree rec rec') :
    ∀ (l : List Nat) (p : Pass ω) (sk : List Nat),
      Agree (allOfLoop env rec p sk l) (allOfLoop env rec' p sk l)
  | [], _, _ => .rfl
  | a :: l, (r, v, ctx), sk => by
    unfold allOfLoop
    cases env.deref a with
    | error e => exact .rfl
    | ok a =>
      simp only
      split
      · rcases applyTo_agree env h a (r, v, ctx) with h1 | h1
        · left; rw [h1]
        · rw [h1]
          cases applyTo env rec a (r, v, ctx) with
          | error e => exact .rfl
          | ok p => exact allOfLoop_agree env h l _ _
      · rcases h a v ctx with h1 | h1
        · left; rw [h1]
        · rw [h1]
          cases rec a v ctx with
          | error e => exact .rfl
          | ok p => exact allOfLoop_agree env h l _ _

theorem applyLeft_agree (env : Env ω) (h : RecAgree rec rec') :
    ∀ (l : List Nat) (p : Pass ω), Agree (applyLeft env rec p l) (applyLeft env rec' p l)
  | [], _ => .rfl
  | a :: l, p => by
    unfold applyLeft
    rcases applyTo_agree env h a p with h1 | h1
    · left; rw [h1]
    · rw [h1]
      cases applyTo env rec a p with
      | error e => exact .rfl
      | ok p => exact applyLeft_agree env h l _

theorem applyAllOf_agree (env : Env ω) (h : RecAgree rec rec') (id : Nat) (p : Pass ω) :
    Agree (applyAllOf env rec id p) (applyAllOf env rec' id p) := by
  unfold applyAllOf
  rcases allOfLoop_agree env h (env.node id).allOf p [] with h1 | h1
  · left; rw [h1]
  · rw [h1]
    cases allOfLoop env rec p [] (env.node id).allOf with
    | error e => exact .rfl
    | ok q =>
      simp only
      split
      · exact applyLeft_agree env h _ _
      · exact .rfl

theorem finish_agree (env : Env ω) (h : RecAgree rec rec') (p : Pass ω) :
    Agree (finish env rec p) (finish env rec' p) := by
  obtain ⟨r, v, ctx⟩ := p
  cases r with
  | model d =>
    simp only [finish]
    rcases cleanup_agree env h d v ctx with h1 | h1
    · left; rw [h1]
    · rw [h1]; exact .rfl
  | _ => exact .rfl

theorem produceBody_agree (env : Env ω) (h : RecAgree rec rec') (id : Nat) (v : Val) (ctx : Ctx) :
    Agree (produceBody env rec id v ctx) (produceBody env rec' id v ctx) := by
  unfold produceBody
  simp only
  generalize (if v = .none then (env.node id).default else v) = w
  split
  · exact .rfl
  · cases env.deref id with
    | error e => exact .rfl
    | ok t =>
      simp only
      split
      · exact .rfl
      · rename_i g _
        rcases first_agree env h t w { ctx with name := ctx.name.or (env.node t).name, guard := g } with h1 | h1
        · left; rw [h1]
        · rw [h1]
          cases first env rec t w { ctx with name := ctx.name.or (env.node t).name, guard := g } with
          | error e => exact .rfl
          | ok p =>
            simp only
            split
            · exact .rfl
            · rcases applyAllOf_agree env h t p with h2 | h2
              · left; rw [h2]
              · rw [h2]
                cases applyAllOf env rec t p with
                | error e => exact .rfl
                | ok q => exact finish_agree env h q

theorem produce_agree_succ (env : Env ω) : ∀ fuel, RecAgree (produce env fuel) (produce env (fuel + 1))
  | 0 => fun _ _ _ => .inl rfl
  | fuel + 1 => fun id v ctx => produceBody_agree env (produce_agree_succ env fuel) id v ctx

/-- a deeper stack gives the same result -/
theorem produce_deeper (env : Env ω) {fuel fuel' : Nat} (h : fuel ≤ fuel') (id : Nat) (v : Val) (ctx : Ctx) :
    Agree (produce env fuel id v ctx) (produce env fuel' id v ctx) := by
  induction h with
  | refl => exact .rfl
  | step _ ih =>
    rcases ih with h1 | h1
    · exact .inl h1
    · rcases produce_agree_succ env _ id v ctx with h2 | h2
      · left; rw [← h1, h2]
      · right; rw [h2, h1]

theorem convert_deeper (env : Env ω) {fuel fuel' : Nat} (h : fuel ≤ fuel') (id : Nat) (v : Val) (read : Bool)
    {r : Except Exc (Prim ω)} (h1 : convert env fuel id v read = r) (h2 : r ≠ .error .RecursionError) :
    convert env fuel' id v read = r := by
  unfold convert at *
  rcases produce_deeper env h id v { read := read } with h3 | h3
  · rw [h3] at h1; exact absurd h1.symm h2
  · rw [h3]; exact h1

end Prim
