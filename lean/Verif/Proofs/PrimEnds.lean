import Verif.Proofs.PrimStack
import Verif.Proofs.Dict
import Verif.Spec.Needs
/-! Conversions that end. -/

namespace Prim
open Py Utils Needs

variable {ω : Type}

/-- the computation does not run out of stack, and a result has the property `Q` -/
def Out {α : Type} (x : Except Exc α) (Q : α → Prop) : Prop :=
  match x with
  | .ok a => Q a
  | .error e => e ≠ .RecursionError

theorem Out.ne {α : Type} {x : Except Exc α} {Q : α → Prop} (h : Out x Q) :
    x ≠ .error .RecursionError := by
  intro he; rw [he] at h; exact h rfl

theorem Out.of_ne {α : Type} {x : Except Exc α} (h : x ≠ .error .RecursionError) : Out x fun _ => True := by
  cases x with
  | ok _ => trivial
  | error e => exact fun he => h (by rw [he])

theorem Out.mono {α : Type} {x : Except Exc α} {Q R : α → Prop} (h : Out x Q) (hr : ∀ a, Q a → R a) :
    Out x R := by
  cases x with
  | ok a => exact hr a h
  | error e => exact h

theorem Out.bind {α β : Type} {x : Except Exc α} {f : α → Except Exc β} {Q : α → Prop} {R : β → Prop}
    (h : Out x Q) (hf : ∀ a, Q a → Out (f a) R) : Out (x >>= f) R := by
  cases x with
  | ok a => exact hf a h
  | error e => exact h

/-- what is left of a value while it is converted -/
structure Below (u w : Val) : Prop where
  pieces : ∀ e ∈ pieces u, e ∈ pieces w
  dict : ∀ d, u = .dict d → ∃ d', w = .dict d' ∧ ∀ e ∈ d, e ∈ d'

theorem Below.refl (w : Val) : Below w w := ⟨fun _ h => h, fun d h => ⟨d, h, fun _ h => h⟩⟩

theorem Below.none (w : Val) : Below .none w := ⟨fun _ h => by simp [Needs.pieces] at h, fun d h => by cases h⟩

theorem Below.list {l : List Val} {w : Val} (h : ∀ e ∈ l, e ∈ Needs.pieces w) : Below (.list l) w :=
  ⟨h, fun d h => by cases h⟩

/-- the calls made for the parts of the value `w` do not run out of stack -/
structure Calls (env : Env ω) (C : Nat → Prop) (w : Val) (rec : Rec ω) : Prop where
  item : ∀ t it e, C t → (env.node t).items = some it → e ∈ pieces w →
    nested rec it e ≠ .error .RecursionError
  property : ∀ t k p d x, C t → (k, p) ∈ (env.node t).properties → w = .dict d → (k, x) ∈ d →
    nested rec p x ≠ .error .RecursionError
  default : ∀ t k p d, C t → (k, p) ∈ (env.node t).properties → w = .dict d →
    (env.node p).defaultSet = true → nested rec p (env.node p).default ≠ .error .RecursionError
  additional : ∀ t k p d x, C t → (env.node t).additional = .schema p → w = .dict d → (k, x) ∈ d →
    nested rec p x ≠ .error .RecursionError

/-- the context while the objects `C` are applied -/
structure CtxInv (C : Nat → Prop) (N m : Nat) (ctx : Ctx) : Prop where
  nodup : ctx.guard.Nodup
  lt : ∀ g ∈ ctx.guard, g < N
  addp : ∀ q, ctx.addpSchema = some q → C q
  le : m ≤ ctx.guard.length

/-- the state between two applications -/
structure PassInv (C : Nat → Prop) (N m : Nat) (w : Val) (p : Pass ω) : Prop where
  below : Below p.2.1 w
  none : p.2.1 = .none → ∃ k x, p.1 = .atom k x
  ctx : CtxInv C N m p.2.2

/-- the calls made for allOf do not run out of stack -/
def RecOk (env : Env ω) (C : Nat → Prop) (N m : Nat) (w : Val) (rec : Rec ω) : Prop :=
  ∀ a u ctx, (∀ t, env.deref a = .ok t → C t) → Below u w → u ≠ .none → CtxInv C N m ctx →
    Out (rec a u ctx) fun r => CtxInv C N m r.2

variable {env : Env ω} {C : Nat → Prop} {N m : Nat} {w : Val} {rec : Rec ω}

theorem produceAll_ends (id : Nat) : ∀ l, (∀ e ∈ l, nested rec id e ≠ .error .RecursionError) →
    produceAll rec id l ≠ .error .RecursionError
  | [], _ => by simp [produceAll]
  | v :: l, h => by
    have h1 := h v (by simp)
    have h2 := produceAll_ends id l fun e he => h e (by simp [he])
    unfold produceAll
    cases hn : nested rec id v with
    | error e => simp only; intro he; cases he; exact h1 hn
    | ok x =>
      cases hp : produceAll rec id l with
      | error e => simp only; intro he; cases he; exact h2 hp
      | ok x => simp

theorem separator_mem {f : Str} {c : Char} (h : separator f = some c) : c ∈ [',', ' ', '\t', '|'] := by
  unfold separator at h
  repeat (first | split at h | (cases h; simp))
  all_goals simp_all

theorem splitText_ends {f : Str} {u : Val} (hb : Below u w) (hn : u ≠ .none) :
    Out (splitText f u) fun v => Below v w ∧ v ≠ .none := by
  unfold splitText
  split
  · rename_i s
    split
    · rename_i c hc
      refine ⟨Below.list fun e he => hb.pieces e ?_, by simp⟩
      exact List.mem_flatMap.2 ⟨c, separator_mem hc, he⟩
    · simp [Out]
  · exact ⟨hb, hn⟩

theorem elems_pieces {v : Val} {l : List Val} (h : elems v = some l) : pieces v = l := by
  cases v <;> simp_all [elems, pieces]

theorem unique_sub (eq : Val → Val → Bool) : ∀ l seen x, x ∈ unique eq seen l → x ∈ seen ∨ x ∈ l
  | [], seen, x, h => by simp only [unique] at h; exact .inl h
  | e :: l, seen, x, h => by
    simp only [unique] at h
    split at h
    · rcases unique_sub eq l _ x h with h1 | h1
      · exact .inl h1
      · exact .inr (by simp [h1])
    · rcases unique_sub eq l _ x h with h1 | h1
      · simp only [List.mem_append, List.mem_singleton] at h1
        rcases h1 with h1 | h1
        · exact .inl h1
        · exact .inr (by simp [h1])
      · exact .inr (by simp [h1])

theorem dedup_ends {o : Node} {u : Val} (hb : Below u w) (hn : u ≠ .none) :
    Out (dedup env o u) fun v => Below v w ∧ v ≠ .none := by
  unfold dedup
  split
  · cases he : elems u with
    | none => simp [Out]
    | some l =>
      refine ⟨Below.list fun e h => hb.pieces e ?_, by simp⟩
      rw [elems_pieces he]
      rcases unique_sub _ _ _ _ h with h1 | h1
      · cases h1
      · exact h1
  · exact ⟨hb, hn⟩

theorem extend_ends (hc : Calls env C w rec) {t : Nat} (ht : C t) (l : List (Prim ω)) {u : Val}
    (hb : Below u w) (hn : u ≠ .none) :
    Out (extend rec (env.node t) l u) fun r => Below r.2 w ∧ r.2 ≠ .none := by
  unfold extend
  cases hi : (env.node t).items with
  | none => exact ⟨hb, hn⟩
  | some it =>
    cases he : elems u with
    | none => simp [Out]
    | some es =>
      cases es with
      | nil => exact ⟨hb, hn⟩
      | cons e es =>
        have := produceAll_ends (rec := rec) it (e :: es) fun x hx =>
          hc.item t it x ht hi (hb.pieces x (by rw [elems_pieces he]; exact hx))
        simp only
        cases hp : produceAll rec it (e :: es) with
        | error e => simp only [Out]; intro h; subst h; exact this hp
        | ok xs => exact ⟨Below.list (by simp), by simp⟩

theorem checkItems_ends (o : Node) (l : List (Prim ω)) : Out (checkItems o l) fun _ => True := by
  unfold checkItems
  split
  · simp [Out]
  · split <;> simp [Out]

theorem arrayApply_ends (hc : Calls env C w rec) {t : Nat} (ht : C t) (l : List (Prim ω)) {u : Val}
    (hb : Below u w) (hn : u ≠ .none) :
    Out (arrayApply env rec t l u) fun r => Below r.2.2 w ∧ r.2.2 ≠ .none := by
  unfold arrayApply
  refine Out.bind (splitText_ends hb hn) fun v hv => Out.bind (dedup_ends hv.1 hv.2) fun v hv =>
    Out.bind (extend_ends hc ht l hv.1 hv.2) fun r hr => Out.bind (checkItems_ends _ _) fun _ _ => hr

theorem supply_ends (hc : Calls env C w rec) {t : Nat} (ht : C t) {d d' : List (Str × Val)}
    (hw : w = .dict d') (hd : ∀ e ∈ d, e ∈ d') (self : Dict Str (Prim ω)) {ctx : Ctx}
    (hx : CtxInv C N m ctx) {k : Str} {v : Val} (hk : (k, v) ∈ d) :
    Out (supply env rec t self ctx k v) fun r => CtxInv C N m r.2 := by
  unfold supply
  simp only
  cases hp : Dict.get? (env.node t).properties k with
  | none =>
    simp only
    cases (env.node t).additional with
    | no => exact hx
    | yes => exact ⟨hx.nodup, hx.lt, hx.addp, hx.le⟩
    | schema p => exact ⟨hx.nodup, hx.lt, fun q h => by cases h; exact ht, hx.le⟩
  | some p =>
    simp only
    split
    · simp [Out]
    · have := hc.property t k p d' v ht (Dict.mem_of_get? hp) hw (hd _ hk)
      cases hn : nested rec p v with
      | error e => simp only [Out]; intro h; subst h; exact this hn
      | ok x => exact hx

theorem supplyAll_ends (hc : Calls env C w rec) {t : Nat} (ht : C t) {d' : List (Str × Val)}
    (hw : w = .dict d') : ∀ (d : List (Str × Val)) (self : Dict Str (Prim ω)) (ctx : Ctx),
    (∀ e ∈ d, e ∈ d') → CtxInv C N m ctx →
    Out (supplyAll env rec t self ctx d) fun r => CtxInv C N m r.2
  | [], _, _, _, hx => hx
  | (k, v) :: d, self, ctx, hd, hx => by
    have h1 := supply_ends hc ht hw hd self hx (k := k) (v := v) (by simp)
    unfold supplyAll
    cases hs : supply env rec t self ctx k v with
    | error e => rw [hs] at h1; exact h1
    | ok r =>
      rw [hs] at h1
      exact supplyAll_ends hc ht hw d r.1 r.2 (fun e he => hd e (by simp [he])) h1

theorem fillDefaults_ends (hc : Calls env C w rec) {t : Nat} (ht : C t) {d' : List (Str × Val)}
    (hw : w = .dict d') : ∀ (l : List Str) (self : Dict Str (Prim ω)),
    Out (fillDefaults env rec (env.node t) self l) fun _ => True
  | [], _ => trivial
  | k :: l, self => by
    unfold fillDefaults
    cases hp : Dict.get? (env.node t).properties k with
    | none => exact fillDefaults_ends hc ht hw l self
    | some p =>
      simp only
      split
      · rename_i hs
        have := hc.default t k p d' ht (Dict.mem_of_get? hp) hw hs
        cases hn : nested rec p (env.node p).default with
        | error e => simp only [Out]; intro h; subst h; exact this hn
        | ok x => exact fillDefaults_ends hc ht hw l _
      · exact fillDefaults_ends hc ht hw l self

theorem modelApply_ends (hc : Calls env C w rec) {t : Nat} (ht : C t) (self : Dict Str (Prim ω)) {u : Val}
    (hb : Below u w) {ctx : Ctx} (hx : CtxInv C N m ctx) :
    Out (modelApply env rec t self u ctx) fun r => Below r.2.1 w ∧ r.2.1 ≠ .none ∧ CtxInv C N m r.2.2 := by
  unfold modelApply
  split
  · rename_i d
    obtain ⟨d', hw, hd⟩ := hb.dict d rfl
    simp only
    split
    · simp [Out, Bind.bind, Except.bind]
    · refine Out.bind (supplyAll_ends hc ht hw d self ctx hd hx) fun r hr =>
        Out.bind (fillDefaults_ends hc ht hw _ _) fun s _ => ?_
      have hrest : Below (.dict (d.filter fun e => !Dict.has (env.node t).properties e.1)) w := by
        refine ⟨fun e he => hb.pieces e ?_, fun x hx => ?_⟩
        · simp only [pieces, List.mem_map, List.mem_filter] at he ⊢
          obtain ⟨a, ⟨h1, _⟩, h2⟩ := he
          exact ⟨a, h1, h2⟩
        · cases hx
          exact ⟨d', hw, fun e he => hd e (List.mem_filter.1 he).1⟩
      split
      · simp [Out, Bind.bind, Except.bind]
      · cases (env.node t).discriminator with
        | none => exact ⟨hrest, by simp, hr⟩
        | some k =>
          simp only
          cases r.2.name with
          | none => simp [Out]
          | some n => exact ⟨hrest, by simp, hr⟩
  · simp [Out]

theorem minMax_ends (o : Node) (x : PyFloat) : Out (minMax o x) fun _ => True := by
  have h : ∀ a b : Bool, Out (if a = true then .error .ValidationError
      else if b = true then .error .ValidationError else .ok () : Except Exc Unit) fun _ => True := by
    intro a b
    cases a <;> cases b <;> simp [Out]
  exact h _ _

theorem validateFloat_ends (o : Node) (x : PyFloat) : Out (validateFloat o x) fun _ => True := by
  unfold validateFloat
  have := minMax_ends o x
  cases h : minMax o x with
  | error e => rw [h] at this; exact this
  | ok _ => simp only; split <;> simp [Out]

theorem validateStr_ends (o : Node) (s : Str) : Out (validateStr o s) fun _ => True := by
  unfold validateStr
  repeat' split
  all_goals simp [Out]

theorem secondPass_ends (hq : Quiet env) (h : Handler) (id : Nat) (r : Prim ω) :
    Out (secondPass env h id r) fun _ => True := by
  have hm := Out.of_ne (hq.mismatch h id r)
  unfold secondPass
  cases h with
  | int => 
    simp only
    split
    · exact minMax_ends _ _
    · exact hm
  | float => 
    simp only
    split
    · exact validateFloat_ends _ _
    · exact hm
  | str => 
    simp only
    split
    · exact validateStr_ends _ _
    · exact hm
  | email =>
    simp only
    split
    · split <;> simp [Out]
    · exact hm
  | bool => trivial
  | atom k => simp [Out]
  | array => simp [Out]
  | model => simp [Out]

theorem CtxInv.congr {ctx ctx' : Ctx} (h : CtxInv C N m ctx) (h1 : ctx'.guard = ctx.guard)
    (h2 : ctx'.addpSchema = ctx.addpSchema) : CtxInv C N m ctx' :=
  ⟨h1 ▸ h.nodup, h1 ▸ h.lt, h2 ▸ h.addp, h1 ▸ h.le⟩

theorem create_ends (hq : Quiet env) (hc : Calls env C w rec) (h : Handler) {t : Nat} (ht : C t) {u : Val}
    (hb : Below u w) (hn : u ≠ .none) {ctx : Ctx} (hx : CtxInv C N m ctx) :
    Out (create env rec h t u ctx) (PassInv C N m w) := by
  have hdone : ∀ (r : Prim ω) (s : Option Handler), PassInv C N m w (r, u, { ctx with second := s }) :=
    fun r s => ⟨hb, fun h => absurd h hn, hx.congr rfl rfl⟩
  cases h with
  | int =>
    simp only [create]
    have h1 := Out.of_ne (hq.toInt u)
    cases ha : env.toInt u with
    | error e => rw [ha] at h1; exact h1
    | ok n =>
      have h2 := minMax_ends (env.node t) (.fin n)
      simp only [validateInt]
      cases hb' : minMax (env.node t) (.fin n) with
      | error e => rw [hb'] at h2; exact h2
      | ok _ => exact hdone _ _
  | float =>
    simp only [create]
    have h1 := Out.of_ne (hq.toFloat u)
    cases ha : env.toFloat u with
    | error e => rw [ha] at h1; exact h1
    | ok n =>
      have h2 := validateFloat_ends (env.node t) n
      simp only
      cases hb' : validateFloat (env.node t) n with
      | error e => rw [hb'] at h2; exact h2
      | ok _ => exact hdone _ _
  | str =>
    simp only [create]
    have h2 := validateStr_ends (env.node t) (textOf env u)
    cases hb' : validateStr (env.node t) (textOf env u) with
    | error e => rw [hb'] at h2; exact h2
    | ok _ => exact hdone _ _
  | email =>
    simp only [create]
    have h2 := validateStr_ends (env.node t) (textOf env u)
    cases hb' : validateStr (env.node t) (textOf env u) with
    | error e => rw [hb'] at h2; exact h2
    | ok _ =>
      simp only
      split
      · exact hdone _ _
      · simp [Out]
  | bool => exact ⟨hb, fun h => absurd h hn, hx⟩
  | atom k =>
    simp only [create]
    have h1 := Out.of_ne (hq.atom k t u)
    cases ha : env.atom k t u with
    | error e => rw [ha] at h1; exact h1
    | ok x => exact ⟨Below.none w, fun _ => ⟨k, x, rfl⟩, hx.congr rfl rfl⟩
  | array =>
    simp only [create]
    have h1 := arrayApply_ends hc ht [] hb hn
    cases ha : arrayApply env rec t [] u with
    | error e => rw [ha] at h1; exact h1
    | ok x => rw [ha] at h1; exact ⟨h1.1, fun h => absurd h h1.2, hx.congr rfl rfl⟩
  | model =>
    simp only [create]
    have h1 := modelApply_ends hc ht [] hb hx
    cases ha : modelApply env rec t [] u ctx with
    | error e => rw [ha] at h1; exact h1
    | ok x => rw [ha] at h1; exact ⟨h1.1, fun h => absurd h h1.2.1, h1.2.2.congr rfl rfl⟩

theorem first_ends (hq : Quiet env) (hc : Calls env C w rec) {t : Nat} (ht : C t) {u : Val}
    (hb : Below u w) (hn : u ≠ .none) {ctx : Ctx} (hx : CtxInv C N m ctx) :
    Out (first env rec t u ctx) (PassInv C N m w) := by
  unfold first
  simp only
  split
  · split
    · simp [Out]
    · simp [Out]
    · exact create_ends hq hc _ ht hb hn hx
  · split
    · simp [Out]
    · split
      · have h1 := modelApply_ends hc ht [] hb hx
        cases ha : modelApply env rec t [] u ctx with
        | error e => rw [ha] at h1; exact h1
        | ok x => rw [ha] at h1; exact ⟨h1.1, fun h => absurd h h1.2.1, h1.2.2⟩
      · exact ⟨hb, fun h => absurd h hn, hx⟩

theorem applyPlain_ends (hq : Quiet env) (a : Nat) {r : Prim ω} {v : Val} {ctx : Ctx}
    (hp : PassInv C N m w (r, v, ctx)) :
    Out (match ctx.second with
    | some h =>
      match secondPass env h a r with
      | .error e => .error e
      | .ok () => .ok (r, v, ctx)
    | none =>
      match env.reg.get (env.node a).type (env.node a).format with
      | .unpackable => .error .TypeError
      | .nothing => .ok (r, v, ctx)
      | .handler .bool => .ok (r, v, ctx)
      | .handler h =>
        match secondPass env h a r with
        | .error e => .error e
        | .ok () => .ok (r, v, { ctx with second := some h }) : Except Exc (Pass ω)) (PassInv C N m w) := by
  split
  · rename_i h _
    have h1 := secondPass_ends hq h a r
    cases hs : secondPass env h a r with
    | error e => rw [hs] at h1; exact h1
    | ok _ => exact hp
  · split
    · simp [Out]
    · exact hp
    · exact hp
    · rename_i h _ _
      have h1 := secondPass_ends hq h a r
      cases hs : secondPass env h a r with
      | error e => rw [hs] at h1; exact h1
      | ok _ => exact ⟨hp.below, hp.none, hp.ctx.congr rfl rfl⟩

theorem applyTo_ends (hq : Quiet env) (hc : Calls env C w rec) {a : Nat} (ha : C a) {p : Pass ω}
    (hp : PassInv C N m w p) : Out (applyTo env rec a p) (PassInv C N m w) := by
  obtain ⟨r, v, ctx⟩ := p
  cases r with
  | array f l =>
    simp only [applyTo]
    have hn : v ≠ .none := fun h => by obtain ⟨_, _, h⟩ := hp.none h; cases h
    have h1 := arrayApply_ends hc ha l hp.below hn
    simp only at h1
    cases hs : arrayApply env rec a l v with
    | error e => rw [hs] at h1; exact h1
    | ok x => rw [hs] at h1; exact ⟨h1.1, fun h => absurd h h1.2, hp.ctx⟩
  | model d =>
    simp only [applyTo]
    have h1 := modelApply_ends hc ha d hp.below hp.ctx
    simp only at h1
    cases hs : modelApply env rec a d v ctx with
    | error e => rw [hs] at h1; exact h1
    | ok x => rw [hs] at h1; exact ⟨h1.1, fun h => absurd h h1.2.1, h1.2.2⟩
  | atom k x =>
    simp only [applyTo]
    have h1 := Out.of_ne (hq.atom k a v)
    cases hs : env.atom k a v with
    | error e => rw [hs] at h1; exact h1
    | ok y => exact ⟨Below.none w, fun _ => ⟨k, y, rfl⟩, hp.ctx⟩
  | _ => exact applyPlain_ends hq a hp

theorem allOfLoop_ends (hq : Quiet env) (hc : Calls env C w rec) (hr : RecOk env C N m w rec)
    (hag : ∀ t t', C t → env.deref t = .ok t' → C t') :
    ∀ (l : List Nat) (p : Pass ω) (sk : List Nat),
      (∀ a ∈ l, ∀ t, env.deref a = .ok t → C t) → (∀ a ∈ sk, C a) → PassInv C N m w p →
      Out (allOfLoop env rec p sk l) fun r => PassInv C N m w r.1 ∧ ∀ a ∈ r.2, C a
  | [], p, sk, _, hs, hp => by unfold allOfLoop; exact ⟨hp, hs⟩
  | a :: l, (r, v, ctx), sk, hl, hs, hp => by
    unfold allOfLoop
    have h1 := Out.of_ne (hq.deref a)
    cases hd : env.deref a with
    | error e => rw [hd] at h1; exact h1
    | ok t =>
      have ht : C t := hl a (by simp) t hd
      have hsk : ∀ b : Bool, ∀ x ∈ (if b then sk else sk ++ [t]), C x := by
        intro b x hx
        cases b with
        | true => exact hs x hx
        | false =>
          simp only [Bool.false_eq_true, if_false, List.mem_append, List.mem_singleton] at hx
          rcases hx with hx | hx
          · exact hs x hx
          · exact hx ▸ ht
      simp only
      split
      · have h2 := applyTo_ends hq hc ht hp
        cases ha : applyTo env rec t (r, v, ctx) with
        | error e => rw [ha] at h2; exact h2
        | ok q =>
          rw [ha] at h2
          exact allOfLoop_ends hq hc hr hag l q _ (fun a ha => hl a (by simp [ha])) (hsk _) h2
      · rename_i htr
        have hn : v ≠ .none := by
          intro h
          obtain ⟨k, x, h⟩ := hp.none h
          simp only at h
          subst h
          simp [truthy] at htr
        have h2 := hr t v ctx (fun t' h => hag t t' ht h) hp.below hn hp.ctx
        cases ha : rec t v ctx with
        | error e => rw [ha] at h2; exact h2
        | ok q =>
          rw [ha] at h2
          exact allOfLoop_ends hq hc hr hag l (q.1, v, q.2) _ (fun a ha => hl a (by simp [ha])) (hsk _)
            ⟨hp.below, fun h => absurd h hn, h2⟩

theorem applyLeft_ends (hq : Quiet env) (hc : Calls env C w rec) :
    ∀ (l : List Nat) (p : Pass ω), (∀ a ∈ l, C a) → PassInv C N m w p →
      Out (applyLeft env rec p l) (PassInv C N m w)
  | [], _, _, hp => hp
  | a :: l, p, hl, hp => by
    unfold applyLeft
    have h2 := applyTo_ends hq hc (hl a (by simp)) hp
    cases ha : applyTo env rec a p with
    | error e => rw [ha] at h2; exact h2
    | ok q => rw [ha] at h2; exact applyLeft_ends hq hc l q (fun a ha => hl a (by simp [ha])) h2

theorem addConverted_ends (p : Nat) : ∀ (l : List (Str × Val)) (self : Dict Str (Prim ω)),
    (∀ e ∈ l, nested rec p e.2 ≠ .error .RecursionError) → Out (addConverted rec p self l) fun _ => True
  | [], _, _ => trivial
  | (k, v) :: l, self, h => by
    unfold addConverted
    have h1 := Out.of_ne (h (k, v) (by simp))
    simp only at h1
    cases hn : nested rec p v with
    | error e => rw [hn] at h1; exact h1
    | ok x => exact addConverted_ends p l _ fun e he => h e (by simp [he])

theorem finish_ends (hc : Calls env C w rec) {p : Pass ω} (hp : PassInv C N m w p) :
    Out (finish env rec p) fun r => CtxInv C N m r.2 := by
  obtain ⟨r, v, ctx⟩ := p
  have hx := hp.ctx
  cases r with
  | model d =>
    have h1 : Out (cleanup env rec d v ctx) fun r => CtxInv C N m r.2 := by
      unfold cleanup
      split
      · split
        · exact hx.congr rfl rfl
        · simp [Out]
      · cases hs : ctx.addpSchema with
        | none => exact hx
        | some q =>
          simp only
          split
          · rename_i dd p' h1
            obtain ⟨d', hw, hd⟩ := hp.below.dict dd rfl
            have h2 := addConverted_ends (rec := rec) p' dd d fun e he =>
              hc.additional q e.1 p' d' e.2 (hx.addp q hs) h1 hw (hd e he)
            cases h3 : addConverted rec p' d dd with
            | error e => rw [h3] at h2; exact h2
            | ok s => exact ⟨hx.nodup, hx.lt, fun _ h => (by cases h), hx.le⟩
          · simp [Out]
    simp only [finish]
    cases h2 : cleanup env rec d v ctx with
    | error e => rw [h2] at h1; exact h1
    | ok s => rw [h2] at h1; exact h1
  | _ => exact hx

/-- a list of different numbers below `N` has at most `N` elements -/
theorem length_le_of_nodup_lt {N : Nat} {l : List Nat} (hn : l.Nodup) (h : ∀ g ∈ l, g < N) : l.length ≤ N := by
  have : l ⊆ List.range N := fun g hg => List.mem_range.2 (h g hg)
  have := hn.length_le_of_subset this
  simpa using this

/-- one call of `produce` on a value -/
theorem body_ends (hq : Quiet env) (hc : Calls env C w rec) (hr : RecOk env C N (m + 1) w rec)
    (hag : ∀ t t', C t → env.deref t = .ok t' → C t')
    (hall : ∀ t a t', C t → a ∈ (env.node t).allOf → env.deref a = .ok t' → C t')
    (hN : ∀ t, C t → t < N) {a : Nat} {u : Val} {ctx : Ctx} (ha : ∀ t, env.deref a = .ok t → C t)
    (hb : Below u w) (hn : u ≠ .none) (hx : CtxInv C N m ctx) :
    Out (produceBody env rec a u ctx) fun r => CtxInv C N m r.2 := by
  unfold produceBody
  simp only [if_neg hn]
  have h1 := Out.of_ne (hq.deref a)
  cases hd : env.deref a with
  | error e => rw [hd] at h1; exact h1
  | ok t =>
    have ht : C t := ha t hd
    simp only [CycleGuard.update]
    by_cases hg : t ∈ ctx.guard
    · simp [hg, Out]
    · simp only [hg, if_false]
      have hx1 : CtxInv C N (m + 1) { ctx with name := ctx.name.or (env.node t).name, guard := ctx.guard ++ [t] } := by
        refine ⟨?_, ?_, hx.addp, ?_⟩
        · refine List.nodup_append.2 ⟨hx.nodup, by simp, fun x hx y hy => ?_⟩
          simp only [List.mem_singleton] at hy
          subst hy
          exact fun h => hg (h ▸ hx)
        · intro g hg
          simp only [List.mem_append, List.mem_singleton] at hg
          rcases hg with hg | hg
          · exact hx.lt g hg
          · exact hg ▸ hN t ht
        · have := hx.le; simp; omega
      have hdrop : ∀ {c : Ctx}, CtxInv C N (m + 1) c → CtxInv C N m c :=
        fun h => ⟨h.nodup, h.lt, h.addp, by have := h.le; omega⟩
      have h2 := first_ends hq hc ht hb hn hx1
      cases hf : first env rec t u { ctx with name := ctx.name.or (env.node t).name, guard := ctx.guard ++ [t] } with
      | error e => rw [hf] at h2; exact h2
      | ok p =>
        rw [hf] at h2
        simp only
        split
        · exact hdrop h2.ctx
        · have h3 := allOfLoop_ends hq hc hr hag (env.node t).allOf p []
            (fun a ha t' h => hall t a t' ht ha h) (by simp) h2
          simp only [applyAllOf]
          cases hl : allOfLoop env rec p [] (env.node t).allOf with
          | error e => rw [hl] at h3; exact h3
          | ok q =>
            rw [hl] at h3
            simp only
            have h4 : Out (if truthy q.1.1 = true then applyLeft env rec q.1 q.2 else .ok q.1)
                (PassInv C N (m + 1) w) := by
              split
              · exact applyLeft_ends hq hc _ _ h3.2 h3.1
              · exact h3.1
            cases h5 : (if truthy q.1.1 = true then applyLeft env rec q.1 q.2 else .ok q.1) with
            | error e => rw [h5] at h4; exact h4
            | ok p => rw [h5] at h4; exact (finish_ends hc h4).mono fun _ => hdrop

/-- calls with enough stack: for the parts of the value, and one level for every object that can
still be entered by allOf -/
theorem produce_ends (hq : Quiet env) {F : Nat} (hc : ∀ fuel, F ≤ fuel → Calls env C w (produce env fuel))
    (hag : ∀ t t', C t → env.deref t = .ok t' → C t')
    (hall : ∀ t a t', C t → a ∈ (env.node t).allOf → env.deref a = .ok t' → C t')
    (hN : ∀ t, C t → t < N) : ∀ n m fuel, N < n + m → F + n ≤ fuel → RecOk env C N m w (produce env fuel) := by
  intro n
  induction n with
  | zero =>
    intro m fuel h _ a u ctx _ _ _ hx
    have := length_le_of_nodup_lt hx.nodup hx.lt
    have := hx.le
    omega
  | succ n ih =>
    intro m fuel h hf a u ctx ha hb hn hx
    obtain ⟨f, rfl⟩ : ∃ f, fuel = f + 1 := ⟨fuel - 1, by omega⟩
    exact body_ends hq (hc f (by omega)) (ih (m + 1) f (by omega) (by omega)) hag hall hN ha hb hn hx

end Prim
