import Verif.Proofs.Prim
import Verif.Props.C33
import Mathlib.Data.List.Forall2
/-!
# C34: strings violating enum or length limits are never accepted
-/

namespace Props.C34
open Py Prim

variable {ω : Type}

/-- the text satisfies enum and length limits; a maximal length of 0 is no limit (see the
refutation below) -/
structure Conforms (o : Node) (s : Str) : Prop where
  enum : o.enum ≠ [] → Val.str s ∈ o.enum
  max : ∀ m, o.maxLength = some m → m ≠ 0 → s.length ≤ m
  min : ∀ m, o.minLength = some m → m ≤ s.length

theorem validateStr_spec (o : Node) (s : Str) :
    (Conforms o s → validateStr o s = .ok ()) ∧
    (¬ Conforms o s → validateStr o s = .error .ValidationError) := by
  have h1 : exceeds o.maxLength s.length = true ↔ ¬ ∀ m, o.maxLength = some m → m ≠ 0 → s.length ≤ m := by
    unfold exceeds
    cases o.maxLength with
    | none => simp
    | some m => simp
  have h2 : fallsShort o.minLength s.length = true ↔ ¬ ∀ m, o.minLength = some m → m ≤ s.length := by
    unfold fallsShort
    cases o.minLength with
    | none => simp
    | some m => simp; omega
  unfold validateStr
  constructor
  · intro hc
    rw [if_neg (fun h => h.2 (hc.enum h.1)), if_neg (fun h => (h1.1 h) hc.max),
      if_neg (fun h => (h2.1 h) hc.min)]
  · intro hc
    split
    · rfl
    · split
      · rfl
      · split
        · rfl
        next a b c =>
          exfalso
          apply hc
          refine ⟨?_, ?_, ?_⟩
          · intro he
            exact Classical.byContradiction fun hx => a ⟨he, hx⟩
          · exact Classical.byContradiction fun hx => b (h1.2 hx)
          · exact Classical.byContradiction fun hx => c (h2.2 hx)

/-- **C34**. A string schema (any schema read by the plain string handler, without allOf): the text
(the value itself, or `str(value)` if it is no text) is accepted unchanged iff it conforms;
otherwise `ValidationError`. -/
theorem C34_string (env : Env ω) (n id i : Nat) (v : Val) (read : Bool)
    (hd : env.deref id = .ok i) (ht : Typed env i .str) (ha : (env.node i).allOf = [])
    (hv : effective env id v ≠ .none) (s : Str)
    (hs : (effective env id v = .str s) ∨
      ((∀ t, effective env id v ≠ .str t) ∧ s = env.toStr (effective env id v))) :
    (Conforms (env.node i) s → convert env (n + 1) id v read = .ok (.str s)) ∧
    (¬ Conforms (env.node i) s → convert env (n + 1) id v read = .error .ValidationError) := by
  have hx : textOf env (effective env id v) = s := by
    rcases hs with hs | ⟨h1, h2⟩
    · rw [hs]; rfl
    · rw [h2]
      cases hw : effective env id v <;> first | rfl | exact absurd hw (h1 _)
  rw [convert_step env n id i v read hd hv, first_typed env _ i _ _ ht.1 ht.2]
  obtain ⟨a, b⟩ := validateStr_spec (env.node i) s
  constructor
  · intro hc
    simp only [create, hx, a hc, isFinalAtom, applyAllOf_nil env _ i _ ha, finish,
      Bool.false_eq_true, if_false]
  · intro hc
    simp only [create, hx, b hc]

/-- **C34** (e-mail). The e-mail format also requires a valid address. -/
theorem C34_email (env : Env ω) (n id i : Nat) (s : Str) (read : Bool)
    (hd : env.deref id = .ok i) (ht : Typed env i .email) (ha : (env.node i).allOf = []) :
    (Conforms (env.node i) s ∧ env.validEmail s = true → convert env (n + 1) id (.str s) read = .ok (.str s)) ∧
    (¬ (Conforms (env.node i) s ∧ env.validEmail s = true) →
      convert env (n + 1) id (.str s) read = .error .ValidationError) := by
  have he : effective env id (.str s) = .str s := rfl
  rw [convert_step env n id i _ read hd (by rw [he]; simp), first_typed env _ i _ _ ht.1 ht.2, he]
  obtain ⟨a, b⟩ := validateStr_spec (env.node i) s
  constructor
  · rintro ⟨hc, hm⟩
    simp only [create, textOf, a hc, hm, if_true, isFinalAtom, applyAllOf_nil env _ i _ ha, finish,
      Bool.false_eq_true, if_false]
  · intro hc
    by_cases h : Conforms (env.node i) s
    · have hm : ¬ env.validEmail s = true := fun hm => hc ⟨h, hm⟩
      have hm : env.validEmail s = false := by simpa using hm
      simp only [create, textOf, a h, hm, Bool.false_eq_true, if_false]
    · simp only [create, textOf, b h]

theorem validateStr_iff (o : Node) (s : Str) : validateStr o s = .ok () ↔ Conforms o s := by
  obtain ⟨a, b⟩ := validateStr_spec o s
  constructor
  · intro h
    exact Classical.byContradiction fun hn => by rw [b hn] at h; cases h
  · exact a

/-- **C34** (allOf). A non-empty text is accepted by a string schema iff it conforms to the schema
and to every part of its allOf. -/
theorem C34_allOf (env : Env ω) (n id i : Nat) (s : Str) (read : Bool)
    (hd : env.deref id = .ok i) (ht : Typed env i .str) (h0 : s ≠ []) :
    ((Conforms (env.node i) s ∧
        ∀ a ∈ (env.node i).allOf, ∃ a', env.deref a = .ok a' ∧ Conforms (env.node a') s) →
      convert env (n + 1) id (.str s) read = .ok (.str s)) ∧
    (¬ (Conforms (env.node i) s ∧
        ∀ a ∈ (env.node i).allOf, ∃ a', env.deref a = .ok a' ∧ Conforms (env.node a') s) →
      ∃ e, convert env (n + 1) id (.str s) read = .error e) := by
  have he : effective env id (.str s) = .str s := rfl
  have hv : effective env id (.str s) ≠ .none := by rw [he]; simp
  have htr : truthy (Prim.str s : Prim ω) = true := by simp [truthy, h0]
  have hsp : ∀ a, secondPass env .str a (.str s : Prim ω) = .ok () ↔ Conforms (env.node a) s :=
    fun a => validateStr_iff (env.node a) s
  by_cases hin : Conforms (env.node i) s
  · have hm := (validateStr_iff (env.node i) s).2 hin
    have hf : first env (produce env n) i (effective env id (.str s)) (topCtx env i read) =
        .ok (.str s, effective env id (.str s), { topCtx env i read with second := some .str }) := by
      rw [first_typed env _ i _ _ ht.1 ht.2]
      simp only [create, he, textOf, hm]
    obtain ⟨c1, c2⟩ := convert_scalar env n id i (.str s) read hd hv hf rfl htr
    simp only [hsp] at c1 c2
    exact ⟨fun h => c1 h.2, fun h => (c2 fun hall => h ⟨hin, hall⟩).imp fun e he => he.1⟩
  · refine ⟨fun h => absurd h.1 hin, fun _ => ⟨.ValidationError, ?_⟩⟩
    rw [convert_step env n id i _ read hd hv, first_typed env _ i _ _ ht.1 ht.2, he]
    simp only [create, textOf, (validateStr_spec (env.node i) s).2 hin]

/-- **C34** (allOf, e-mail). A non-empty e-mail text is accepted iff it conforms to the schema and
is a valid address; the parts of an allOf are only checked to be references that resolve. -/
theorem C34_allOf_email (env : Env ω) (n id i : Nat) (s : Str) (read : Bool)
    (hd : env.deref id = .ok i) (ht : Typed env i .email) (h0 : s ≠ []) :
    ((Conforms (env.node i) s ∧ env.validEmail s = true ∧
        ∀ a ∈ (env.node i).allOf, ∃ a', env.deref a = .ok a') →
      convert env (n + 1) id (.str s) read = .ok (.str s)) ∧
    (¬ (Conforms (env.node i) s ∧ env.validEmail s = true ∧
        ∀ a ∈ (env.node i).allOf, ∃ a', env.deref a = .ok a') →
      ∃ e, convert env (n + 1) id (.str s) read = .error e) := by
  have he : effective env id (.str s) = .str s := rfl
  have hv : effective env id (.str s) ≠ .none := by rw [he]; simp
  have htr : truthy (Prim.str s : Prim ω) = true := by simp [truthy, h0]
  by_cases hin : Conforms (env.node i) s
  · have hm := (validateStr_iff (env.node i) s).2 hin
    by_cases hmail : env.validEmail s = true
    · have hsp : ∀ a, secondPass env .email a (.str s : Prim ω) = .ok () ↔ True := by
        intro a; simp [secondPass, hmail]
      have hf : first env (produce env n) i (effective env id (.str s)) (topCtx env i read) =
          .ok (.str s, effective env id (.str s), { topCtx env i read with second := some .email }) := by
        rw [first_typed env _ i _ _ ht.1 ht.2]
        simp only [create, he, textOf, hm, hmail, if_true]
      obtain ⟨c1, c2⟩ := convert_scalar env n id i (.str s) read hd hv hf rfl htr
      simp only [hsp, and_true] at c1 c2
      exact ⟨fun h => c1 h.2.2, fun h => (c2 fun hall => h ⟨hin, hmail, hall⟩).imp fun e he => he.1⟩
    · refine ⟨fun h => absurd h.2.1 hmail, fun _ => ⟨.ValidationError, ?_⟩⟩
      have hmail : env.validEmail s = false := by simpa using hmail
      rw [convert_step env n id i _ read hd hv, first_typed env _ i _ _ ht.1 ht.2, he]
      simp only [create, textOf, hm, hmail, Bool.false_eq_true, if_false]
  · refine ⟨fun h => absurd h.1 hin, fun _ => ⟨.ValidationError, ?_⟩⟩
    rw [convert_step env n id i _ read hd hv, first_typed env _ i _ _ ht.1 ht.2, he]
    simp only [create, textOf, (validateStr_spec (env.node i) s).2 hin]

/-! ## examples and refutations -/

example : Typed (C33.world fun _ => { type := some c!"string", minLength := some 2 }) 0 .str ∧
    Conforms { type := some c!"string", minLength := some 2 } c!"ab" ∧
    ¬ Conforms { type := some c!"string", minLength := some 2 } c!"a" :=
  ⟨⟨by decide, by decide⟩, ⟨by simp, by simp, by simp⟩, fun h => by have := h.min 2 rfl; simp at this⟩

/-- A maximal length of 0 does not forbid anything. -/
theorem C34_maxLength_zero_false :
    ¬ ∀ (o : Node) (s : Str) (m : Nat), o.type = some c!"string" → o.maxLength = some m →
      convert (C33.world fun _ => o) 1 0 (.str s) true = .ok (.str s) → s.length ≤ m := by
  intro H
  have := H { type := some c!"string", maxLength := some 0 } c!"a" 0 rfl rfl (by rfl)
  revert this; decide

/-- The enum of a schema that is not a plain string is not checked. -/
theorem C34_enum_other_types_false :
    ¬ ∀ (o : Node) (k : Int), o.type = some c!"integer" → o.enum ≠ [] →
      convert (C33.world fun _ => o) 1 0 (.int k) true = .ok (.int k) → Val.int k ∈ o.enum := by
  intro H
  have := H { type := some c!"integer", enum := [.int 1] } 7 rfl (by decide) (by rfl)
  revert this; decide

/-- The length limits of an allOf part are not enforced on an e-mail text. -/
theorem C34_email_allOf_false :
    ¬ ∀ (node : Nat → Node) (s : Str), (node 0).type = some c!"string" → (node 0).format = some c!"email" →
      convert (C33.world node) 1 0 (.str s) true = .ok (.str s) →
      ∀ a ∈ (node 0).allOf, Conforms (node a) s := by
  intro H
  have := H (fun i => if i = 0 then { type := some c!"string", format := some c!"email", allOf := [1] }
    else { maxLength := some 3 }) c!"a@bcd" rfl rfl (by rfl) 1 (by simp)
  have := this.max 3 rfl
  simp at this

/-! ## a schema without type whose allOf states the type in one part and limits in the others -/

/-- a schema that states limits only: no type, properties, additional properties or parts -/
structure LimitsOnly (env : Env ω) (q : Nat) : Prop where
  type : (env.node q).type = none
  schema : (env.node q).isSchema = true
  properties : (env.node q).properties = []
  additional : (env.node q).additional = .no

theorem first_limits (env : Env ω) (rec : Rec ω) (q : Nat) (hq : LimitsOnly env q) (v : Val) (c : Ctx) :
    first env rec q v c = .ok (.none, v, c) := by
  unfold first
  simp [hq.type, hq.schema, hq.properties, hq.additional]

theorem produce_limits (env : Env ω) (n q : Nat) (hq : LimitsOnly env q) (ha : (env.node q).allOf = [])
    (hd : env.deref q = .ok q) (v : Val) (hv : v ≠ .none) (c : Ctx) (hg : q ∉ c.guard) :
    produce env (n + 1) q v c =
      .ok (.none, { c with name := c.name.or (env.node q).name, guard := c.guard ++ [q] }) := by
  have hp : produce env (n + 1) = produceBody env (produce env n) := rfl
  rw [hp]
  generalize produce env n = rec
  unfold produceBody
  simp only [hv, if_false, hd, Utils.CycleGuard.update, hg, first_limits env rec q hq, isFinalAtom,
    Bool.false_eq_true, applyAllOf_nil env rec q _ ha, finish]

/-- the parts that state limits only are put aside -/
theorem loop_limits (env : Env ω) (n : Nat) (v : Val) (hv : v ≠ .none) (l : List Nat) :
    ∀ (pre qs : List Nat) (c : Ctx) (sk : List Nat),
      List.Forall₂ (fun a q => env.deref a = .ok q) pre qs →
      (∀ q ∈ qs, LimitsOnly env q ∧ (env.node q).allOf = [] ∧ env.deref q = .ok q) →
      (c.guard ++ qs).Nodup →
      ∃ nm, allOfLoop env (produce env (n + 1)) (.none, v, c) sk (pre ++ l) =
        allOfLoop env (produce env (n + 1)) (.none, v, { c with name := nm, guard := c.guard ++ qs })
          (sk ++ qs) l := by
  intro pre qs c sk h
  induction h generalizing c sk with
  | nil => intro _ _; exact ⟨c.name, by simp⟩
  | @cons a q pre qs haq _ ih =>
    intro hl hn
    obtain ⟨h1, h2, h3⟩ := hl q (List.mem_cons_self ..)
    have hg : q ∉ c.guard := fun hq => by
      have := (List.nodup_append.1 hn).2.2 q hq q (List.mem_cons_self ..)
      exact this rfl
    obtain ⟨nm, e⟩ := ih { c with name := c.name.or (env.node q).name, guard := c.guard ++ [q] }
      (sk ++ [q]) (fun x hx => hl x (List.mem_cons_of_mem _ hx)) (by simpa using hn)
    refine ⟨nm, ?_⟩
    rw [List.cons_append, allOfLoop, haq]
    simp only [truthy, Bool.false_eq_true, if_false, produce_limits env n q h1 h2 h3 v hv c hg, e,
      List.append_assoc, List.singleton_append]

/-- the parts put aside are checked at the end -/
theorem left_scalar (env : Env ω) (rec : Rec ω) (r : Prim ω) (hr : isScalar r = true) (v : Val) (c : Ctx)
    {h : Handler} (hc : c.second = some h) (l : List Nat) :
    ((∀ q ∈ l, secondPass env h q r = .ok ()) → applyLeft env rec (r, v, c) l = .ok (r, v, c)) ∧
    ((¬ ∀ q ∈ l, secondPass env h q r = .ok ()) → ∃ e, applyLeft env rec (r, v, c) l = .error e) := by
  induction l with
  | nil => exact ⟨fun _ => rfl, fun h => absurd (by simp) h⟩
  | cons q l ih =>
    rw [applyLeft, applyTo_scalar env rec q r v c hr hc]
    cases hs : secondPass env h q r with
    | error e =>
      refine ⟨fun h => ?_, fun _ => ⟨e, rfl⟩⟩
      have := h q (List.mem_cons_self ..)
      rw [hs] at this; cases this
    | ok u =>
      simp only
      refine ⟨fun h => ih.1 fun x hx => h x (List.mem_cons_of_mem _ hx), fun h => ih.2 fun hall => h ?_⟩
      intro x hx
      rcases List.mem_cons.1 hx with rfl | hx
      · exact hs
      · exact hall x hx

/-- **C34** (untyped allOf). A schema without type that forbids additional properties, one part of
whose allOf is a string schema while the parts before it state limits only: a non-empty text is
accepted iff it conforms to every part. -/
theorem C34_untyped_allOf (env : Env ω) (n id w a p : Nat) (pre qs post ps : List Nat) (s : Str)
    (read : Bool) (hd : env.deref id = .ok w) (hw : LimitsOnly env w)
    (hall : (env.node w).allOf = pre ++ a :: post)
    (hpre : List.Forall₂ (fun a q => env.deref a = .ok q) pre qs)
    (hqs : ∀ q ∈ qs, LimitsOnly env q ∧ (env.node q).allOf = [] ∧ env.deref q = .ok q)
    (ha : env.deref a = .ok p) (hp : env.deref p = .ok p) (ht : Typed env p .str)
    (hpa : (env.node p).allOf = [])
    (hpost : List.Forall₂ (fun a q => env.deref a = .ok q) post ps)
    (hnd : (w :: (qs ++ [p])).Nodup) (h0 : s ≠ []) :
    ((∀ q ∈ qs ++ p :: ps, Conforms (env.node q) s) →
      convert env (n + 2) id (.str s) read = .ok (.str s)) ∧
    ((¬ ∀ q ∈ qs ++ p :: ps, Conforms (env.node q) s) →
      ∃ e, convert env (n + 2) id (.str s) read = .error e) := by
  have he : effective env id (.str s) = .str s := rfl
  have hv : effective env id (.str s) ≠ .none := by rw [he]; simp
  have hsp : ∀ a, secondPass env .str a (.str s : Prim ω) = .ok () ↔ Conforms (env.node a) s :=
    fun a => validateStr_iff (env.node a) s
  have htr : truthy (Prim.str s : Prim ω) = true := by simp [truthy, h0]
  rw [convert_step env (n + 1) id w _ read hd hv, he, first_limits env _ w hw]
  simp only [isFinalAtom, Bool.false_eq_true, if_false, applyAllOf, hall]
  obtain ⟨nm, e⟩ := loop_limits env n (.str s) (by simp) (a :: post) pre qs (topCtx env w read) [] hpre hqs
    (by
      show (w :: qs).Nodup
      have : (w :: qs).Sublist (w :: (qs ++ [p])) := by simp
      exact hnd.sublist this)
  have ht0 : truthy (Prim.none : Prim ω) = false := rfl
  rw [e, allOfLoop, ha]
  simp only [ht0, Bool.false_eq_true, if_false]
  generalize hc : ({ topCtx env w read with name := nm, guard := (topCtx env w read).guard ++ qs } : Ctx) = c
  have hg : p ∉ c.guard := by
    rw [← hc]
    show p ∉ [w] ++ qs
    intro h
    have := (List.nodup_append.1 (show ((w :: qs) ++ [p]).Nodup by simpa using hnd)).2.2 p h p (by simp)
    exact this rfl
  have hrec : produce env (n + 1) p (.str s) c =
      match validateStr (env.node p) s with
      | .error e => .error e
      | .ok () => .ok (.str s,
          { c with name := c.name.or (env.node p).name, guard := c.guard ++ [p], second := some .str }) := by
    have hpb : produce env (n + 1) = produceBody env (produce env n) := rfl
    rw [hpb]
    generalize produce env n = rec
    unfold produceBody
    simp only [reduceCtorEq, if_false, hp, Utils.CycleGuard.update, hg,
      first_typed env rec p _ _ ht.1 ht.2, create, textOf]
    cases validateStr (env.node p) s with
    | error e => rfl
    | ok u =>
      simp only [isFinalAtom, Bool.false_eq_true, if_false, applyAllOf_nil env rec p _ hpa, finish]
  rw [hrec]
  by_cases hcp : Conforms (env.node p) s
  · rw [(validateStr_iff _ s).2 hcp]
    simp only [htr, if_true, List.nil_append]
    generalize hc2 :
      ({ c with name := c.name.or (env.node p).name, guard := c.guard ++ [p], second := some .str } : Ctx) = c2
    have hsec : c2.second = some .str := by rw [← hc2]
    obtain ⟨b1, b2⟩ := allOf_scalar env (produce env (n + 1)) (.str s) rfl htr (.str s) c2 hsec qs post
    have hps : (∀ a ∈ post, ∃ a', env.deref a = .ok a' ∧ secondPass env .str a' (.str s : Prim ω) = .ok ()) ↔
        ∀ q ∈ ps, Conforms (env.node q) s := by
      simp only [hsp]
      clear b1 b2 hall e
      induction hpost with
      | nil => simp
      | @cons x y post ps hxy _ ih =>
        simp only [List.forall_mem_cons, ih, hxy, Except.ok.injEq, exists_eq_left']
    rw [hps] at b1 b2
    by_cases hall2 : ∀ q ∈ ps, Conforms (env.node q) s
    · rw [b1 hall2]
      simp only [htr, if_true]
      obtain ⟨d1, d2⟩ := left_scalar env (produce env (n + 1)) (.str s) rfl (.str s) c2 hsec qs
      simp only [hsp] at d1 d2
      constructor
      · intro h
        rw [d1 fun q hq => h q (List.mem_append_left _ hq)]
        rfl
      · intro h
        obtain ⟨e, he⟩ := d2 fun hq => h (by
          intro q hq2
          rcases List.mem_append.1 hq2 with h' | h'
          · exact hq q h'
          · rcases List.mem_cons.1 h' with rfl | h'
            · exact hcp
            · exact hall2 q h')
        exact ⟨e, by rw [he]⟩
    · obtain ⟨e, he, _⟩ := b2 hall2
      rw [he]
      refine ⟨fun h => absurd (fun q hq => h q (List.mem_append_right _ (List.mem_cons_of_mem _ hq))) hall2,
        fun _ => ⟨e, rfl⟩⟩
  · rw [(validateStr_spec _ s).2 hcp]
    exact ⟨fun h => absurd (h p (by simp)) hcp, fun _ => ⟨_, rfl⟩⟩

/-- `{allOf: [{maxLength: 3}, {type: string}]}`, additional properties forbidden -/
def limitFirst : Nat → Node
  | 0 => { additional := .no, allOf := [1, 2] }
  | 1 => { additional := .no, maxLength := some 3 }
  | _ => { type := some c!"string" }

example : convert (C33.world limitFirst) 2 0 (.str c!"abc") true = .ok (.str c!"abc") ∧
    convert (C33.world limitFirst) 2 0 (.str c!"abcd") true = .error .ValidationError ∧
    LimitsOnly (C33.world limitFirst) 1 :=
  ⟨by rfl, by rfl, ⟨rfl, rfl, rfl, rfl⟩⟩

end Props.C34
