import Verif.Spec.Conform
import Verif.Props.C34
import Verif.Props.C35
import Verif.Props.C36
import Verif.Props.C70
import Verif.Props.C78
/-! # Lemmas for C79 -/

namespace Proofs.Conform
open Props
open Py Tree Prim Spec Spec.Described Spec.SchemaDoc Spec.Conform Spec.Merge Proofs.Schemas

variable {ω : Type}

/-! ## what is written and what is read -/

theorem text_eq {q : Dict Str Tree} {n : Str} {s : Option Str} (h : Text q n s) : s = textAt q n := by
  unfold Text at h; unfold textAt
  cases hq : Dict.get? q n with
  | none => rw [hq] at h; exact h
  | some t =>
    rw [hq] at h
    cases t with
    | atom a => cases a <;> exact h
    | _ => exact h

theorem number_eq {q : Dict Str Tree} {n : Str} {s : Option Rat} (h : Number q n s) : s = numberAt q n := by
  unfold Number at h; unfold numberAt
  cases hq : Dict.get? q n with
  | none => rw [hq] at h; exact h
  | some t =>
    rw [hq] at h
    cases t with
    | atom a =>
      cases a with
      | float x => cases x <;> exact h
      | _ => exact h
    | _ => exact h

theorem length_eq {q : Dict Str Tree} {n : Str} {s : Option Nat} (h : Length q n s) : s = lengthAt q n := by
  unfold Length at h; unfold lengthAt
  cases hq : Dict.get? q n with
  | none => rw [hq] at h; exact h
  | some t =>
    rw [hq] at h
    cases t with
    | atom a =>
      cases a with
      | int k =>
        dsimp only at h ⊢
        by_cases h0 : 0 ≤ k
        · rw [if_pos h0]
          have := h.1 h0
          cases s with
          | none => cases this
          | some m =>
            simp only [Option.map_some, Option.some.injEq] at this
            subst this
            rfl
        · rw [if_neg h0]; exact h.2 (by omega)
      | _ => exact h
    | _ => exact h

theorem switch_on {q : Dict Str Tree} {n : Str} {b : Bool} (h : Switch q n b) : On q n → b = true := by
  intro ho; unfold On at ho; unfold Switch at h; rw [ho] at h; exact h

theorem switch_off {q : Dict Str Tree} {n : Str} {b : Bool} (h : Switch q n b) : Off q n → b = false := by
  intro ho; unfold Switch at h
  rcases ho with ho | ho | ho <;> rw [ho] at h <;> exact h

theorem switch_iff {q : Dict Str Tree} {n : Str} {b : Bool} (h : Switch q n b) (hf : On q n ∨ Off q n) :
    b = true ↔ On q n := by
  refine ⟨fun hb => hf.resolve_right fun ho => ?_, switch_on h⟩
  rw [switch_off h ho] at hb; cases hb

theorem inRange_iff {q : Dict Str Tree} {a : Node} (h : Facts q a)
    (hf : (On q c!"exclusiveMaximum" ∨ Off q c!"exclusiveMaximum") ∧
      (On q c!"exclusiveMinimum" ∨ Off q c!"exclusiveMinimum")) (r : Rat) :
    InRange a r ↔ (∀ m, numberAt q c!"maximum" = some m → r ≤ m ∧ (On q c!"exclusiveMaximum" → r ≠ m)) ∧
      ∀ m, numberAt q c!"minimum" = some m → m ≤ r ∧ (On q c!"exclusiveMinimum" → m ≠ r) := by
  unfold InRange AboveMin BelowMax
  rw [number_eq h.maximum, number_eq h.minimum, switch_iff h.exclusiveMaximum hf.1,
    switch_iff h.exclusiveMinimum hf.2]
  exact And.comm

theorem fits_of {q : Dict Str Tree} {a : Node} (h : Facts q a)
    (hf : (On q c!"exclusiveMaximum" ∨ Off q c!"exclusiveMaximum") ∧
      (On q c!"exclusiveMinimum" ∨ Off q c!"exclusiveMinimum")) {r : Rat} (hr : InRange a r)
    (hm : a.multipleOf ≠ 0 → MultipleOf a.multipleOf r) : Fits q r := by
  have := (inRange_iff h hf r).1 hr
  refine ⟨this.1, this.2, fun m hq h0 => ?_⟩
  obtain ⟨x, h1, h2⟩ := h.multipleOf
  rw [number_eq h1, hq] at h2
  have h2 : a.multipleOf = m := h2
  rw [h2] at hm
  exact hm h0

theorem of_fits {q : Dict Str Tree} {a : Node} (h : Facts q a)
    (hf : (On q c!"exclusiveMaximum" ∨ Off q c!"exclusiveMaximum") ∧
      (On q c!"exclusiveMinimum" ∨ Off q c!"exclusiveMinimum")) {r : Rat} (hr : Fits q r) :
    InRange a r ∧ (a.multipleOf ≠ 0 → MultipleOf a.multipleOf r) := by
  refine ⟨(inRange_iff h hf r).2 ⟨hr.1, hr.2⟩, fun h0 => ?_⟩
  obtain ⟨x, h1, h2⟩ := h.multipleOf
  rw [number_eq h1] at h2
  cases hm : numberAt q c!"multipleOf" with
  | none => rw [hm] at h2; exact absurd h2 h0
  | some m =>
    rw [hm] at h2
    have h2 : a.multipleOf = m := h2
    rw [h2] at h0 ⊢
    exact hr.multiple m hm h0

theorem values_mem : ∀ {l : List Tree} {vs : List Val}, Values l vs → ∀ v, v ∈ vs → ∃ t ∈ l, Value t v
  | [], vs, h, v, hv => by simp only [Values] at h; subst h; cases hv
  | t :: l, vs, h, v, hv => by
    simp only [Values] at h
    obtain ⟨w, vs', rfl, h1, h2⟩ := h
    rcases List.mem_cons.1 hv with rfl | hv
    · exact ⟨t, by simp, h1⟩
    · obtain ⟨u, hu, h3⟩ := values_mem h2 v hv
      exact ⟨u, by simp [hu], h3⟩

theorem mem_values : ∀ {l : List Tree} {vs : List Val}, Values l vs → ∀ s, .atom (.str s) ∈ l → Val.str s ∈ vs
  | [], vs, h, s, hs => by cases hs
  | t :: l, vs, h, s, hs => by
    simp only [Values] at h
    obtain ⟨w, vs', rfl, h1, h2⟩ := h
    rcases List.mem_cons.1 hs with rfl | hs
    · have h1 : w = .str s := h1
      simp [h1]
    · simp [mem_values h2 s hs]

theorem values_nil {l : List Tree} {vs : List Val} (h : Values l vs) : l = [] ↔ vs = [] := by
  cases l with
  | nil => simp only [Values] at h; simp [h]
  | cons t l => simp only [Values] at h; obtain ⟨v, vs', rfl, -⟩ := h; simp

theorem elements_nil {l m : List Tree} (h : Elements l m) : l = [] ↔ m = [] := by
  rcases h with rfl | h
  · rfl
  · constructor
    · rintro rfl
      cases m with
      | nil => rfl
      | cons t m =>
        have := (h.1 t).1 ⟨t, by simp, .inl rfl⟩
        rcases this with ⟨u, hu, -⟩ | ⟨u, hu, -⟩ <;> cases hu
    · rintro rfl
      cases l with
      | nil => rfl
      | cons t l =>
        obtain ⟨u, hu, -⟩ := (h.1 t).2 (.inr ⟨t, by simp, .inl rfl⟩)
        cases hu

/-- the texts listed are the texts allowed -/
theorem allowed_iff {q : Dict Str Tree} {vs : List Val} (h : EnumIs q vs)
    (ho : ∀ t ∈ listAt q c!"enum", ∀ c fs, t ≠ .obj c fs) (s : Str) :
    Allowed q (.str s) ↔ (vs ≠ [] → .str s ∈ vs) := by
  obtain ⟨m, h1, h2⟩ := h
  have str : ∀ t, (∀ c fs, t ≠ .obj c fs) → Value t (.str s) → t = .atom (.str s) := by
    intro t ht hv
    cases t with
    | atom a => cases a <;> simp_all [Value]
    | list l => simp [Value] at hv
    | dict d => simp [Value] at hv
    | obj c fs => exact absurd rfl (ht c fs)
  unfold Allowed
  constructor
  · rintro (h | ⟨t, ht, hn, hv⟩) hne
    · exact absurd ((values_nil h1).1 ((elements_nil h2).1 h)) hne
    · rw [str t hn hv] at ht
      exact mem_values h1 s ((mem_elements h2).2 ht)
  · intro h
    by_cases hl : listAt q c!"enum" = []
    · exact .inl hl
    · have hv := h fun h => hl ((elements_nil h2).2 ((values_nil h1).2 h))
      obtain ⟨t, ht, hv⟩ := values_mem h1 _ hv
      refine .inr ?_
      have hobj : ∀ c fs, t ≠ .obj c fs := by
        intro c fs he
        rcases h2 with rfl | h2
        · exact ho t ht c fs he
        · have := (h2.1 t).1 ⟨t, ht, .inl rfl⟩
          rcases this with ⟨u, hu, -⟩ | ⟨u, hu, hu'⟩
          · cases hu
          · rcases hu' with rfl | ⟨a, b, -, rfl, -⟩
            · exact ho _ hu c fs he
            · cases he
      rw [str t hobj hv] at ht
      exact ⟨_, (mem_elements h2).1 ht, by simp, rfl⟩

/-! ## proper values -/

theorem propers_iff {N : Prop} : ∀ {l : List Val}, Propers N l ↔ ∀ v ∈ l, Proper N v
  | [] => by simp [Propers]
  | v :: l => by simp [Propers, propers_iff (l := l)]

theorem properPairs_mem {N : Prop} : ∀ {d : List (Str × Val)}, ProperPairs N d → ∀ e ∈ d, Proper N e.2
  | [], _, e, he => by cases he
  | (k, v) :: d, h, e, he => by
    rw [ProperPairs] at h
    rcases List.mem_cons.1 he with rfl | he
    · exact h.1
    · exact properPairs_mem h.2 e he

theorem proper_get {N : Prop} {d : Dict Str Val} (h : Proper N (.dict d)) {k : Str} {v : Val}
    (hk : Dict.get? d k = some v) : Proper N v := by
  rw [Proper] at h
  exact properPairs_mem h.2 (k, v) (Dict.mem_of_get? hk)

mutual
theorem proper_value {N : Prop} : ∀ {t : Tree} {v : Val}, ProperTree N t → Value t v → Proper N v
  | .atom a, v, ht, hv => by cases a <;> simp only [Value] at hv <;> subst hv <;> simp_all [Proper, ProperTree]
  | .list l, v, ht, hv => by
    simp only [Value] at hv
    obtain ⟨vs, rfl, hv⟩ := hv
    rw [ProperTree] at ht
    rw [Proper]
    exact proper_values ht hv
  | .dict d, v, ht, hv => by
    simp only [Value] at hv
    obtain ⟨es, rfl, hv⟩ := hv
    rw [ProperTree] at ht
    rw [Proper, (proper_pairs ht.2 hv).2]
    exact ⟨ht.1, (proper_pairs ht.2 hv).1⟩
  | .obj _ _, _, ht, _ => by simp [ProperTree] at ht
theorem proper_values {N : Prop} : ∀ {l : List Tree} {vs : List Val}, ProperTrees N l → Values l vs → Propers N vs
  | [], vs, _, hv => by simp only [Values] at hv; subst hv; simp [Propers]
  | t :: l, vs, ht, hv => by
    simp only [Values] at hv
    obtain ⟨v, vs', rfl, h1, h2⟩ := hv
    rw [ProperTrees] at ht
    rw [Propers]
    exact ⟨proper_value ht.1 h1, proper_values ht.2 h2⟩
theorem proper_pairs {N : Prop} : ∀ {d : List (Str × Tree)} {es : List (Str × Val)}, ProperFields N d → Pairs d es →
    ProperPairs N es ∧ es.map Prod.fst = d.map Prod.fst
  | [], es, _, hv => by simp only [Pairs] at hv; subst hv; simp [ProperPairs]
  | (k, t) :: d, es, ht, hv => by
    simp only [Pairs] at hv
    obtain ⟨v, es', rfl, h1, h2⟩ := hv
    rw [ProperFields] at ht
    rw [ProperPairs]
    exact ⟨⟨proper_value ht.1 h1, (proper_pairs ht.2 h2).1⟩, by simp [(proper_pairs ht.2 h2).2]⟩
end

theorem properTrees_iff {N : Prop} : ∀ {l : List Tree}, ProperTrees N l ↔ ∀ v ∈ l, ProperTree N v
  | [] => by simp [ProperTrees]
  | v :: l => by simp [ProperTrees, properTrees_iff (l := l)]

theorem proper_elements {N : Prop} {l m : List Tree} (hl : ProperTrees N l) (h : Elements l m) : ProperTrees N m := by
  rcases h with rfl | h
  · exact hl
  · rw [properTrees_iff] at hl ⊢
    intro t ht
    rcases (h.1 t).1 ⟨t, ht, .inl rfl⟩ with ⟨u, hu, -⟩ | ⟨u, hu, rfl | ⟨a, b, r, rfl, -, ha, -⟩⟩
    · cases hu
    · exact hl _ hu
    · cases a <;> simp_all [ProperTree, Spec.Merge.num]

/-- the default of an object is none or proper -/
theorem default_proper {N : Prop} {q : Dict Str Tree} {v : Val} {b : Bool} (h : DefaultIs q v b) (hd : Defaults N q) :
    (b = false → v = .none) ∧ (b = true → Proper N v) := by
  unfold DefaultIs at h
  split at h
  · exact ⟨fun _ => h.2, fun hb => by rw [h.1] at hb; cases hb⟩
  · exact ⟨fun _ => h.2, fun hb => by rw [h.1] at hb; cases hb⟩
  · next l hl =>
    obtain ⟨hb, m, vs, rfl, h1, h2⟩ := h
    refine ⟨fun h => (by rw [hb] at h; cases h), fun _ => ?_⟩
    rcases hd _ hl with h | h
    · cases h
    · rw [ProperTree] at h
      rw [Proper]
      exact proper_values (proper_elements h h2) h1
  · next t hn hnl ht =>
    refine ⟨fun hb => (by rw [h.1] at hb; cases hb), fun _ => ?_⟩
    rcases hd _ ht with h' | h'
    · exact absurd h' (by simpa using hn)
    · exact proper_value h' h.2

/-! ## JSON values of converted values -/

theorem jsonPairs_get {toJson : AtomKind → ω → Except Exc Str} : ∀ {m : List (Str × Prim ω)} {es : List (Str × Val)},
    C70.jsonPairs toJson m = .ok es → es.map Prod.fst = m.map Prod.fst ∧
    ∀ k w, Dict.get? es k = some w ↔ ∃ p, Dict.get? m k = some p ∧ C70.jsonOf toJson p = .ok w
  | [], es, h => by
    simp only [C70.jsonPairs, Except.ok.injEq] at h; subst h; simp [Dict.get?]
  | (k', p) :: m, es, h => by
    simp only [C70.jsonPairs] at h
    cases hp : C70.jsonOf toJson p with
    | error e => rw [hp] at h; cases h
    | ok v =>
      rw [hp] at h
      simp only [Except.bind] at h
      cases hm : C70.jsonPairs toJson m with
      | error e => rw [hm] at h; cases h
      | ok es' =>
        rw [hm] at h
        simp only [Except.map, Except.ok.injEq] at h
        subst h
        obtain ⟨h1, h2⟩ := jsonPairs_get hm
        refine ⟨by simp [h1], fun k w => ?_⟩
        simp only [Dict.get?]
        by_cases hk : k' = k
        · simp [hk, hp]
        · simp [hk, h2]

theorem jsonItems_forall {toJson : AtomKind → ω → Except Exc Str} : ∀ {l : List (Prim ω)} {vs : List Val},
    C70.jsonItems toJson l = .ok vs ↔ List.Forall₂ (fun p v => C70.jsonOf toJson p = .ok v) l vs
  | [], vs => by
    simp only [C70.jsonItems, Except.ok.injEq, List.forall₂_nil_left_iff]; exact eq_comm
  | p :: l, vs => by
    simp only [C70.jsonItems, List.forall₂_cons_left_iff]
    cases hp : C70.jsonOf toJson p with
    | error e => simp [Except.bind]
    | ok v =>
      simp only [Except.bind, Except.ok.injEq]
      constructor
      · intro h
        cases hl : C70.jsonItems toJson l with
        | error e => rw [hl] at h; cases h
        | ok us =>
          rw [hl] at h; cases h
          exact ⟨v, us, rfl, jsonItems_forall.1 hl, rfl⟩
      · rintro ⟨b, us, rfl, h2, rfl⟩
        rw [jsonItems_forall.2 h2]; rfl

theorem nonfinite_items {l : List Val} (h : Spec.Json.nonfiniteItems l = false) : ∀ v ∈ l, Spec.Json.nonfinite v = false := by
  induction l with
  | nil => intro v hv; cases hv
  | cons a l ih =>
    simp only [Spec.Json.nonfiniteItems, Bool.or_eq_false_iff] at h
    intro v hv
    rcases List.mem_cons.1 hv with rfl | hv
    · exact h.1
    · exact ih h.2 v hv

theorem nonfinite_get {d : List (Str × Val)} (h : Spec.Json.nonfinitePairs d = false) {k : Str} {v : Val}
    (hk : Dict.get? d k = some v) : Spec.Json.nonfinite v = false := by
  have : ∀ e ∈ d, Spec.Json.nonfinite e.2 = false := by
    clear hk
    induction d with
    | nil => intro v hv; cases hv
    | cons a l ih =>
      obtain ⟨a, b⟩ := a
      simp only [Spec.Json.nonfinitePairs, Bool.or_eq_false_iff] at h
      intro v hv
      rcases List.mem_cons.1 hv with rfl | hv
      · exact h.1
      · exact ih h.2 v hv
  exact this (k, v) (Dict.mem_of_get? hk)

/-! ## conversions -/

theorem convert_atom {env : Env ω} {n id i : Nat} {v : Val} {read : Bool} {k : AtomKind} (hd : env.deref id = .ok i)
    (ht : Typed env i (.atom k)) (ha : (env.node i).allOf = []) (hv : effective env id v ≠ .none) :
    convert env (n + 1) id v read = (env.atom k i (effective env id v)).map (.atom k) := by
  rw [convert_step _ n id i v read hd hv, first_typed _ _ i _ _ ht.1 ht.2]
  simp only [create]
  cases env.atom k i (effective env id v) with
  | error x => rfl
  | ok x =>
    simp only [Except.map]
    by_cases hf : isFinalAtom (Prim.atom k x) = true
    · rw [if_pos hf]
    · rw [if_neg hf, applyAllOf_nil env _ _ _ ha]; rfl

theorem convert_bool {env : Env ω} {n id i : Nat} {v : Val} {read : Bool} (hd : env.deref id = .ok i)
    (ht : Typed env i .bool) (ha : (env.node i).allOf = []) (hv : effective env id v ≠ .none) :
    convert env (n + 1) id v read = .ok (.bool (env.toBool (effective env id v))) := by
  rw [convert_step _ n id i v read hd hv, first_typed _ _ i _ _ ht.1 ht.2]
  simp only [create, isFinalAtom, Bool.false_eq_true, if_false]
  rw [applyAllOf_nil env _ _ _ ha]; rfl

theorem convert_email {env : Env ω} {n id i : Nat} {v : Val} {read : Bool} (hd : env.deref id = .ok i)
    (ht : Typed env i .email) (ha : (env.node i).allOf = []) (hv : effective env id v ≠ .none) {x : Prim ω}
    (h : convert env (n + 1) id v read = .ok x) :
    ∃ s, x = .str s ∧ C34.Conforms (env.node i) s ∧ env.validEmail s = true := by
  rw [convert_step _ n id i v read hd hv, first_typed _ _ i _ _ ht.1 ht.2] at h
  simp only [create] at h
  obtain ⟨h1, h2⟩ := C34.validateStr_spec (env.node i) (textOf env (effective env id v))
  by_cases hc : C34.Conforms (env.node i) (textOf env (effective env id v))
  · rw [h1 hc] at h
    by_cases hm : env.validEmail (textOf env (effective env id v)) = true
    · simp only [hm, if_true, isFinalAtom, applyAllOf_nil env _ i _ ha, finish, Bool.false_eq_true, if_false,
        Except.ok.injEq] at h
      exact ⟨_, h.symm, hc, hm⟩
    · simp only [if_neg hm] at h; cases h
  · rw [h2 hc] at h; cases h

theorem convert_str {env : Env ω} {n id i : Nat} {v : Val} {read : Bool} (hd : env.deref id = .ok i)
    (ht : Typed env i .str) (ha : (env.node i).allOf = []) (hv : effective env id v ≠ .none) {x : Prim ω}
    (h : convert env (n + 1) id v read = .ok x) : ∃ s, x = .str s ∧ C34.Conforms (env.node i) s := by
  rw [convert_step _ n id i v read hd hv, first_typed _ _ i _ _ ht.1 ht.2] at h
  simp only [create] at h
  obtain ⟨h1, h2⟩ := C34.validateStr_spec (env.node i) (textOf env (effective env id v))
  by_cases hc : C34.Conforms (env.node i) (textOf env (effective env id v))
  · rw [h1 hc] at h
    simp only [isFinalAtom, applyAllOf_nil env _ i _ ha, finish, Bool.false_eq_true, if_false, Except.ok.injEq] at h
    exact ⟨_, h.symm, hc⟩
  · rw [h2 hc] at h; cases h

/-- without elements there is no array -/
theorem convert_given {env : Env ω} {n id i it : Nat} {v : Val} {read : Bool} (hd : env.deref id = .ok i)
    (ht : Typed env i .array) (hit : (env.node i).items = some it) (hu : (env.node i).uniqueItems = false)
    (hc : (env.node i).collectionFormat = none) (hv : effective env id v ≠ .none) {x : Prim ω}
    (h : convert env (n + 1) id v read = .ok x) :
    ∃ es, C35.given (separator (C35.formatOf (env.node i))) (effective env id v) = some es := by
  rw [convert_step _ n id i v read hd hv, first_typed _ _ i _ _ ht.1 ht.2] at h
  cases he : effective env id v with
  | list l => exact ⟨l, rfl⟩
  | str s =>
    have : separator (C35.formatOf (env.node i)) = some ',' := by
      unfold C35.formatOf; rw [hc]; decide
    rw [this]; exact ⟨_, rfl⟩
  | dict d => exact ⟨_, rfl⟩
  | _ =>
    rw [he] at h
    simp [create, arrayApply, splitText, dedup, hu, extend, hit, elems, bind, Except.bind] at h

/-- what is converted to an integer or float is a number within the limits -/
theorem convert_int {env : Env ω} {n id i : Nat} {v : Val} {read : Bool} (hd : env.deref id = .ok i)
    (ht : Typed env i .int) (ha : (env.node i).allOf = []) (hv : effective env id v ≠ .none) {x : Prim ω}
    (h : convert env (n + 1) id v read = .ok x) : ∃ k : Int, x = .int k ∧ InRange (env.node i) k := by
  obtain ⟨h1, h2⟩ := C33.C33_integer env n id i v read hd ht ha hv
  cases hk : env.toInt (effective env id v) with
  | error e => rw [h1 e hk] at h; cases h
  | ok k =>
    obtain ⟨h3, h4⟩ := h2 k hk
    by_cases hr : InRange (env.node i) k
    · rw [h3 hr] at h; cases h; exact ⟨k, rfl, hr⟩
    · rw [h4 hr] at h; cases h

theorem convert_float {env : Env ω} {n id i : Nat} {v : Val} {read : Bool} (hd : env.deref id = .ok i)
    (ht : Typed env i .float) (ha : (env.node i).allOf = []) (hv : effective env id v ≠ .none) {x : Prim ω}
    (h : convert env (n + 1) id v read = .ok x) : ∃ y, x = .float y ∧ ∀ q, y = .fin q →
      InRange (env.node i) q ∧ ((env.node i).multipleOf ≠ 0 → MultipleOf (env.node i).multipleOf q) := by
  obtain ⟨h1, h2⟩ := C33.C33_number env n id i v read hd ht ha hv
  cases hk : env.toFloat (effective env id v) with
  | error e => rw [h1 e hk] at h; cases h
  | ok y =>
    have hx : x = .float y := by
      rw [convert_step _ n id i v read hd hv, first_typed _ _ i _ _ ht.1 ht.2] at h
      simp only [create, hk] at h
      cases hval : validateFloat (env.node i) y with
      | error e => rw [hval] at h; cases h
      | ok u =>
        rw [hval] at h
        simp only [isFinalAtom, applyAllOf_nil env _ i _ ha, finish, Bool.false_eq_true, if_false, Except.ok.injEq] at h
        exact h.symm
    refine ⟨y, hx, ?_⟩
    rintro q rfl
    obtain ⟨h3, h4⟩ := h2 q hk
    apply Classical.byContradiction
    intro hr
    rw [h4 hr] at h; cases h

end Proofs.Conform
