import Verif.Spec.Wire
import Verif.Props.C74
import Verif.Props.C79
/-! # Lemmas for C81 -/

namespace Proofs.Wire
open Props
open Py Tree Prim Spec Spec.Described Spec.SchemaDoc Spec.Conform Spec.Wire Proofs.Conform Props.C79

variable {ω : Type} {env : Env ω} {S : Dict Str Tree → Prop}

theorem forall₂_right {α β : Type} {R : α → β → Prop} {l : List α} {m : List β} (h : List.Forall₂ R l m) :
    ∀ b ∈ m, ∃ a ∈ l, R a b := by
  induction h with
  | nil => intro b hb; cases hb
  | cons h _ ih =>
    intro b hb
    rcases List.mem_cons.1 hb with rfl | hb
    · exact ⟨_, List.mem_cons_self .., h⟩
    · obtain ⟨a, ha, h⟩ := ih b hb
      exact ⟨a, List.mem_cons_of_mem _ ha, h⟩

/-- What a conversion by an object with the declaration `q` gives. -/
inductive Made (env : Env ω) : Dict Str Tree → Prim ω → Prop
  | none {q} : Made env q .none
  | integer {q} {k : Int} : textAt q c!"type" = some c!"integer" → Fits q k → Allowed q (.int k) → Made env q (.int k)
  | whole {q} {k : Int} : textAt q c!"type" = some c!"number" → Fits q k → Allowed q (.int k) → Made env q (.int k)
  | number {q r} : textAt q c!"type" = some c!"number" → Fits q r → Allowed q (.float (.fin r)) →
      Made env q (.float (.fin r))
  | odd {q y} : textAt q c!"type" = some c!"number" → (∀ r, y ≠ .fin r) → Made env q (.float y)
  | boolean {q b} : textAt q c!"type" = some c!"boolean" → Allowed q (.bool b) → Made env q (.bool b)
  | string {q s} : textAt q c!"type" = some c!"string" → Allowed q (.str s) →
      Sized q c!"minLength" c!"maxLength" s.length → (∀ f, textAt q c!"format" = some f → f ∉ made.map Prod.fst) →
      (textAt q c!"format" = some c!"email" → env.validEmail s = true) → Made env q (.str s)
  | atom {q f k i v x} : textAt q c!"type" = some c!"string" → textAt q c!"format" = some f → (f, k) ∈ made →
      env.atom k i v = .ok x → listAt q c!"enum" = [] → lengthAt q c!"minLength" = Option.none →
      lengthAt q c!"maxLength" = Option.none → Made env q (.atom k x)
  | array {q i f xs} : textAt q c!"type" = some c!"array" → Dict.get? q c!"items" = some (.dict i) →
      (∀ x ∈ xs, Made env i x) → Sized q c!"minItems" c!"maxItems" xs.length → Off q c!"uniqueItems" →
      listAt q c!"enum" = [] → Collects q f → Made env q (.array f xs)

theorem default_is {q : Dict Str Tree} {v : Val} {b : Bool} (h : Default q v b) : DefaultIs q v b := by
  unfold Default at h
  unfold DefaultIs
  cases hq : Dict.get? q c!"default" with
  | none => rw [hq] at h; exact h
  | some t =>
    rw [hq] at h
    cases t with
    | atom a => cases a <;> exact h
    | list l =>
      obtain ⟨h0, m, vs, h1, h2, h3⟩ := h
      exact ⟨h0, m, vs, h1, h2, .inr h3⟩
    | dict d => exact h
    | obj c fs => exact h

theorem enum_is {q : Dict Str Tree} {vs : List Val} (h : Enum q vs) : EnumIs q vs := by
  unfold Enum at h
  unfold EnumIs listAt
  split at h
  · next l hl =>
    obtain ⟨m, h1, h2⟩ := h
    rw [hl]
    exact ⟨m, h1, .inr h2⟩
  · next hn =>
    subst h
    refine ⟨[], by simp [Values], .inl ?_⟩
    split
    · next l hl => exact absurd hl (hn l)
    · rfl

/-- the limits of a parameter are those of a schema with the same declaration -/
theorem facts_of {q : Dict Str Tree} {a : Node} (h : Limits q a) : ∃ b : Node, Facts q b ∧ b.maximum = a.maximum ∧
    b.minimum = a.minimum ∧ b.exclusiveMaximum = a.exclusiveMaximum ∧ b.exclusiveMinimum = a.exclusiveMinimum ∧
    b.multipleOf = a.multipleOf := by
  refine ⟨{ a with
    collectionFormat := none, isSchema := true, discriminator := textAt q c!"discriminator",
    readOnly := match Dict.get? q c!"readOnly" with | some (.atom (.bool b)) => b | _ => false,
    required := (listAt q c!"required").filterMap fun t => match t with | .atom (.str s) => some s | _ => none },
    ⟨h.type, h.format, default_is h.default, h.maximum, h.exclusiveMaximum, h.minimum, h.exclusiveMinimum, h.maxLength,
      h.minLength, h.maxItems, h.minItems, h.multipleOf, enum_is h.enum, h.uniqueItems, rfl, rfl, ?_, ?_, ?_⟩,
    rfl, rfl, rfl, rfl, rfl⟩
  · intro s
    simp only [List.mem_filterMap]
    constructor
    · rintro ⟨t, ht, he⟩
      split at he
      · cases he; exact ht
      · cases he
    · intro h; exact ⟨_, h, rfl⟩
  · unfold Text textAt
    cases Dict.get? q c!"discriminator" with
    | none => rfl
    | some t =>
      cases t with
      | atom a => cases a <;> rfl
      | _ => rfl
  · unfold Switch
    cases hq : Dict.get? q c!"readOnly" with
    | none => simp
    | some t =>
      cases t with
      | atom a =>
        cases a with
        | bool b => cases b <;> simp
        | _ => simp
      | _ => simp

theorem limits_fits {q : Dict Str Tree} {a : Node} (h : Limits q a)
    (hf : (On q c!"exclusiveMaximum" ∨ Off q c!"exclusiveMaximum") ∧
      (On q c!"exclusiveMinimum" ∨ Off q c!"exclusiveMinimum")) {r : Rat} (hr : InRange a r)
    (hm : a.multipleOf ≠ 0 → MultipleOf a.multipleOf r) : Fits q r := by
  obtain ⟨b, hb, h1, h2, h3, h4, h5⟩ := facts_of h
  refine fits_of hb hf ?_ (by rw [h5]; exact hm)
  unfold InRange AboveMin BelowMax at hr ⊢
  rw [h1, h2, h3, h4]; exact hr

theorem limits_range {q : Dict Str Tree} {a : Node} (h : Limits q a)
    (hf : (On q c!"exclusiveMaximum" ∨ Off q c!"exclusiveMaximum") ∧
      (On q c!"exclusiveMinimum" ∨ Off q c!"exclusiveMinimum")) {r : Rat} (hr : Fits q r) :
    InRange a r ∧ (a.multipleOf ≠ 0 → MultipleOf a.multipleOf r) := by
  obtain ⟨b, hb, h1, h2, h3, h4, h5⟩ := facts_of h
  obtain ⟨h6, h7⟩ := of_fits hb hf hr
  refine ⟨?_, by rw [h5] at h7; exact h7⟩
  unfold InRange AboveMin BelowMax at h6 ⊢
  rw [h1, h2, h3, h4] at h6; exact h6

theorem format_collects {q : Dict Str Tree} {a : Node} {f : Str} (h : Collection q a.collectionFormat)
    (hc : Collects q f) : C35.formatOf a = f := by
  unfold C35.formatOf
  unfold Collection at h
  rcases hc with ⟨hc, rfl⟩ | hc <;> rw [hc] at h <;> rw [h] <;> rfl

/-- without elements there is no array -/
theorem convert_given' {n id i it : Nat} {v : Val} {read : Bool} (hd : env.deref id = .ok i)
    (ht : Typed env i .array) (hit : (env.node i).items = some it) (hu : (env.node i).uniqueItems = false)
    (hv : effective env id v ≠ .none) {x : Prim ω} (h : convert env (n + 1) id v read = .ok x) :
    ∃ es, C35.given (separator (C35.formatOf (env.node i))) (effective env id v) = some es := by
  rw [convert_step _ n id i v read hd hv, first_typed _ _ i _ _ ht.1 ht.2] at h
  cases he : effective env id v with
  | list l => exact ⟨l, rfl⟩
  | str s =>
    cases hs : separator (C35.formatOf (env.node i)) with
    | some c => exact ⟨_, rfl⟩
    | none =>
      rw [he] at h
      unfold C35.formatOf at hs
      simp [create, arrayApply, splitText, hs, bind, Except.bind] at h
  | dict d => exact ⟨_, rfl⟩
  | _ =>
    rw [he] at h
    simp [create, arrayApply, splitText, dedup, hu, extend, hit, elems, bind, Except.bind] at h

theorem limits {n : Nat} {q : Dict Str Tree} (h : Described env n q) : Limits q (env.node n) := by
  cases h with
  | plain h _ _ => exact h
  | array h _ _ _ _ => exact h

/-- what a conversion gives -/
theorem converted (hreg : env.reg = builtins) (hder : ∀ n, (env.node n).isSchema = false → env.deref n = .ok n)
    (hS : Within S) {fuel n : Nat} {q : Dict Str Tree} {v : Val} {read : Bool} {x : Prim ω} (hd : Described env n q)
    (hq : S q) (h : convert env fuel n v read = .ok x) : Made env q x := by
  induction fuel generalizing n q v read x with
  | zero => cases h
  | succ fuel ih =>
  have hl := limits hd
  by_cases heff : effective env n v = .none
  · rw [convert_none env fuel n v read heff] at h
    cases h
    exact .none
  have hi := hder n hl.isSchema
  have hsim := hS.simple q hq
  have htype := text_eq hl.type
  have hformat := text_eq hl.format
  have zero : numberAt q c!"multipleOf" = none → (env.node n).multipleOf = 0 := by
    intro hmul
    obtain ⟨y, h1, h2⟩ := hl.multipleOf
    rw [number_eq h1, hmul] at h2; exact h2
  cases hsim.plainly with
  | integer ht he hmul =>
    obtain ⟨k, rfl, hr⟩ := convert_int hi (typed hreg (by decide) (htype.trans ht) rfl (get_integer _)) hl.allOf heff h
    exact .integer ht (limits_fits hl hsim.exclusive hr (fun h => absurd (zero hmul) h)) (.inl he)
  | number ht he hmul =>
    by_cases hf : textAt q c!"format" = some c!"int32" ∨ textAt q c!"format" = some c!"int64"
    · obtain ⟨k, rfl, hr⟩ := convert_int hi (typed hreg (by decide) (htype.trans ht) hformat
        ((get_number _).trans (by rw [if_pos hf]))) hl.allOf heff h
      exact .whole ht (limits_fits hl hsim.exclusive hr (fun h => absurd (zero (hmul hf)) h)) (.inl he)
    · obtain ⟨y, rfl, hr⟩ := convert_float hi (typed hreg (by decide) (htype.trans ht) hformat
        ((get_number _).trans (by rw [if_neg hf]))) hl.allOf heff h
      cases y with
      | fin r =>
        obtain ⟨h1, h2⟩ := hr r rfl
        exact .number ht (limits_fits hl hsim.exclusive h1 h2) (.inl he)
      | _ => exact .odd ht (by simp)
  | boolean ht he =>
    rw [convert_bool hi (typed hreg (by decide) (htype.trans ht) rfl (get_boolean _)) hl.allOf heff] at h
    cases h
    exact .boolean ht (.inl he)
  | string ht hf hmax =>
    have hfree : ∀ f, textAt q c!"format" = some f → f ∉ made.map Prod.fst := by
      intro f h1 h3
      obtain ⟨⟨g, k⟩, h4, rfl⟩ := List.mem_map.1 h3
      have := hf _ h1
      rw [built_iff.2 ⟨k, h4⟩] at this; cases this
    have key : ∃ s, x = .str s ∧ C34.Conforms (env.node n) s ∧
        (textAt q c!"format" = some c!"email" → env.validEmail s = true) := by
      by_cases hem : textAt q c!"format" = some c!"email"
      · obtain ⟨s, h1, h2, h3⟩ := convert_email hi (typed hreg (by decide) (htype.trans ht) hformat
          ((get_string hf).trans (by rw [if_pos hem]))) hl.allOf heff h
        exact ⟨s, h1, h2, fun _ => h3⟩
      · obtain ⟨s, h1, h2⟩ := convert_str hi (typed hreg (by decide) (htype.trans ht) hformat
          ((get_string hf).trans (by rw [if_neg hem]))) hl.allOf heff h
        exact ⟨s, h1, h2, fun e => absurd e hem⟩
    obtain ⟨s, rfl, hc, hfs⟩ := key
    exact .string ht ((allowed_iff (enum_is hl.enum) (hS.values q hq) s).2 hc.enum)
      (sized_of hl.minLength hl.maxLength hmax hc.min hc.max) hfree hfs
  | @built f ht hf hbu he hmax hmin =>
    obtain ⟨k, hk⟩ := built_iff.1 hbu
    rw [convert_atom hi (typed hreg (by decide) (htype.trans ht) (hformat.trans hf) (get_built hk)) hl.allOf heff] at h
    cases hat : env.atom k n (effective env n v) with
    | error e => rw [hat] at h; cases h
    | ok y =>
      rw [hat] at h
      cases h
      exact .atom ht hf hk hat he hmin hmax
  | @array it ht hit he hu hmax =>
    obtain ⟨m, hm1, hm2⟩ : ∃ m, (env.node n).items = some m ∧ Described env m it := by
      cases hd with
      | plain _ h2 _ => rcases h2 with h2 | h2 <;> rw [h2] at hit <;> cases hit
      | array _ h2 h3 _ h5 => rw [h2] at hit; cases hit; exact ⟨_, h3, h5⟩
    have hty : Typed env n .array := typed hreg (by decide) (htype.trans ht) rfl (get_array _)
    have hun := switch_off hl.uniqueItems hu
    obtain ⟨es, hes⟩ := convert_given' hi hty hm1 hun heff h
    obtain ⟨xs, rfl, hall, hlim⟩ := ((C35.C35_array env fuel n n m v read es es hi hty hl.allOf hm1 hes
      (by rw [hun]; rfl)).1 x).1 h
    obtain ⟨f, hf⟩ := hS.collects q hq
    rw [format_collects hl.collectionFormat hf]
    rw [hall.length_eq] at hlim
    refine .array ht hit ?_ (sized_of hl.minItems hl.maxItems hmax hlim.min hlim.max) hu he hf
    have hit' := hS.items q it hq hit
    clear hlim hes h heff
    induction hall with
    | nil => intro x hx; cases hx
    | cons h1 _ ih2 =>
      intro x hx
      rcases List.mem_cons.1 hx with rfl | hx
      · exact ih hm2 hit' h1
      · exact ih2 x hx
  | object ht =>
    obtain ⟨t, h1, h2⟩ := hS.typed q hq
    rcases ht with ht | ⟨ht, -⟩
    · rw [h1] at ht; cases ht; exact absurd rfl h2
    · rw [h1] at ht; cases ht

end Proofs.Wire
