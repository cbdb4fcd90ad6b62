import Verif.Model.Prim
import Verif.Proofs.Dict
/-!
# C40: the primitive registry falls back to the type's default format

A history is a list of registrations, the most recent last, on top of an initial map.
-/

namespace Props.C40
open Py Prim Utils

variable {α : Type}

/-- a registration: type, format, handler -/
structure Event (α : Type) where
  type : Str
  format : Option Str
  handler : α

/-- the registry after a history -/
def after (m : Registry α) (es : List (Event α)) : Registry α :=
  es.foldl (fun m e => m.register e.type e.format e.handler) m

/-- the handler the initial map has for a pair -/
def initial (m : Registry α) (t : Str) (f : Option Str) : Option α :=
  (Dict.get? m t).bind (Dict.get? · f)

/-- the last handler registered for a pair -/
def last (es : List (Event α)) (t : Str) (f : Option Str) : Option α :=
  ((es.filter fun e => e.type = t ∧ e.format = f).getLast?).map Event.handler

/-- the handler in force for exactly the pair -/
def inForce (m : Registry α) (es : List (Event α)) (t : Str) (f : Option Str) : Option α :=
  (last es t f).or (initial m t f)

/-- the type occurs in the initial map or in the history -/
def Known (m : Registry α) (es : List (Event α)) (t : Str) : Prop :=
  t ∈ Dict.keys m ∨ ∃ e ∈ es, e.type = t

theorem initial_register (m : Registry α) (a : Str) (g : Option Str) (h : α) (t : Str) (f : Option Str) :
    initial (m.register a g h) t f = if t = a ∧ f = g then some h else initial m t f := by
  simp only [initial, Registry.register, Dict.get?_set]
  by_cases ht : t = a
  · rw [if_pos ht, Option.bind_some, Dict.get?_set]
    subst ht
    by_cases hf : f = g
    · rw [if_pos hf, if_pos ⟨rfl, hf⟩]
    · rw [if_neg hf, if_neg (fun h => hf h.2)]
      cases Dict.get? m t <;> rfl
  · rw [if_neg ht, if_neg (fun h => ht h.1)]

theorem last_snoc (es : List (Event α)) (e : Event α) (t : Str) (f : Option Str) :
    last (es ++ [e]) t f = if t = e.type ∧ f = e.format then some e.handler else last es t f := by
  simp only [last, List.filter_append, List.filter_cons, List.filter_nil]
  by_cases h : t = e.type ∧ f = e.format
  · obtain ⟨rfl, rfl⟩ := h
    simp
  · have : ¬ (e.type = t ∧ e.format = f) := fun h' => h ⟨h'.1.symm, h'.2.symm⟩
    simp [this, h]

theorem snoc_ind {P : List (Event α) → Prop} (h0 : P []) (h1 : ∀ es e, P es → P (es ++ [e])) :
    ∀ es, P es := by
  intro es
  rw [← List.reverse_reverse es]
  induction es.reverse with
  | nil => exact h0
  | cons e l ih => rw [List.reverse_cons]; exact h1 _ _ ih

theorem after_snoc (m : Registry α) (es : List (Event α)) (e : Event α) :
    after m (es ++ [e]) = (after m es).register e.type e.format e.handler := by
  simp [after, List.foldl_append]

theorem initial_after (m : Registry α) (es : List (Event α)) (t : Str) (f : Option Str) :
    initial (after m es) t f = inForce m es t f := by
  induction es using snoc_ind with
  | h0 => rfl
  | h1 es e ih =>
    rw [after_snoc, initial_register, ih]
    simp only [inForce, last_snoc]
    split <;> rfl

/-- **Is primitive**: something is registered for the type. -/
theorem C40_is_primitive (m : Registry α) (es : List (Event α)) (t : Str) :
    (after m es).isPrimitive t = true ↔ Known m es t := by
  rw [Registry.isPrimitive, Dict.has_iff]
  induction es using snoc_ind with
  | h0 => simp [after, Known]
  | h1 es e ih =>
    rw [after_snoc, Registry.register, Dict.mem_keys_set, ih]
    simp only [Known, List.mem_append, List.mem_singleton]
    constructor
    · rintro (rfl | h | ⟨e', h, rfl⟩)
      · exact Or.inr ⟨e, Or.inr rfl, rfl⟩
      · exact Or.inl h
      · exact Or.inr ⟨e', Or.inl h, rfl⟩
    · rintro (h | ⟨e', h | rfl, rfl⟩)
      · exact Or.inr (Or.inl h)
      · exact Or.inr (Or.inr ⟨e', h, rfl⟩)
      · exact Or.inl rfl

theorem get_eq (m : Registry α) (t : Str) (f : Option Str) :
    m.get (some t) f =
      match (initial m t f).or (initial m t none) with
      | some h => .handler h
      | none => if Dict.has m t then .unpackable else .nothing := by
  unfold Registry.get initial
  rw [Option.bind_some]
  cases hg : Dict.get? m t with
  | none => simp [Dict.has, hg]
  | some r =>
    simp only [Option.bind_some, Dict.has, hg]
    cases Dict.get? r f with
    | some h => rfl
    | none => cases Dict.get? r none <;> rfl

/-- **Lookup**: the handler of the pair, else that of the type without format, else none. -/
theorem C40_get (m : Registry α) (es : List (Event α)) (t : Str) (f : Option Str) (h : α) :
    (after m es).get (some t) f = .handler h ↔
      inForce m es t f = some h ∨ inForce m es t f = none ∧ inForce m es t none = some h := by
  rw [get_eq, initial_after, initial_after]
  cases inForce m es t f with
  | some x => simp
  | none =>
    cases inForce m es t none with
    | some y => simp
    | none =>
      simp only [Option.or_none, reduceCtorEq, and_false, or_self, iff_false]
      cases Dict.has (after m es) t <;> simp

/-- **No handler**: of a type that is not registered at all, `get` gives the pair of `None`s. -/
theorem C40_none (m : Registry α) (es : List (Event α)) (t : Str) (f : Option Str) :
    (after m es).get (some t) f = .nothing ↔ ¬ Known m es t := by
  rw [← C40_is_primitive, get_eq, Registry.isPrimitive]
  have key : (initial (after m es) t f).or (initial (after m es) t none) ≠ none →
      Dict.has (after m es) t = true := by
    intro h
    cases hg : Dict.get? (after m es) t with
    | none => simp [initial, hg] at h
    | some r => simp [Dict.has, hg]
  cases hx : (initial (after m es) t f).or (initial (after m es) t none) with
  | some x =>
    have := key (by simp [hx])
    simp [this]
  | none => cases Dict.has (after m es) t <;> simp

/-- With a default format for every type, `get` never fails to be unpacked. -/
theorem C40_total (m : Registry α) (es : List (Event α)) (t : Str) (f : Option Str)
    (h : inForce m es t none ≠ none) : ∃ x, (after m es).get (some t) f = .handler x := by
  obtain ⟨y, hy⟩ := Option.ne_none_iff_exists'.1 h
  cases hf : inForce m es t f with
  | some x => exact ⟨x, (C40_get ..).2 (Or.inl hf)⟩
  | none => exact ⟨y, (C40_get ..).2 (Or.inr ⟨hf, hy⟩)⟩

/-- **Conversion** of a value with a type that is not registered raises `ValueError`. -/
theorem C40_value_error {ω : Type} (env : Env ω) (es : List (Event Handler)) (m : Registry Handler)
    (hreg : env.reg = after m es) (fuel id : Nat) (v : Val) (read : Bool) (hv : v ≠ .none)
    (hd : env.deref id = .ok id) (t : Str) (ht : (env.node id).type = some t) (hne : t ≠ [])
    (hu : ¬ Known m es t) : convert env (fuel + 1) id v read = .error .ValueError := by
  have hg := (C40_none m es t (env.node id).format).2 hu
  have hp : produce env (fuel + 1) = produceBody env (produce env fuel) := rfl
  simp only [convert, hp, produceBody, if_neg hv, hd, CycleGuard.update, List.not_mem_nil, first, ht]
  rw [← hreg] at hg
  simp [hg, hne]

/-- **Not always `ValueError`**: a type registered only with a format makes the conversion of
another format raise `TypeError`. -/
theorem C40_no_default_false :
    ∃ (es : List (Event Handler)) (env : Env Unit) (v : Val),
      env.reg = after builtins es ∧ inForce builtins es c!"money" none = none ∧
      (env.node 0).type = some c!"money" ∧
      ∀ fuel, convert env (fuel + 1) 0 v true = .error .TypeError := by
  refine ⟨[⟨c!"money", some c!"eur", .float⟩],
    { node := fun _ => { type := some c!"money", format := some c!"usd" }, deref := fun i => .ok i,
      reg := after builtins [⟨c!"money", some c!"eur", .float⟩], toInt := fun _ => .error .ValueError,
      toFloat := fun _ => .error .ValueError, toStr := fun _ => [], toBool := fun _ => true,
      validEmail := fun _ => true, eq := fun _ _ => true, atom := fun _ _ _ => .ok (),
      mismatch := fun _ _ _ => .ok (), order := id }, .int 5, rfl, by decide, rfl, ?_⟩
  intro fuel
  rfl

/-! ## The table shipped -/

/-- The handler the shipped table should have for a type and a format, read off the table of data
types of the Swagger 2.0 specification; unknown formats are those of the type. -/
def shipped (t : Str) (f : Option Str) : Option Handler :=
  if t = c!"integer" then some .int
  else if t = c!"number" then
    some (if f = some c!"int32" ∨ f = some c!"int64" then .int else .float)
  else if t = c!"string" then
    some (if f = some c!"email" then .email
      else if f = some c!"uuid" then .atom .uuid
      else if f = some c!"byte" ∨ f = some c!"binary" then .atom .byte
      else if f = some c!"date" then .atom .date
      else if f = some c!"date-time" then .atom .datetime
      else .str)
  else if t = c!"boolean" then some .bool
  else if t = c!"file" then some (.atom .file)
  else if t = c!"array" then some .array
  else if t = c!"object" then some .model
  else none

/-- a row of the table, with its default -/
def row (r : Dict (Option Str) Handler) (d : Handler) (f : Option Str) : Found Handler :=
  match Dict.get? r f with
  | some h => .handler h
  | none => .handler d

theorem get_row (m : Registry Handler) (t : Str) (r : Dict (Option Str) Handler) (d : Handler)
    (f : Option Str) (hr : Dict.get? m t = some r) (hd : Dict.get? r none = some d) :
    m.get (some t) f = row r d f := by
  unfold Registry.get row
  simp only [Option.bind_some, hr, hd]
  cases Dict.get? r f <;> rfl

/-- **The shipped table**, for every type and format. -/
theorem C40_shipped (t : Str) (f : Option Str) :
    builtins.get (some t) f =
      match shipped t f with
      | some h => .handler h
      | none => .nothing := by
  by_cases h1 : t = c!"integer"
  · subst h1
    rw [get_row _ _ [(some c!"int32", .int), (some c!"int64", .int), (none, .int)] Handler.int f rfl rfl]
    simp only [row, Dict.get?, shipped]
    grind
  by_cases h2 : t = c!"number"
  · subst h2
    rw [get_row _ _ [(some c!"float", .float), (some c!"double", .float), (some c!"int32", .int),
      (some c!"int64", .int), (none, .float)] Handler.float f rfl rfl]
    simp only [row, Dict.get?, shipped, if_neg h1]
    grind
  by_cases h3 : t = c!"string"
  · subst h3
    rw [get_row _ _ [(some c!"", .str), (none, .str), (some c!"email", .email),
      (some c!"uuid", .atom .uuid), (some c!"password", .str), (some c!"byte", .atom .byte),
      (some c!"binary", .atom .byte), (some c!"date", .atom .date),
      (some c!"date-time", .atom .datetime)] Handler.str f rfl rfl]
    simp only [row, Dict.get?, shipped, if_neg h1, if_neg h2, if_pos]
    by_cases g1 : f = some c!"email"
    · subst g1; rfl
    by_cases g2 : f = some c!"uuid"
    · subst g2; rfl
    by_cases g3 : f = some c!"byte"
    · subst g3; rfl
    by_cases g4 : f = some c!"binary"
    · subst g4; rfl
    by_cases g5 : f = some c!"date"
    · subst g5; rfl
    by_cases g6 : f = some c!"date-time"
    · subst g6; rfl
    by_cases g7 : f = some c!""
    · subst g7; rfl
    by_cases g8 : f = none
    · subst g8; rfl
    by_cases g9 : f = some c!"password"
    · subst g9; rfl
    simp only [eq_comm (b := f), g1, g2, g3, g4, g5, g6, g7, g8, g9, if_false, or_self]
  by_cases h4 : t = c!"boolean"
  · subst h4
    rw [get_row _ _ [(some c!"", .bool), (none, .bool)] Handler.bool f rfl rfl]
    simp only [row, Dict.get?, shipped]
    grind
  by_cases h5 : t = c!"file"
  · subst h5
    rw [get_row _ _ [(some c!"", .atom .file), (none, .atom .file)] (.atom .file) f rfl rfl]
    simp only [row, Dict.get?, shipped]
    grind
  by_cases h6 : t = c!"array"
  · subst h6
    rw [get_row _ _ [(some c!"", .array), (none, .array)] .array f rfl rfl]
    simp only [row, Dict.get?, shipped]
    grind
  by_cases h7 : t = c!"object"
  · subst h7
    rw [get_row _ _ [(some c!"", .model), (none, .model)] .model f rfl rfl]
    simp only [row, Dict.get?, shipped]
    grind
  simp only [Registry.get, builtins, Option.bind_some, Dict.get?, shipped, eq_comm (b := t), h1, h2, h3,
    h4, h5, h6, h7, if_false]

/-- **Registering** for one pair changes what `get` gives for that pair, and for the pairs of the
type that have no handler of their own when the format is the default one; nothing else. -/
theorem C40_frame (m : Registry α) (a : Str) (g : Option Str) (h : α) (t : Str) (f : Option Str)
    (ht : t ≠ a ∨ f ≠ g ∧ initial m t f ≠ none ∨ f ≠ g ∧ g ≠ none ∧ Dict.has m a = true) :
    (m.register a g h).get (some t) f = m.get (some t) f := by
  have hh : Dict.has (m.register a g h) t = true ↔ t = a ∨ Dict.has m t = true := by
    rw [Dict.has_iff, Dict.has_iff, Registry.register, Dict.mem_keys_set]
  rw [get_eq, get_eq, initial_register, initial_register]
  rcases ht with ht | ⟨hf, hi⟩ | ⟨hf, hg, hm⟩
  · rw [if_neg (fun e => ht e.1), if_neg (fun e => ht e.1)]
    have : Dict.has (m.register a g h) t = Dict.has m t := by
      rw [Bool.eq_iff_iff, hh]; simp [ht]
    rw [this]
  · obtain ⟨x, hx⟩ := Option.ne_none_iff_exists'.1 hi
    rw [if_neg (fun e => hf e.2), hx]
    rfl
  · rw [if_neg (fun e => hf e.2), if_neg (fun e => hg e.2.symm)]
    have : Dict.has (m.register a g h) t = Dict.has m t := by
      rw [Bool.eq_iff_iff, hh]
      constructor
      · rintro (rfl | h)
        · exact hm
        · exact h
      · exact Or.inr
    rw [this]

example : (after builtins [⟨c!"string", some c!"date", Handler.str⟩,
    ⟨c!"string", none, .email⟩]).get (some c!"string") (some c!"xyz") = .handler .email := by rfl
example : (after builtins [⟨c!"string", some c!"date", Handler.str⟩]).get (some c!"string")
    (some c!"date") = .handler .str := by rfl
example : ¬ Known builtins [⟨c!"money", none, Handler.str⟩] c!"gold" := by
  rw [← C40_is_primitive]; decide

end Props.C40
