import Verif.Proofs.Conform
import Verif.Proofs.PrimParts
/-!
# C79: a JSON body that is sent conforms to the schema of the document

`Spec/Conform.lean` says what it takes for a JSON value to conform to a schema written in a document. C78 relates the
document to the objects of a conversion, C33-C36 say what a conversion does with them, C70 what is sent.
-/

namespace Props.C79
open Py Tree Prim Spec Spec.Described Spec.SchemaDoc Spec.Conform Proofs.Conform Props.C78

variable {ω : Type} {env : Env ω} {B : Nat → Dict Str Tree → Prop} {look : Str → Option (Dict Str Tree)}
  {S : Dict Str Tree → Prop} {form : Str → Str → Prop} {N : Prop} {toJson : AtomKind → ω → Except Exc Str}

/-- the objects built for formats -/
def made : List (Str × AtomKind) :=
  [(c!"uuid", .uuid), (c!"byte", .byte), (c!"binary", .byte), (c!"date", .date), (c!"date-time", .datetime)]

/-- the texts written for the objects of a format are of the format, e-mail addresses are checked; other formats are
not known to the library and demand nothing -/
structure Forms (env : Env ω) (toJson : AtomKind → ω → Except Exc Str) (form : Str → Str → Prop) : Prop where
  email : ∀ s, env.validEmail s = true → form c!"email" s
  object : ∀ f k, (f, k) ∈ made → ∀ i v x s, env.atom k i v = .ok x → toJson k x = .ok s → form f s
  unknown : ∀ f s, f ≠ c!"email" → f ∉ made.map Prod.fst → form f s

/-- The objects of a conversion are those of a document (C78): `B n q` says that the object `n` is read from the dict `q`,
or is a copy of such an object. The schemas `S` of the document are within reach. -/
structure Setting (env : Env ω) (B : Nat → Dict Str Tree → Prop) (look : Str → Option (Dict Str Tree))
    (S : Dict Str Tree → Prop) : Prop where
  tells : ∀ {n q}, B n q → Says env look B n q
  leads : ∀ {n q}, B n q → (∀ i, env.deref n = .ok i → ∃ d, Leads look q d ∧ B i d) ∧
    ∀ d, Leads look q d → ∃ i, env.deref n = .ok i ∧ B i d
  closed : Closed look S
  handlers : env.reg = builtins
  order : ∀ l, (env.order l).Perm l
  distinct : ∀ n, Dict.WF (env.node n).properties
  values : ∀ q, S q → ∀ t ∈ listAt q c!"enum", ∀ c fs, t ≠ .obj c fs
  /-- a schema with a discriminator, of its own or in a part, has a name -/
  names : ∀ n q e k, S q → refAt q = none → B n q → Member look q e →
    textAt e c!"discriminator" = some k → ∃ s, (env.node n).name = some (some s)

/-- the setting with every object that was read from a dict or is a copy of one -/
structure Read (env : Env ω) (ref : Nat → Option Nat) (W : MergeRefs.World) (look : Str → Option (Dict Str Tree))
    (S : Dict Str Tree → Prop) : Prop where
  derefs : Schemas.Derefs env ref
  known : Known env ref W look
  closed : Closed look S
  handlers : env.reg = builtins
  order : ∀ l, (env.order l).Perm l
  distinct : ∀ n, Dict.WF (env.node n).properties
  values : ∀ q, S q → ∀ t ∈ listAt q c!"enum", ∀ c fs, t ≠ .obj c fs
  names : ∀ n q e k, S q → refAt q = none → Belongs env ref W n q → Member look q e →
    textAt e c!"discriminator" = some k → ∃ s, (env.node n).name = some (some s)

theorem Read.setting {ref : Nat → Option Nat} {W : MergeRefs.World} (h : Read env ref W look S) :
    Setting env (Belongs env ref W) look S where
  tells hb := C78_schema h.derefs h.known hb
  leads hb := C78_references h.derefs h.known hb
  closed := h.closed
  handlers := h.handlers
  order := h.order
  distinct := h.distinct
  values := h.values
  names := h.names

theorem leads_S (hc : Closed look S) {q d : Dict Str Tree} (h : Leads look q d) (hq : S q) : S d ∧ refAt d = none := by
  induction h with
  | stop h => exact ⟨hq, h⟩
  | go h1 h2 _ ih => exact ih (hc.ref _ _ _ hq h1 h2)

/-- without discriminators no names are needed -/
theorem untagged (hc : Closed look S) (h : ∀ q, S q → textAt q c!"discriminator" = none) {q e : Dict Str Tree} {k : Str}
    (hS : S q) (hr : refAt q = none) (hm : Member look q e) : textAt e c!"discriminator" ≠ some k := by
  cases hm with
  | self => rw [h q hS]; simp
  | part h1 h2 => rw [h e (leads_S hc h2 (hc.part q _ hS hr h1)).1]; simp

theorem deref_ok {n id : Nat} {v : Val} {read : Bool} {x : Prim ω} (hv : effective env id v ≠ .none)
    (h : convert env n id v read = .ok x) : ∃ m i, n = m + 1 ∧ env.deref id = .ok i := by
  cases n with
  | zero => cases h
  | succ m =>
    cases hd : env.deref id with
    | ok i => exact ⟨m, i, rfl, rfl⟩
    | error e =>
      have hv' : (if v = .none then (env.node id).default else v) = effective env id v := rfl
      unfold convert produce produceBody at h
      simp only [hv', hv, if_false, hd] at h
      cases h

/-! ## handlers -/

theorem get_in {m : Registry Handler} {t : Str} {r : Dict (Option Str) Handler} {f : Option Str} {h : Handler}
    (h1 : Dict.get? m t = some r) (h2 : Dict.get? r f = some h ∨ Dict.get? r f = none ∧ Dict.get? r none = some h) :
    m.get (some t) f = .handler h := by
  unfold Registry.get
  rw [Option.bind_some, h1]
  rcases h2 with h2 | ⟨h2, h3⟩
  · simp only [h2]
  · simp only [h2, h3]

theorem get_integer (f : Option Str) : builtins.get (some c!"integer") f = .handler .int := by
  refine get_in (r := [(some c!"int32", .int), (some c!"int64", .int), (none, .int)]) rfl ?_
  cases f with
  | none => exact .inl rfl
  | some f =>
    by_cases h : c!"int32" = f
    · subst h; exact .inl rfl
    · by_cases h' : c!"int64" = f
      · subst h'; exact .inl rfl
      · exact .inr ⟨by simp [Dict.get?, h, h'], rfl⟩

theorem get_number (f : Option Str) : builtins.get (some c!"number") f =
    .handler (if f = some c!"int32" ∨ f = some c!"int64" then .int else .float) := by
  by_cases h1 : f = some c!"int32"
  · subst h1; rfl
  by_cases h2 : f = some c!"int64"
  · subst h2; rfl
  rw [if_neg (by simp [h1, h2])]
  by_cases h3 : f = some c!"float"
  · subst h3; rfl
  by_cases h4 : f = some c!"double"
  · subst h4; rfl
  refine get_in (r := [(some c!"float", .float), (some c!"double", .float), (some c!"int32", .int),
      (some c!"int64", .int), (none, .float)]) rfl ?_
  cases f with
  | none => exact .inl rfl
  | some f =>
    have e1 : ¬ c!"float" = f := fun e => h3 (by rw [e])
    have e2 : ¬ c!"double" = f := fun e => h4 (by rw [e])
    have e3 : ¬ c!"int32" = f := fun e => h1 (by rw [e])
    have e4 : ¬ c!"int64" = f := fun e => h2 (by rw [e])
    exact .inr ⟨by simp [Dict.get?, e1, e2, e3, e4], rfl⟩

theorem get_boolean (f : Option Str) : builtins.get (some c!"boolean") f = .handler .bool := by
  refine get_in (r := [(some c!"", .bool), (none, .bool)]) rfl ?_
  cases f with
  | none => exact .inl rfl
  | some f =>
    by_cases h : c!"" = f
    · subst h; exact .inl rfl
    · exact .inr ⟨by simp [Dict.get?, h], rfl⟩

theorem get_array (f : Option Str) : builtins.get (some c!"array") f = .handler .array := by
  refine get_in (r := [(some c!"", .array), (none, .array)]) rfl ?_
  cases f with
  | none => exact .inl rfl
  | some f =>
    by_cases h : c!"" = f
    · subst h; exact .inl rfl
    · exact .inr ⟨by simp [Dict.get?, h], rfl⟩

theorem get_object (f : Option Str) : builtins.get (some c!"object") f = .handler .model := by
  refine get_in (r := [(some c!"", .model), (none, .model)]) rfl ?_
  cases f with
  | none => exact .inl rfl
  | some f =>
    by_cases h : c!"" = f
    · subst h; exact .inl rfl
    · exact .inr ⟨by simp [Dict.get?, h], rfl⟩

theorem get_built {f : Str} {k : AtomKind} (h : (f, k) ∈ made) :
    builtins.get (some c!"string") (some f) = .handler (.atom k) := by
  simp only [made, List.mem_cons, List.not_mem_nil, or_false, Prod.mk.injEq] at h
  rcases h with ⟨rfl, rfl⟩ | ⟨rfl, rfl⟩ | ⟨rfl, rfl⟩ | ⟨rfl, rfl⟩ | ⟨rfl, rfl⟩ <;> rfl

theorem built_iff {f : Str} : built f = true ↔ ∃ k, (f, k) ∈ made := by
  simp only [built, made, Bool.or_eq_true, decide_eq_true_eq, List.mem_cons, List.not_mem_nil, or_false, Prod.mk.injEq]
  constructor
  · rintro ((((h | h) | h) | h) | h) <;> simp [h]
  · rintro ⟨k, h⟩
    rcases h with ⟨h, -⟩ | ⟨h, -⟩ | ⟨h, -⟩ | ⟨h, -⟩ | ⟨h, -⟩ <;> simp [h]

theorem get_string {f : Option Str} (h : ∀ g, f = some g → built g = false) :
    builtins.get (some c!"string") f = .handler (if f = some c!"email" then .email else .str) := by
  cases f with
  | none => rfl
  | some f =>
    have hb := h f rfl
    simp only [built, Bool.or_eq_false_iff, decide_eq_false_iff_not] at hb
    obtain ⟨⟨⟨⟨h1, h2⟩, h3⟩, h4⟩, h5⟩ := hb
    by_cases he : f = c!"email"
    · subst he; rfl
    · rw [if_neg (by simpa using he)]
      refine get_in (r := [(some c!"", Handler.str), (none, .str), (some c!"email", .email),
        (some c!"uuid", .atom .uuid), (some c!"password", .str), (some c!"byte", .atom .byte),
        (some c!"binary", .atom .byte), (some c!"date", .atom .date), (some c!"date-time", .atom .datetime)]) rfl ?_
      by_cases h6 : c!"" = f
      · subst h6; exact .inl rfl
      · by_cases h7 : c!"password" = f
        · subst h7; exact .inl rfl
        · exact .inr ⟨by simp [Dict.get?, h6, h7, Ne.symm h1, Ne.symm h2, Ne.symm h3, Ne.symm h4, Ne.symm h5,
            Ne.symm he], rfl⟩

theorem typed {n : Nat} {t : Str} {f : Option Str} {h : Handler} (hb : env.reg = builtins) (hne : t ≠ [])
    (ht : (env.node n).type = some t) (hf : (env.node n).format = f)
    (hg : builtins.get (some t) f = .handler h) : Typed env n h :=
  ⟨by rw [ht]; simp [hne], by rw [hb, ht, hf]; exact hg⟩

theorem sized_of {d : Dict Str Tree} {lo hi : Str} {a b : Option Nat} {k : Nat} (h1 : Length d lo a) (h2 : Length d hi b)
    (h0 : lengthAt d hi ≠ some 0) (hmin : ∀ m, a = some m → m ≤ k) (hmax : ∀ m, b = some m → m ≠ 0 → k ≤ m) :
    Sized d lo hi k := by
  rw [length_eq h1] at hmin
  rw [length_eq h2] at hmax
  exact ⟨hmin, fun m hm => hmax m hm (fun e => h0 (e ▸ hm))⟩

theorem allOf_nil {n : Nat} {d : Dict Str Tree} (hs : Says env look B n d)
    (h : listAt d c!"allOf" = []) : (env.node n).allOf = [] := by
  have := hs.parts
  rw [h] at this
  exact List.length_eq_zero_iff.1 this

theorem asModel {n : Nat} {d : Dict Str Tree} (hb : env.reg = builtins) (hs : Says env look B n d)
    (ht : textAt d c!"type" = some c!"object" ∨ textAt d c!"type" = none ∧
        (Dict.get? d c!"additionalProperties" ≠ some (.atom (.bool false)) ∨ ∃ k s, propertyAt d k = some (.dict s)))
    (hf : Further d) : C36.ReadAsModel env n := by
  refine ⟨hs.facts.isSchema, ?_⟩
  rcases ht with ht | ⟨ht, h⟩
  · exact .inl (typed hb (by decide) ((text_eq hs.facts.type).trans ht) rfl (get_object _))
  · refine .inr ⟨.inl ((text_eq hs.facts.type).trans ht), ?_⟩
    rcases h with h | ⟨k, s, h⟩
    · right
      cases hf with
      | nothing h => rw [hs.anyFurther h]; simp
      | @bool b h' =>
        rw [hs.further b h']
        cases b with
        | true => simp
        | false => exact absurd h' h
      | schema h => obtain ⟨m, h, -⟩ := hs.furtherSchema _ h; rw [h]; simp
    · left
      obtain ⟨m, h, -⟩ := hs.property k s h
      intro e; rw [e] at h; cases h

theorem left_of {α β : Type} {R : α → β → Prop} {a : List α} {b : List β} (h : List.Forall₂ R a b) :
    ∀ x ∈ a, ∃ y ∈ b, R x y := by
  induction h with
  | nil => intro _ h; cases h
  | cons h _ ih =>
    intro x hx
    rcases List.mem_cons.1 hx with rfl | hx
    · exact ⟨_, List.mem_cons_self .., h⟩
    · obtain ⟨y, h1, h2⟩ := ih x hx
      exact ⟨y, List.mem_cons_of_mem _ h1, h2⟩

theorem right_of {α β : Type} {R : α → β → Prop} {a : List α} {b : List β} (h : List.Forall₂ R a b) :
    ∀ y ∈ b, ∃ x ∈ a, R x y := left_of h.flip

/-- the plain facts of an object schema -/
theorem objectlike_plainly {d : Dict Str Tree} (h : Plainly d) (ho : Objectlike d) :
    (textAt d c!"type" = some c!"object" ∨ textAt d c!"type" = none ∧
      (Dict.get? d c!"additionalProperties" ≠ some (.atom (.bool false)) ∨ ∃ k s, propertyAt d k = some (.dict s))) ∧
    (∀ k t, propertyAt d k = some t → ∃ s, t = .dict s) ∧ Further d ∧ listAt d c!"enum" = [] := by
  unfold Objectlike at ho
  cases h with
  | object h1 h2 h3 h4 => exact ⟨h1, h2, h3, h4⟩
  | integer ht | number ht | boolean ht | string ht | built ht | array ht => rw [ht] at ho; exact absurd ho (by decide)

theorem property_of {n : Nat} {d : Dict Str Tree} (hs : Says env look B n d)
    (hps : ∀ k t, propertyAt d k = some t → ∃ s, t = .dict s) {k : Str} {p : Nat}
    (h : Dict.get? (env.node n).properties k = some p) : ∃ s, propertyAt d k = some (.dict s) ∧ B p s := by
  cases hp : propertyAt d k with
  | none => rw [hs.noProperty k hp] at h; cases h
  | some t =>
    obtain ⟨s, rfl⟩ := hps k t hp
    obtain ⟨m, h1, h2⟩ := hs.property k s hp
    rw [h] at h1; cases h1
    exact ⟨s, rfl, h2⟩

theorem anyText_conforms {q d : Dict Str Tree} (hl : Leads look q d) (h : AnyText d) (s : Str) :
    Conforms look form N q (.str s) := by
  refine .string hl h.type (.inl h.enum) ⟨fun m hm => ?_, fun m hm => ?_⟩ fun f hf => ?_
  · rw [h.lengths.1] at hm; cases hm
  · rw [h.lengths.2] at hm; cases hm
  · rw [h.format] at hf; cases hf

theorem tag_conforms (hset : Setting env B look S) {i : Nat} {d e : Dict Str Tree} {k : Str} {p : Prim ω} {u : Val}
    {s : Dict Str Tree} {nm : Option Str} (hb : B i d) (hS : S d) (hr : refAt d = none)
    (hm : Member look d e) (hSe : S e) (hre : refAt e = none) (ht : textAt e c!"discriminator" = some k)
    (hp : propertyAt e k = some (.dict s)) (hn : (env.node i).name = some nm) (hx : p = namePrim nm)
    (hj : C70.jsonOf toJson p = .ok u) : Conforms look form N s u := by
  obtain ⟨s', e', h1, h2, h3⟩ := hset.closed.tag e k hSe hre ht
  rw [hp] at h1; cases h1
  obtain ⟨t, h4⟩ := hset.names i d e k hS hr hb hm ht
  rw [hn] at h4; cases h4
  subst hx
  simp only [namePrim, C70.jsonOf, Except.ok.injEq] at hj
  subst hj
  exact anyText_conforms h2 h3 t

/-- what is known of a member of an object schema with parts, and its object -/
theorem member_facts (hset : Setting env B look S) {d : Dict Str Tree} (hS : S d) (hr : refAt d = none)
    (hne : listAt d c!"allOf" ≠ []) (ho : Objectlike d) {j : Nat} {e : Dict Str Tree} (hm : Member look d e)
    (hbe : B j e) : S e ∧ refAt e = none ∧ Objectlike e ∧
      Says env look B j e ∧ C36.ReadAsModel env j ∧ (env.node j).additional = .yes ∧
      (∀ k t, propertyAt e k = some t → ∃ s, t = .dict s) ∧ listAt e c!"enum" = [] := by
  have hcom := hset.closed.composed d hS hr hne
  have hse := hset.tells hbe
  obtain ⟨h1, h2, h3⟩ : S e ∧ refAt e = none ∧ Objectlike e := by
    cases hm with
    | self => exact ⟨hS, hr, ho⟩
    | part h1 h2 =>
      obtain ⟨h3, h4⟩ := leads_S hset.closed h2 (hset.closed.part d _ hS hr h1)
      exact ⟨h3, h4, (hcom.flat _ _ h1 h2).2⟩
  obtain ⟨p1, p2, p3, p4⟩ := objectlike_plainly (hset.closed.simple e h1 h2).plainly h3
  refine ⟨h1, h2, h3, hse, asModel hset.handlers hse p1 p3, ?_, p2, p4⟩
  rcases hcom.further e hm with h | h
  · exact hse.anyFurther h
  · exact hse.further true h

/-- the dicts of the parts -/
theorem part_dict (hset : Setting env B look S) {d : Dict Str Tree} {i : Nat} (hb : B i d) (hS : S d)
    (hr : refAt d = none) (hne : listAt d c!"allOf" ≠ []) {a : Nat} (ha : a ∈ (env.node i).allOf) :
    ∃ s, .dict s ∈ listAt d c!"allOf" ∧ B a s := by
  have hcom := hset.closed.composed d hS hr hne
  have hs := hset.tells hb
  obtain ⟨ix, hix⟩ := List.mem_iff_getElem?.1 ha
  have hlt : ix < (listAt d c!"allOf").length := by
    rw [← hs.parts]; exact (List.getElem?_eq_some_iff.1 hix).1
  obtain ⟨s, hts⟩ := hcom.dicts _ (List.getElem_mem hlt)
  have hgs : (listAt d c!"allOf")[ix]? = some (.dict s) := by rw [List.getElem?_eq_getElem hlt, hts]
  obtain ⟨m, h1, h2⟩ := hs.part ix s hgs
  rw [hix] at h1; cases h1
  exact ⟨s, List.mem_of_getElem? hgs, h2⟩

/-- the objects of the parts -/
theorem part_of (hset : Setting env B look S) {d : Dict Str Tree} {i : Nat} (hb : B i d) (hS : S d)
    (hr : refAt d = none) (hne : listAt d c!"allOf" ≠ []) {a j : Nat} (ha : a ∈ (env.node i).allOf)
    (hj : env.deref a = .ok j) : ∃ s e, .dict s ∈ listAt d c!"allOf" ∧ Leads look s e ∧ B j e := by
  obtain ⟨s, h1, h2⟩ := part_dict hset hb hS hr hne ha
  obtain ⟨e, h3, h4⟩ := (hset.leads h2).1 j hj
  exact ⟨s, e, h1, h3, h4⟩

/-- an object schema with parts: what is sent conforms to it and to every part -/
theorem composed_conforms (hset : Setting env B look S) (hdef : ∀ q, S q → Defaults N q) {fuel n i : Nat}
    {d : Dict Str Tree} {dv : List (Str × Val)} {read : Bool} {x : Prim ω} {w : Val}
    (ih : ∀ {n : Nat} {q : Dict Str Tree} {v : Val} {read : Bool} {x : Prim ω} {w : Val}, B n q → S q →
      Proper N v → convert env fuel n v read = .ok x → C70.jsonOf toJson x = .ok w → Spec.Json.nonfinite w = false →
      Conforms look form N q w)
    (hb : B i d) (hS : S d) (hr : refAt d = none) (hne : listAt d c!"allOf" ≠ []) (ho : Objectlike d)
    (hi : env.deref n = .ok i) (hprop : Proper N (.dict dv)) (h : convert env (fuel + 1) n (.dict dv) read = .ok x)
    (hj : C70.jsonOf toJson x = .ok w) (hfin : Spec.Json.nonfinite w = false) {q : Dict Str Tree} (hl : Leads look q d) :
    Conforms look form N q w := by
  have hcom := hset.closed.composed d hS hr hne
  have hs := hset.tells hb
  have hwf : Dict.WF dv := by rw [Proper] at hprop; exact hprop.1
  have facts : ∀ {j e}, Member look d e → B j e → _ := fun h => member_facts hset hS hr hne ho h
  have part : ∀ {a j : Nat}, a ∈ (env.node i).allOf → env.deref a = .ok j → _ := fun h => part_of hset hb hS hr hne h
  obtain ⟨f1, f2, f3, -, f5, f6, f7, f8⟩ := facts .self hb
  obtain ⟨m, ps, rfl, hps, hmade⟩ := convert_parts hi f5 hwf hs.named hset.order (by rw [f6]; simp) (fun a ha j haj => by
      obtain ⟨s, e, h1, h2, h3⟩ := part ha haj
      obtain ⟨g1, g2, -, g4, g5, g6, -, -⟩ := facts (.part h1 h2) h3
      exact ⟨by rw [g6]; simp, g5, allOf_nil g4 (hcom.flat s e h1 h2).1, g4.noRef g2⟩) (by
      rcases hcom.kept with ⟨k, s, h1, h2⟩ | ⟨t, h1⟩
      · obtain ⟨p, h3, -⟩ := hs.property k s h2
        exact .inl ⟨k, (hs.facts.required k).2 h1, by rw [h3]; simp⟩
      · have := hs.parts
        rw [h1] at this
        exact .inr (List.length_eq_one_iff.1 this)) h
  have member : ∀ {j}, j ∈ i :: ps → ∃ e, Member look d e ∧ B j e := by
    intro j hj
    rcases List.mem_cons.1 hj with rfl | hj
    · exact ⟨d, .self, hb⟩
    · obtain ⟨a, ha, haj⟩ := right_of hps j hj
      obtain ⟨s, e, h1, h2, h3⟩ := part ha haj
      exact ⟨e, .part h1 h2, h3⟩
  simp only [C70.jsonOf] at hj
  cases hjp : C70.jsonPairs toJson m with
  | error e => rw [hjp] at hj; cases hj
  | ok es =>
  rw [hjp] at hj
  cases hj
  obtain ⟨hk, hget⟩ := jsonPairs_get hjp
  have hfin' : Spec.Json.nonfinitePairs es = false := by simpa [Spec.Json.nonfinite] using hfin
  have each : ∀ {j e q}, j ∈ i :: ps → Member look d e → B j e → Leads look q e →
      (∀ s, .dict s ∈ listAt e c!"allOf" → Conforms look form N s (.dict es)) → Conforms look form N q (.dict es) := by
    intro j e q hjm hm hbe hle hparts
    obtain ⟨g1, g2, g3, g4, g5, g6, g7, g8⟩ := facts hm hbe
    refine .object hle g3 ?_ ?_ ?_ ?_ ?_ (.inl g8) hparts
    · show (es.map Prod.fst).Nodup
      rw [hk]; exact hmade.wf
    · intro k hreq
      have hmk := hmade.required j hjm k ((g4.facts.required k).2 hreq)
      cases hek : Dict.get? es k with
      | some u => exact ⟨u, rfl⟩
      | none =>
        obtain ⟨p, hp⟩ := Option.ne_none_iff_exists'.1 hmk
        refine absurd ?_ ((Dict.get?_eq_none_iff es k).1 hek)
        show k ∈ es.map Prod.fst
        rw [hk]
        exact List.mem_map_of_mem (f := Prod.fst) (Dict.mem_of_get? hp)
    · intro k u s hku hps'
      obtain ⟨p, hmp, hju⟩ := (hget k u).1 hku
      rcases hmade.entries k p hmp with (⟨j', hj', p', v, a1, a2, a3⟩ | ⟨j', hj', a1, nm, a2, a3⟩) | ⟨v, -, -, a3⟩
      · obtain ⟨e', he', hbe'⟩ := member hj'
        obtain ⟨b1, b2, -, b4, -, -, b7, -⟩ := facts he' hbe'
        obtain ⟨s', c1, c2⟩ := property_of b4 b7 a1
        have hss := hcom.alike e e' k _ _ hm he' hps' c1
        cases hss
        have hSs := hset.closed.property e k s g1 g2 hps'
        have hv : Proper N v := by
          rcases a2 with a2 | ⟨a2, rfl⟩
          · exact proper_get hprop a2
          · exact (default_proper (hset.tells c2).facts.default (hdef s hSs)).2 a2
        exact ih c2 hSs hv a3 hju (nonfinite_get hfin' hku)
      · obtain ⟨e', he', hbe'⟩ := member hj'
        obtain ⟨b1, b2, -, b4, -⟩ := facts he' hbe'
        have ht := (text_eq b4.facts.discriminator).symm.trans a1
        obtain ⟨s', _, c1, -⟩ := hset.closed.tag e' k b1 b2 ht
        have hss := hcom.alike e e' k _ _ hm he' hps' c1
        cases hss
        exact tag_conforms hset hb hS hr he' b1 b2 ht c1 a2 a3 hju
      · obtain ⟨p', h1, -⟩ := g4.property k s hps'
        rw [a3 j hjm] at h1; cases h1
    · intro k u s _ _ hadd
      rcases hcom.further e hm with h | h
      · rw [h] at hadd; cases hadd
      · unfold On at h; rw [h] at hadd; cases hadd
    · intro k u _ _ hadd
      rcases hcom.further e hm with h | h
      · rw [h] at hadd; cases hadd
      · unfold On at h; rw [h] at hadd; cases hadd
  refine each (by simp) .self hb hl fun s hsm => ?_
  obtain ⟨ix, hix⟩ := List.mem_iff_getElem?.1 hsm
  obtain ⟨a, h1, h2⟩ := hs.part ix s hix
  obtain ⟨j, hj, haj⟩ := left_of hps a (List.mem_of_getElem? h1)
  obtain ⟨e, h3, h4⟩ := (hset.leads h2).1 j haj
  refine each (List.mem_cons_of_mem _ hj) (.part hsm h3) h4 h3 fun s' hs' => ?_
  rw [(hcom.flat s e hsm h3).1] at hs'; cases hs'

theorem given_proper {cf : Option Char} {y : Val} {es : List Val} (hes : C35.given cf y = some es) (hprop : Proper N y) :
    ∀ u ∈ es, Proper N u := by
  intro u hu'
  cases y with
  | list l =>
    simp only [C35.given, Option.some.injEq] at hes
    subst hes
    rw [Proper] at hprop
    exact propers_iff.1 hprop u hu'
  | str s =>
    simp only [C35.given, Option.map_eq_some_iff] at hes
    obtain ⟨c, -, rfl⟩ := hes
    obtain ⟨p, -, rfl⟩ := List.mem_map.1 hu'
    simp [Proper]
  | dict l =>
    simp only [C35.given, Option.some.injEq] at hes
    subst hes
    obtain ⟨p, -, rfl⟩ := List.mem_map.1 hu'
    simp [Proper]
  | _ => simp [C35.given] at hes

/-- **C79.** The value of a body that is sent conforms to the schema of the document: whatever the argument (its dicts have
distinct keys), if it is converted, the JSON value of the result conforms. `N` decides if the argument and the
defaults in the document may hold nulls; without any, none is sent where a schema speaks. -/
theorem C79_conforms (hset : Setting env B look S) (hdef : ∀ q, S q → Defaults N q) (hform : Forms env toJson form)
    {fuel n : Nat} {q : Dict Str Tree} {v : Val} {read : Bool} {x : Prim ω} {w : Val} (hb : B n q)
    (hS : S q) (hv : Proper N v) (h : convert env fuel n v read = .ok x) (hj : C70.jsonOf toJson x = .ok w)
    (hfin : Spec.Json.nonfinite w = false) : Conforms look form N q w := by
  induction fuel generalizing n q v read x w with
  | zero => cases h
  | succ fuel ih =>
  have hs := hset.tells hb
  by_cases heff : effective env n v = .none
  · rw [convert_none env fuel n v read heff] at h
    cases h
    simp only [C70.jsonOf, Except.ok.injEq] at hj
    subst hj
    refine .null ?_
    unfold effective at heff
    by_cases hvn : v = .none
    · subst hvn; simpa [Proper] using hv
    · rw [if_neg hvn] at heff; exact absurd heff hvn
  obtain ⟨_, i, hm, hi⟩ := deref_ok heff h
  have hprop : Proper N (effective env n v) := by
    obtain ⟨d1, d2⟩ := default_proper hs.facts.default (hdef q hS)
    unfold effective at heff ⊢
    by_cases hvn : v = .none
    · rw [if_pos hvn] at heff ⊢
      cases hset' : (env.node n).defaultSet with
      | false => exact absurd (d1 hset') heff
      | true => exact d2 hset'
    · rw [if_neg hvn]; exact hv
  obtain ⟨d, hl, hbi⟩ := (hset.leads hb).1 i hi
  obtain ⟨hSd, hrd⟩ := leads_S hset.closed hl hS
  have hsi := hset.tells hbi
  have hsim := hset.closed.simple d hSd hrd
  have ha : ¬ Objectlike d → (env.node i).allOf = [] := fun hno => allOf_nil hsi (hsim.parts.resolve_right hno)
  have htype := text_eq hsi.facts.type
  have hformat := text_eq hsi.facts.format
  cases hsim.plainly with
  | integer ht he hmul =>
    replace ha := ha (by unfold Objectlike; rw [ht]; decide)
    obtain ⟨k, rfl, hr⟩ := convert_int hi (typed hset.handlers (by decide) (htype.trans ht) rfl (get_integer _)) ha heff h
    simp only [C70.jsonOf, Except.ok.injEq] at hj
    subst hj
    have h0 : (env.node i).multipleOf = 0 := by
      obtain ⟨y, h1, h2⟩ := hsi.facts.multipleOf
      rw [number_eq h1, hmul] at h2; exact h2
    exact .integer hl ht (fits_of hsi.facts hsim.exclusive hr (fun h => absurd h0 h)) (.inl he)
  | number ht he hmul =>
    replace ha := ha (by unfold Objectlike; rw [ht]; decide)
    by_cases hf : textAt d c!"format" = some c!"int32" ∨ textAt d c!"format" = some c!"int64"
    · obtain ⟨k, rfl, hr⟩ := convert_int hi (typed hset.handlers (by decide) (htype.trans ht) hformat
        ((get_number _).trans (by rw [if_pos hf]))) ha heff h
      simp only [C70.jsonOf, Except.ok.injEq] at hj
      subst hj
      have h0 : (env.node i).multipleOf = 0 := by
        obtain ⟨y, h1, h2⟩ := hsi.facts.multipleOf
        rw [number_eq h1, hmul hf] at h2; exact h2
      exact .number hl ht (.inr ⟨k, rfl, rfl⟩) (fits_of hsi.facts hsim.exclusive hr (fun h => absurd h0 h)) (.inl he)
    · obtain ⟨y, rfl, hr⟩ := convert_float hi (typed hset.handlers (by decide) (htype.trans ht) hformat
        ((get_number _).trans (by rw [if_neg hf]))) ha heff h
      simp only [C70.jsonOf, Except.ok.injEq] at hj
      subst hj
      cases y with
      | fin r =>
        obtain ⟨h1, h2⟩ := hr r rfl
        exact .number hl ht (.inl rfl) (fits_of hsi.facts hsim.exclusive h1 h2) (.inl he)
      | _ => cases hfin
  | boolean ht he =>
    replace ha := ha (by unfold Objectlike; rw [ht]; decide)
    rw [convert_bool hi (typed hset.handlers (by decide) (htype.trans ht) rfl (get_boolean _)) ha heff] at h
    cases h
    simp only [C70.jsonOf, Except.ok.injEq] at hj
    subst hj
    exact .boolean hl ht (.inl he)
  | string ht hf hmax =>
    replace ha := ha (by unfold Objectlike; rw [ht]; decide)
    have hfree : ∀ s f, textAt d c!"format" = some f → f ≠ c!"email" → form f s := by
      intro s f h1 h2
      refine hform.unknown f s h2 fun h3 => ?_
      obtain ⟨⟨g, k⟩, h4, rfl⟩ := List.mem_map.1 h3
      have := hf _ h1
      rw [built_iff.2 ⟨k, h4⟩] at this; cases this
    have key : ∃ s, x = .str s ∧ C34.Conforms (env.node i) s ∧ ∀ f, textAt d c!"format" = some f → form f s := by
      by_cases hem : textAt d c!"format" = some c!"email"
      · obtain ⟨s, h1, h2, h3⟩ := convert_email hi (typed hset.handlers (by decide) (htype.trans ht) hformat
          ((get_string hf).trans (by rw [if_pos hem]))) ha heff h
        refine ⟨s, h1, h2, fun f hf' => ?_⟩
        rw [hem] at hf'; cases hf'
        exact hform.email s h3
      · obtain ⟨s, h1, h2⟩ := convert_str hi (typed hset.handlers (by decide) (htype.trans ht) hformat
          ((get_string hf).trans (by rw [if_neg hem]))) ha heff h
        exact ⟨s, h1, h2, fun f hf' => hfree s f hf' fun e => hem (e ▸ hf')⟩
    obtain ⟨s, rfl, hc, hfs⟩ := key
    simp only [C70.jsonOf, Except.ok.injEq] at hj
    subst hj
    exact .string hl ht ((allowed_iff hsi.facts.enum (hset.values d hSd) s).2 hc.enum)
      (sized_of hsi.facts.minLength hsi.facts.maxLength hmax hc.min hc.max) hfs
  | @built f ht hf hbu he hmax hmin =>
    replace ha := ha (by unfold Objectlike; rw [ht]; decide)
    obtain ⟨k, hk⟩ := built_iff.1 hbu
    rw [convert_atom hi (typed hset.handlers (by decide) (htype.trans ht) (hformat.trans hf) (get_built hk)) ha heff] at h
    cases hat : env.atom k i (effective env n v) with
    | error e => rw [hat] at h; cases h
    | ok y =>
      rw [hat] at h
      cases h
      have hkf : k ≠ .file := by
        rintro rfl; revert hk; simp [made]
      have hj' : (toJson k y).map Val.str = .ok w := by
        cases k <;> first | exact hj | exact absurd rfl hkf
      cases hto : toJson k y with
      | error e => rw [hto] at hj'; cases hj'
      | ok s =>
        rw [hto] at hj'
        cases hj'
        refine .string hl ht (.inl he) ⟨fun m hm => ?_, fun m hm => ?_⟩ fun g hg => ?_
        · rw [hmin] at hm; cases hm
        · rw [hmax] at hm; cases hm
        · rw [hf] at hg; cases hg
          exact hform.object _ k hk i _ y s hat hto
  | @array it ht hit he hu hmax =>
    replace ha := ha (by unfold Objectlike; rw [ht]; decide)
    obtain ⟨m, hm1, hm2⟩ := hsi.items it hit
    have hty : Typed env i .array := typed hset.handlers (by decide) (htype.trans ht) rfl (get_array _)
    have hun := switch_off hsi.facts.uniqueItems hu
    obtain ⟨es, hes⟩ := convert_given hi hty hm1 hun hsi.facts.collectionFormat heff h
    obtain ⟨xs, rfl, hall, hlim⟩ := ((C35.C35_array env fuel n i m v read es es hi hty ha hm1 hes
      (by rw [hun]; rfl)).1 x).1 h
    simp only [C70.jsonOf] at hj
    cases hji : C70.jsonItems toJson xs with
    | error e => rw [hji] at hj; cases hj
    | ok ws =>
      rw [hji] at hj
      cases hj
      rw [jsonItems_forall] at hji
      have hproper := given_proper hes hprop
      have hfin' := nonfinite_items (l := ws) (by simpa [Spec.Json.nonfinite] using hfin)
      have hSi := hset.closed.items d it hSd hrd hit
      have hlen : es.length = ws.length := hall.length_eq.trans hji.length_eq
      refine .array hl ht hit ?_ (sized_of hsi.facts.minItems hsi.facts.maxItems hmax ?_ ?_) (fun hon => ?_) (.inl he)
      · clear hes hlim hfin hlen
        clear h
        induction hall generalizing ws with
        | nil => cases hji; intro _ h; cases h
        | @cons u y us ys hc _ ih2 =>
          cases hji with
          | @cons _ z _ zs hz hzs =>
            intro w' hw'
            rcases List.mem_cons.1 hw' with rfl | hw'
            · exact ih hm2 hSi (hproper u (by simp)) hc hz (hfin' _ (by simp))
            · exact ih2 zs hzs (fun u hu => hproper u (by simp [hu])) (fun v hv => hfin' v (by simp [hv])) w' hw'
      · rw [← hlen]; exact hlim.min
      · rw [← hlen]; exact hlim.max
      · exfalso
        unfold On at hon; unfold Off at hu
        rw [hon] at hu; simp at hu
  | object ht hps hfu he =>
    have hmod := asModel hset.handlers hsi ht hfu
    have hdict : ∃ dv, effective env n v = .dict dv := by
      apply Classical.byContradiction
      intro hno
      rw [C36.C36_not_object env fuel n i v read hi hmod heff fun dv e => hno ⟨dv, e⟩] at h
      cases h
    obtain ⟨dv, hdv⟩ := hdict
    rw [hdv] at hprop
    have hwf : Dict.WF dv := by rw [Proper] at hprop; exact hprop.1
    have hcv : convert env (fuel + 1) n (.dict dv) read = .ok x := by
      rw [← h, convert_step env fuel n i _ read hi heff, hdv,
        convert_step env fuel n i (.dict dv) read hi (by simp [effective])]
      rfl
    by_cases hall : listAt d c!"allOf" ≠ []
    · exact composed_conforms hset hdef ih hbi hSd hrd hall (ht.elim .inr fun h => .inl h.1) hi hprop hcv hj hfin hl
    replace hall : listAt d c!"allOf" = [] := Classical.not_not.1 hall
    replace ha := allOf_nil hsi hall
    have hacc : C36.Accepts env fuel i read dv := by
      apply Classical.byContradiction
      intro hno
      obtain ⟨e, h1⟩ := (C36.C36_rejects env fuel n i dv read hi hmod ha hwf (hset.distinct i) hset.order).1 hno
      rw [h1] at hcv; cases hcv
    obtain ⟨m, h1, h2, h3⟩ := C36.C36_content env fuel n i dv read hi hmod ha hwf (hset.distinct i) hset.order hacc
    rw [h1] at hcv
    cases hcv
    simp only [C70.jsonOf] at hj
    cases hjp : C70.jsonPairs toJson m with
    | error e => rw [hjp] at hj; cases hj
    | ok es =>
      rw [hjp] at hj
      cases hj
      obtain ⟨hk, hget⟩ := jsonPairs_get hjp
      have hdisc : ∀ k, propertyAt d k = none → (env.node i).discriminator ≠ some k := by
        intro k hk hd
        obtain ⟨s, _, h, -⟩ := hset.closed.tag d k hSd hrd ((text_eq hsi.facts.discriminator).symm.trans hd)
        rw [hk] at h; cases h
      have hfin' : Spec.Json.nonfinitePairs es = false := by simpa [Spec.Json.nonfinite] using hfin
      refine .object hl (ht.elim .inr fun h => .inl h.1) ?_ ?_ ?_ ?_ ?_ (.inl he) (fun s hs => by rw [hall] at hs; cases hs)
      · show (es.map Prod.fst).Nodup
        rw [hk]; exact h2
      · intro k hreq
        have hmem := (hsi.facts.required k).2 hreq
        obtain ⟨m', hm', hr⟩ := C36.C36_required env fuel n i dv read _ hi hmod ha h1
        cases hm'
        have := hr k hmem
        cases hmk : Dict.get? m k with
        | none => exact absurd hmk this
        | some p =>
          have hin : k ∈ es.map Prod.fst := by
            rw [hk]
            exact List.mem_map_of_mem (f := Prod.fst) (Dict.mem_of_get? hmk)
          cases hek : Dict.get? es k with
          | some u => exact ⟨u, rfl⟩
          | none => exact absurd hin ((Dict.get?_eq_none_iff es k).1 hek)
      · intro k u s hku hps'
        obtain ⟨p, hmp, hjp'⟩ := (hget k u).1 hku
        obtain ⟨j, hj1, hj2⟩ := hsi.property k s hps'
        have hSs := hset.closed.property d k s hSd hrd hps'
        rw [h3 k] at hmp
        unfold C36.content at hmp
        rw [hj1] at hmp
        have hfinu := nonfinite_get hfin' hku
        by_cases hd : (env.node i).discriminator = some k
        · have htag : p = C36.tag env i := by
            cases hdk : Dict.get? dv k <;> rw [hdk] at hmp <;> simp only [hd, if_true, Option.some.injEq] at hmp <;>
              exact hmp.symm
          obtain ⟨nm, hnm⟩ := Option.ne_none_iff_exists'.1 hsi.named
          refine tag_conforms hset hbi hSd hrd .self hSd hrd ((text_eq hsi.facts.discriminator).symm.trans hd) hps' hnm
            (htag.trans ((C36.tag_eq env i).trans ?_)) hjp'
          rw [hnm]; rfl
        cases hdk : Dict.get? dv k with
        | some v' =>
          rw [hdk] at hmp
          simp only [hd, if_false] at hmp
          cases hcj : convert env fuel j v' true with
          | error e => rw [hcj] at hmp; cases hmp
          | ok y =>
            rw [hcj] at hmp; cases hmp
            exact ih hj2 hSs (proper_get hprop hdk) hcj hjp' hfinu
        | none =>
          rw [hdk] at hmp
          simp only [hd, if_false] at hmp
          by_cases hds : (env.node j).defaultSet = true
          · rw [if_pos hds] at hmp
            cases hcj : convert env fuel j (env.node j).default true with
            | error e => rw [hcj] at hmp; cases hmp
            | ok y =>
              rw [hcj] at hmp; cases hmp
              have hsj := hset.tells hj2
              exact ih hj2 hSs ((default_proper hsj.facts.default (hdef s hSs)).2 hds) hcj hjp' hfinu
          · rw [if_neg hds] at hmp; cases hmp
      · intro k u s hku hps' hadd
        obtain ⟨p, hmp, hjp'⟩ := (hget k u).1 hku
        obtain ⟨j, hj1, hj2⟩ := hsi.furtherSchema s hadd
        have hSs := hset.closed.further d s hSd hrd hadd
        rw [h3 k] at hmp
        unfold C36.content at hmp
        rw [hsi.noProperty k hps', hj1] at hmp
        have hfinu := nonfinite_get hfin' hku
        cases hdk : Dict.get? dv k with
        | none => rw [hdk] at hmp; simp [hdisc k hps'] at hmp
        | some v' =>
          rw [hdk] at hmp
          dsimp only at hmp
          cases hcj : convert env fuel j v' true with
          | error e => rw [hcj] at hmp; cases hmp
          | ok y =>
            rw [hcj] at hmp; cases hmp
            exact ih hj2 hSs (proper_get hprop hdk) hcj hjp' hfinu
      · intro k u hku hps' hadd
        obtain ⟨p, hmp, hjp'⟩ := (hget k u).1 hku
        have := hsi.further false hadd
        rw [h3 k] at hmp
        unfold C36.content at hmp
        rw [hsi.noProperty k hps', this] at hmp
        cases hdk : Dict.get? dv k with
        | none => rw [hdk] at hmp; simp [hdisc k hps'] at hmp
        | some v' => rw [hdk] at hmp; simp [hdisc k hps'] at hmp

/-! ## what conforms is accepted -/

/-- Python's conversions leave values of their own type alone -/
structure Own (env : Env ω) : Prop where
  int : ∀ n, env.toInt (.int n) = .ok n
  float : ∀ r, env.toFloat (.float (.fin r)) = .ok (.fin r)
  floatInt : ∀ n : Int, env.toFloat (.int n) = .ok (.fin n)
  bool : ∀ b, env.toBool (.bool b) = b

/-- texts of a format are taken, and come back -/
structure Back (env : Env ω) (toJson : AtomKind → ω → Except Exc Str) (form : Str → Str → Prop) : Prop where
  email : ∀ s, form c!"email" s → env.validEmail s = true
  object : ∀ f k, (f, k) ∈ made → ∀ s, form f s → ∀ i, ∃ x, env.atom k i (.str s) = .ok x ∧ toJson k x = .ok s

/-- schemas that neither add nor refuse anything of their own: no defaults or discriminators, if `P` nothing read-only, required
properties are declared, some are where there are parts, no numbers that are cut off to integers -/
structure Neutral (P : Prop) (q : Dict Str Tree) : Prop where
  default : Dict.get? q c!"default" = none ∨ Dict.get? q c!"default" = some (.atom .none)
  readOnly : P → Off q c!"readOnly"
  required : ∀ k, Required q k → ∃ t, propertyAt q k = some t
  number : textAt q c!"type" = some c!"number" → textAt q c!"format" ≠ some c!"int32" ∧ textAt q c!"format" ≠ some c!"int64"
  parts : listAt q c!"allOf" = [] ∨ ∃ k s, Required q k ∧ propertyAt q k = some (.dict s)
  tag : textAt q c!"discriminator" = none

/-- the value is accepted for the object with a stack of depth `F`, if `P` for sending, too, and stands for the same
JSON value -/
def Taken (env : Env ω) (toJson : AtomKind → ω → Except Exc Str) (P : Prop) (n : Nat) (w : Val) (F : Nat) : Prop :=
  ∀ read, read = true ∨ P → ∃ x w', convert env F n w read = .ok x ∧ C70.jsonOf toJson x = .ok w' ∧ Same w w'

theorem Taken.mono {P : Prop} {n : Nat} {w : Val} {F G : Nat} (h : Taken env toJson P n w F) (hg : F ≤ G) : Taken env toJson P n w G := by
  intro read hP
  obtain ⟨x, w', h1, h2, h3⟩ := h read hP
  exact ⟨x, w', convert_deeper env hg n w read h1 (by simp), h2, h3⟩

theorem bound {α : Type} {P : α → Nat → Prop} (hm : ∀ a F G, P a F → F ≤ G → P a G) :
    ∀ l : List α, (∀ a ∈ l, ∃ F, P a F) → ∃ F, ∀ a ∈ l, P a F
  | [], _ => ⟨0, by simp⟩
  | a :: l, h => by
    obtain ⟨F, hF⟩ := bound hm l fun b hb => h b (by simp [hb])
    obtain ⟨G, hG⟩ := h a (by simp)
    refine ⟨max F G, fun b hb => ?_⟩
    rcases List.mem_cons.1 hb with rfl | hb
    · exact hm _ G _ hG (Nat.le_max_right ..)
    · exact hm _ F _ (hF b hb) (Nat.le_max_left ..)

theorem foreign_mem {l : List Val} (h : C70.foreignItems l = false) : ∀ v ∈ l, C70.foreign v = false := by
  induction l with
  | nil => intro v hv; cases hv
  | cons a l ih =>
    simp only [C70.foreignItems, Bool.or_eq_false_iff] at h
    intro v hv
    rcases List.mem_cons.1 hv with rfl | hv
    · exact h.1
    · exact ih h.2 v hv

theorem foreign_get {d : List (Str × Val)} (h : C70.foreignPairs d = false) {k : Str} {v : Val}
    (hk : Dict.get? d k = some v) : C70.foreign v = false := by
  have : ∀ e ∈ d, C70.foreign e.2 = false := by
    clear hk
    induction d with
    | nil => intro v hv; cases hv
    | cons a l ih =>
      obtain ⟨a, b⟩ := a
      simp only [C70.foreignPairs, Bool.or_eq_false_iff] at h
      intro v hv
      rcases List.mem_cons.1 hv with rfl | hv
      · exact h.1
      · exact ih h.2 v hv
  exact this (k, v) (Dict.mem_of_get? hk)

theorem jsonPairs_ok : ∀ {m : List (Str × Prim ω)}, (∀ e ∈ m, ∃ w, C70.jsonOf toJson e.2 = .ok w) →
    ∃ es, C70.jsonPairs toJson m = .ok es
  | [], _ => ⟨[], rfl⟩
  | (k, p) :: m, h => by
    obtain ⟨w, hw⟩ := h (k, p) (by simp)
    obtain ⟨es, hes⟩ := jsonPairs_ok (m := m) fun e he => h e (by simp [he])
    exact ⟨(k, w) :: es, by
      dsimp only at hw
      simp only [C70.jsonPairs, hw, hes, Except.bind, Except.map]⟩

theorem default_none {q : Dict Str Tree} {v : Val} {b : Bool} (h : DefaultIs q v b)
    (hq : Dict.get? q c!"default" = none ∨ Dict.get? q c!"default" = some (.atom .none)) : b = false ∧ v = .none := by
  unfold DefaultIs at h
  rcases hq with hq | hq <;> rw [hq] at h <;> exact h

/-- a value for a schema with neutral surroundings is taken as it is -/
theorem eff {n : Nat} {w : Val} (hw : w ≠ .none) : effective env n w = w := by
  unfold effective; rw [if_neg hw]

theorem forall₂_exists {α β : Type} {R : α → β → Prop} : ∀ {l : List α}, (∀ a ∈ l, ∃ b, R a b) → ∃ m, List.Forall₂ R l m
  | [], _ => ⟨[], .nil⟩
  | a :: l, h => by
    obtain ⟨b, hb⟩ := h a (by simp)
    obtain ⟨m, hm⟩ := forall₂_exists (l := l) fun x hx => h x (by simp [hx])
    exact ⟨b :: m, .cons hb hm⟩

theorem declared_mem {ps : List Nat} {k : Str} {p : Nat} (h : declared env ps k = some p) :
    ∃ j ∈ ps, Dict.get? (env.node j).properties k = some p := List.exists_of_findSome?_eq_some h

/-- the value of a property is taken by an object, and stands for the same JSON value -/
def Inside (env : Env ω) (toJson : AtomKind → ω → Except Exc Str) (p : Nat) (v : Val) (F : Nat) : Prop :=
  ∃ x w', convert env F p v true = .ok x ∧ C70.jsonOf toJson x = .ok w' ∧ Same v w'

theorem Inside.mono {p : Nat} {v : Val} {F G : Nat} (h : Inside env toJson p v F) (hg : F ≤ G) : Inside env toJson p v G := by
  obtain ⟨x, w', h1, h2, h3⟩ := h
  exact ⟨x, w', convert_deeper env hg p v true h1 (by simp), h2, h3⟩

/-- what is taken as a whole is taken property by property -/
theorem inside_of {a j F : Nat} {es : List (Str × Val)} {P : Prop} (hda : env.deref a = .ok j) (hmod : C36.ReadAsModel env j)
    (ha : (env.node j).allOf = []) (hd : (env.node j).discriminator = none) (hwf : Dict.WF es)
    (hdis : Dict.WF (env.node j).properties) (hord : ∀ l, (env.order l).Perm l) (h : Taken env toJson P a (.dict es) F)
    {k : Str} {v : Val} {p : Nat} (hk : Dict.get? es k = some v) (hp : Dict.get? (env.node j).properties k = some p) :
    Inside env toJson p v F := by
  obtain ⟨x, w', h1, h2, h3⟩ := h true (.inl rfl)
  cases F with
  | zero => cases h1
  | succ F =>
  have hacc : C36.Accepts env F j true es := by
    apply Classical.byContradiction
    intro hno
    obtain ⟨e, h4⟩ := (C36.C36_rejects env F a j es true hda hmod ha hwf hdis hord).1 hno
    rw [h4] at h1; cases h1
  obtain ⟨m, g1, g2, g3⟩ := C36.C36_content env F a j es true hda hmod ha hwf hdis hord hacc
  rw [g1] at h1; cases h1
  have hg := g3 k
  unfold C36.content at hg
  rw [hp, hk, hd] at hg
  simp only [reduceCtorEq, if_false] at hg
  simp only [C70.jsonOf] at h2
  cases hjp : C70.jsonPairs toJson m with
  | error e => rw [hjp] at h2; cases h2
  | ok es' =>
  rw [hjp] at h2
  cases h2
  obtain ⟨hkeys, hget⟩ := jsonPairs_get hjp
  obtain ⟨u, hu, hsame⟩ : ∃ u, Dict.get? es' k = some u ∧ Same v u := by
    generalize hde : Val.dict es = de at h3
    generalize hde' : Val.dict es' = de' at h3
    cases h3 with
    | refl => cases hde.trans hde'.symm; exact ⟨v, hk, .refl v⟩
    | number h => subst hde; rcases h with h | ⟨_, h, -⟩ <;> cases h
    | list => cases hde
    | dict _ _ h4 h5 =>
      cases hde; cases hde'
      cases hu : Dict.get? es' k with
      | none => rw [(h4 k).2 hu] at hk; cases hk
      | some u => exact ⟨u, rfl, h5 k v u hk hu⟩
  obtain ⟨y, hy, hju⟩ := (hget k u).1 hu
  rw [hy] at hg
  cases hc : convert env F p v true with
  | error e => rw [hc] at hg; cases hg
  | ok y' =>
    rw [hc] at hg
    cases hg
    exact ⟨y, u, convert_deeper env (Nat.le_succ F) p v true hc (by simp), hju, hsame⟩

/-- an object schema with parts: what its properties and its parts take, is taken -/
theorem composed_accepted (hset : Setting env B look S) {P : Prop} (hneu : ∀ q, S q → Neutral P q) {n i : Nat}
    {d : Dict Str Tree} {es : List (Str × Val)} (hb : B i d) (hS : S d) (hr : refAt d = none)
    (hne : listAt d c!"allOf" ≠ []) (ho : Objectlike d) (hi : env.deref n = .ok i) (hwf : Dict.WF es)
    (hfor : C70.foreignPairs es = false) (hreq : ∀ k, Required d k → ∃ v, Dict.get? es k = some v)
    (hown : ∀ k v p, Dict.get? es k = some v → Dict.get? (env.node i).properties k = some p → ∃ F, Inside env toJson p v F)
    (hparts : ∀ s, .dict s ∈ listAt d c!"allOf" → (∃ e, Leads look s e ∧ ∀ k, Required e k → ∃ v, Dict.get? es k = some v) ∧
      ∀ a, B a s → ∃ F, Taken env toJson P a (.dict es) F) :
    ∃ F, Taken env toJson P n (.dict es) F := by
  have hcom := hset.closed.composed d hS hr hne
  have facts : ∀ {j e}, Member look d e → B j e → _ := fun h => member_facts hset hS hr hne ho h
  obtain ⟨ps, hps⟩ : ∃ ps, List.Forall₂ (fun a j => env.deref a = .ok j) (env.node i).allOf ps := by
    refine forall₂_exists fun a ha => ?_
    obtain ⟨s, h1, h2⟩ := part_dict hset hb hS hr hne ha
    obtain ⟨⟨e, h3, -⟩, -⟩ := hparts s h1
    obtain ⟨j, h4, -⟩ := (hset.leads h2).2 e h3
    exact ⟨j, h4⟩
  -- every member has its dict, holds what it requires, and takes its properties
  have member : ∀ {j}, j ∈ i :: ps → ∃ e, Member look d e ∧ B j e ∧
      (∀ k, Required e k → ∃ v, Dict.get? es k = some v) ∧
      ∀ k v p, Dict.get? es k = some v → Dict.get? (env.node j).properties k = some p → ∃ F, Inside env toJson p v F := by
    intro j hj
    rcases List.mem_cons.1 hj with rfl | hj
    · exact ⟨d, .self, hb, hreq, hown⟩
    · obtain ⟨a, ha, haj⟩ := right_of hps j hj
      obtain ⟨s, h1, h2⟩ := part_dict hset hb hS hr hne ha
      obtain ⟨⟨e, h3, h4⟩, h5⟩ := hparts s h1
      obtain ⟨j', h6, h7⟩ := (hset.leads h2).2 e h3
      rw [haj] at h6; cases h6
      refine ⟨e, .part h1 h3, h7, h4, fun k v p hk hp => ?_⟩
      obtain ⟨F, hF⟩ := h5 a h2
      obtain ⟨g1, g2, -, g4, g5, -⟩ := facts (.part h1 h3) h7
      exact ⟨F, inside_of haj g5 (allOf_nil g4 (hcom.flat s e h1 h3).1) ((text_eq g4.facts.discriminator).trans (hneu e g1).tag)
        hwf (hset.distinct j) hset.order hF hk hp⟩
  obtain ⟨F, hF⟩ := bound (P := fun (e : Str × Val) F => ∀ j ∈ i :: ps, ∀ p,
      Dict.get? (env.node j).properties e.1 = some p → Inside env toJson p e.2 F)
    (fun e F G h hg j hj p hp => (h j hj p hp).mono hg) es (by
      rintro ⟨k, v⟩ hkv
      have hg := Dict.get?_of_mem hwf hkv
      obtain ⟨F, hF⟩ := bound (P := fun (j : Nat) F => ∀ p, Dict.get? (env.node j).properties k = some p → Inside env toJson p v F)
        (fun j F G h hg p hp => (h p hp).mono hg) (i :: ps) (fun j hj => by
          obtain ⟨e, -, -, -, h⟩ := member hj
          cases hp : Dict.get? (env.node j).properties k with
          | none => exact ⟨0, fun p hp => by cases hp⟩
          | some p =>
            obtain ⟨F, hF⟩ := h k v p hg hp
            exact ⟨F, fun p' hp' => by cases hp'; exact hF⟩)
      exact ⟨F, hF⟩)
  have hin : ∀ k v p, Dict.get? es k = some v → declared env (i :: ps) k = some p → Inside env toJson p v F := by
    intro k v p hk hp
    obtain ⟨j, hj, hjp⟩ := declared_mem hp
    exact hF (k, v) (Dict.mem_of_get? hk) j hj p hjp
  have hprop : ∀ {j}, j ∈ i :: ps → ∀ k p, Dict.get? (env.node j).properties k = some p → ∃ s, S s ∧ B p s := by
    intro j hj k p hp
    obtain ⟨e, hm, hbe, -, -⟩ := member hj
    obtain ⟨g1, g2, -, g4, -, -, g7, -⟩ := facts hm hbe
    obtain ⟨s, h1, h2⟩ := property_of g4 g7 hp
    exact ⟨s, hset.closed.property e k s g1 g2 h1, h2⟩
  have hnodef : ∀ k p, defaulted env (i :: ps) k = some p → False := by
    intro k p hp
    obtain ⟨j, hj, hjp⟩ := List.exists_of_findSome?_eq_some hp
    obtain ⟨h1, h2⟩ := Option.filter_eq_some_iff.1 hjp
    obtain ⟨s, hs1, hs2⟩ := hprop hj k p h1
    have h2 : (env.node p).defaultSet = true := h2
    rw [(default_none (hset.tells hs2).facts.default (hneu s hs1).default).1] at h2
    cases h2
  have hnotag : ∀ j ∈ i :: ps, (env.node j).discriminator = none := by
    intro j hj
    obtain ⟨e, hm, hbe, -, -⟩ := member hj
    obtain ⟨g1, -, -, g4, -⟩ := facts hm hbe
    exact (text_eq g4.facts.discriminator).trans (hneu e g1).tag
  have hall : ∀ read, read = true ∨ P → AcceptsAll env (produce env F) (i :: ps) (env.node i).name read es := by
    intro read hP
    refine ⟨?_, ?_, ?_, ?_, ?_, ?_⟩
    · intro j hj
      obtain ⟨e, hm, hbe, -, -⟩ := member hj
      obtain ⟨-, -, -, g4, -⟩ := facts hm hbe
      exact ⟨g4.facts.isSchema, hset.distinct j⟩
    · intro k v p hk hp
      obtain ⟨x, w', h1, -, -⟩ := hin k v p hk hp
      refine ⟨fun hro => ?_, x, h1⟩
      rcases hP with hP | hP
      · exact hP
      · obtain ⟨j, hj, hjp⟩ := declared_mem hp
        obtain ⟨s, hs1, hs2⟩ := hprop hj k p hjp
        have := switch_off (hset.tells hs2).facts.readOnly ((hneu s hs1).readOnly hP)
        rw [this] at hro; cases hro
    · intro k p _ hp
      exact (hnodef k p hp).elim
    · intro qs j l hl k hk
      have hj : j ∈ i :: ps := by rw [hl]; simp
      obtain ⟨e, hm, hbe, hrq, -⟩ := member hj
      obtain ⟨g1, g2, -, g4, -, -, g7, -⟩ := facts hm hbe
      have hk := (g4.facts.required k).1 hk
      obtain ⟨t, ht⟩ := (hneu e g1).required k hk
      obtain ⟨s, rfl⟩ := g7 k t ht
      obtain ⟨m, hm1, -⟩ := g4.property k s ht
      obtain ⟨v, hv⟩ := hrq k hk
      have hdecl : declared env (qs ++ [j]) k ≠ none := by
        intro hn
        have := List.findSome?_eq_none_iff.1 hn j (by simp)
        rw [hm1] at this; cases this
      obtain ⟨p, hp⟩ := Option.ne_none_iff_exists'.1 hdecl
      exact ⟨p, hp, .inl (by rw [hv]; simp)⟩
    · intro j hj k hk
      rw [hnotag j hj] at hk; cases hk
    · intro hopen
      obtain ⟨-, -, -, -, -, g6, -⟩ := facts .self hb
      simp [open_, g6] at hopen
  obtain ⟨-, -, -, g4, g5, g6, -, -⟩ := facts .self hb
  obtain ⟨k0, s0, hk0, hp0⟩ := (hneu d hS).parts.resolve_left hne
  obtain ⟨p0, hm0, -⟩ := g4.property k0 s0 hp0
  obtain ⟨v0, hv0⟩ := hreq k0 hk0
  refine ⟨F + 1, fun read hP => ?_⟩
  obtain ⟨m, h1, h2, h3⟩ := C36.C36_allOf env F n i es read ps hi g5 hps hwf hset.order
    ⟨k0, p0, hm0, .inl (by rw [hv0]; simp)⟩ (hall read hP)
  have hcont : ∀ k, (Dict.get? es k = none → Dict.get? m k = none) ∧
      ∀ v, Dict.get? es k = some v → ∃ x w', Dict.get? m k = some x ∧ C70.jsonOf toJson x = .ok w' ∧ Same v w' := by
    intro k
    have ht : tagged env (i :: ps) k = false := by
      rw [Bool.eq_false_iff]
      intro ht
      obtain ⟨j, hj, h⟩ := List.any_eq_true.1 ht
      rw [hnotag j hj] at h; simp at h
    have hk := h3 k
    rw [ht] at hk
    simp only [Bool.false_eq_true, if_false] at hk
    constructor
    · intro he
      rw [hk, he]
      cases declared env (i :: ps) k with
      | none => rfl
      | some p =>
        dsimp only
        cases hd : defaulted env (i :: ps) k with
        | none => rfl
        | some p => exact (hnodef k p hd).elim
    · intro v he
      rw [hk, he]
      cases hd : declared env (i :: ps) k with
      | none =>
        have hopen : open_ env (i :: ps) = true := by simp [open_, g6]
        exact ⟨.raw v, v, by simp [hopen], by simp [C70.jsonOf, foreign_get hfor he], .refl _⟩
      | some p =>
        obtain ⟨x, w', a1, a2, a3⟩ := hin k v p he hd
        exact ⟨x, w', by simp [a1, okOf], a2, a3⟩
  obtain ⟨es', hes'⟩ := jsonPairs_ok (toJson := toJson) (m := m) (by
    rintro ⟨k, p⟩ hkp
    have hg := Dict.get?_of_mem h2 hkp
    cases hk : Dict.get? es k with
    | none => rw [(hcont k).1 hk] at hg; cases hg
    | some v =>
      obtain ⟨x, w', g1, g2, -⟩ := (hcont k).2 v hk
      rw [g1] at hg; cases hg
      exact ⟨w', g2⟩)
  obtain ⟨hkeys, hget⟩ := jsonPairs_get hes'
  refine ⟨.model m, .dict es', h1, by simp only [C70.jsonOf, hes']; rfl, .dict hwf ?_ (fun k => ?_)
    fun k v w hv hw => ?_⟩
  · show (es'.map Prod.fst).Nodup
    rw [hkeys]; exact h2
  · constructor
    · intro hk
      cases hk' : Dict.get? es' k with
      | none => rfl
      | some w =>
        obtain ⟨p, g1, -⟩ := (hget k w).1 hk'
        rw [(hcont k).1 hk] at g1; cases g1
    · intro hk'
      cases hk : Dict.get? es k with
      | none => rfl
      | some v =>
        obtain ⟨x, w', g1, g2, -⟩ := (hcont k).2 v hk
        rw [(hget k w').2 ⟨x, g1, g2⟩] at hk'; cases hk'
  · obtain ⟨x, w', g1, g2, g3⟩ := (hcont k).2 v hv
    rw [(hget k w').2 ⟨x, g1, g2⟩] at hw
    cases hw; exact g3

/-- **C79, the converse.** A JSON value that conforms to a schema of the document is accepted for it, and the same value is
sent, if the schemas add and refuse nothing of their own (`Neutral`). When reading (`P` false) read-only properties are
no obstacle. -/
theorem C79_accepted (hset : Setting env B look S) (hown : Own env) (hback : Back env toJson form)
    {P : Prop} (hneu : ∀ q, S q → Neutral P q) {q : Dict Str Tree} {w : Val} (h : Conforms look form N q w) {n : Nat}
    (hb : B n q) (hS : S q) (hfor : C70.foreign w = false) : ∃ F, Taken env toJson P n w F := by
  have here : ∀ {q d : Dict Str Tree} {n : Nat}, Leads look q d → B n q → S q →
      ∃ i, env.deref n = .ok i ∧ Says env look B i d ∧ S d ∧ refAt d = none ∧ Simple d ∧
        (¬ Objectlike d → (env.node i).allOf = []) := by
    intro q d n hl hb hS
    obtain ⟨i, h1, h2⟩ := (hset.leads hb).2 d hl
    obtain ⟨h3, h4⟩ := leads_S hset.closed hl hS
    have h5 := hset.tells h2
    exact ⟨i, h1, h5, h3, h4, hset.closed.simple d h3 h4,
      fun hno => allOf_nil h5 ((hset.closed.simple d h3 h4).parts.resolve_right hno)⟩
  have one : ∀ {n : Nat} {w w' : Val} {x : Prim ω}, C70.jsonOf toJson x = .ok w' → Same w w' →
      (∀ m read, convert env (m + 1) n w read = .ok x) → ∃ F, Taken env toJson P n w F := by
    intro n w w' x h1 h2 h3
    exact ⟨1, fun read _ => ⟨x, w', h3 0 read, h1, h2⟩⟩
  induction h generalizing n with
  | @null q hn =>
    have hs := hset.tells hb
    have := (default_none hs.facts.default (hneu q hS).default).2
    exact one (x := .none) rfl (.refl _) fun m read => convert_none env m n _ read (by simp [effective, this])
  | @integer q d k hl ht hf he =>
    obtain ⟨i, hi, hs, hSd, -, hsim, ha⟩ := here hl hb hS
    replace ha := ha (by unfold Objectlike; rw [ht]; decide)
    have htype := text_eq hs.facts.type
    have hr := of_fits hs.facts hsim.exclusive hf
    refine one (x := .int k) rfl (.refl _) fun m read => ?_
    have := C33.C33_integer env m n i (.int k) read hi
      (typed hset.handlers (by decide) (htype.trans ht) rfl (get_integer _)) ha (by simp [effective])
    exact (this.2 k (by rw [eff (by simp)]; exact hown.int k)).1 hr.1
  | @number q d v r hl ht hv hf he =>
    obtain ⟨i, hi, hs, hSd, -, hsim, ha⟩ := here hl hb hS
    replace ha := ha (by unfold Objectlike; rw [ht]; decide)
    have htype := text_eq hs.facts.type
    have hformat := text_eq hs.facts.format
    have hr := of_fits hs.facts hsim.exclusive hf
    have hne : v ≠ .none := by rcases hv with rfl | ⟨k, rfl, -⟩ <;> simp
    refine one (x := .float (.fin r)) rfl (.number hv (.inl rfl)) fun m read => ?_
    have hn := (hneu d hSd).number ht
    have := C33.C33_number env m n i v read hi
      (typed hset.handlers (by decide) (htype.trans ht) hformat ((get_number _).trans (by
        rw [if_neg (by simp [hn.1, hn.2])]))) ha (by rw [eff hne]; exact hne)
    refine (this.2 r ?_).1 hr
    rw [eff hne]
    rcases hv with rfl | ⟨k, rfl, rfl⟩
    · exact hown.float r
    · exact hown.floatInt k
  | @boolean q d b hl ht he =>
    obtain ⟨i, hi, hs, hSd, -, hsim, ha⟩ := here hl hb hS
    replace ha := ha (by unfold Objectlike; rw [ht]; decide)
    have htype := text_eq hs.facts.type
    refine one (x := .bool b) rfl (.refl _) fun m read => ?_
    rw [convert_bool hi (typed hset.handlers (by decide) (htype.trans ht) rfl (get_boolean _)) ha (by simp [effective]),
      eff (by simp), hown.bool]
  | @string q d s hl ht he hlen hfo =>
    obtain ⟨i, hi, hs, hSd, -, hsim, ha⟩ := here hl hb hS
    replace ha := ha (by unfold Objectlike; rw [ht]; decide)
    have htype := text_eq hs.facts.type
    have hformat := text_eq hs.facts.format
    by_cases hbu : ∃ f, textAt d c!"format" = some f ∧ built f = true
    · obtain ⟨f, hf, hbu⟩ := hbu
      obtain ⟨k, hk⟩ := built_iff.1 hbu
      obtain ⟨x, h1, h2⟩ := hback.object f k hk s (hfo f hf) i
      have hkf : k ≠ .file := by
        rintro rfl; revert hk; simp [made]
      refine one (x := .atom k x) (w' := .str s) ?_ (.refl _) fun m read => ?_
      · have : (toJson k x).map Val.str = .ok (.str s) := by rw [h2]; rfl
        cases k <;> first | exact this | exact absurd rfl hkf
      · rw [convert_atom hi (typed hset.handlers (by decide) (htype.trans ht) (hformat.trans hf) (get_built hk)) ha
          (by simp [effective]), eff (by simp), h1]
        rfl
    · have hf : ∀ g, textAt d c!"format" = some g → built g = false := by
        intro g hg
        cases hgb : built g with
        | false => rfl
        | true => exact absurd ⟨g, hg, hgb⟩ hbu
      have hc : C34.Conforms (env.node i) s := by
        refine ⟨(allowed_iff hs.facts.enum (hset.values d hSd) s).1 he, ?_, ?_⟩
        · intro m hm _
          rw [length_eq hs.facts.maxLength] at hm; exact hlen.2 m hm
        · intro m hm
          rw [length_eq hs.facts.minLength] at hm; exact hlen.1 m hm
      refine one (x := .str s) rfl (.refl _) fun m read => ?_
      by_cases hem : textAt d c!"format" = some c!"email"
      · exact (C34.C34_email env m n i s read hi (typed hset.handlers (by decide) (htype.trans ht) hformat
          ((get_string hf).trans (by rw [if_pos hem]))) ha).1 ⟨hc, hback.email s (hfo _ hem)⟩
      · exact (C34.C34_string env m n i (.str s) read hi (typed hset.handlers (by decide) (htype.trans ht) hformat
          ((get_string hf).trans (by rw [if_neg hem]))) ha (by simp [effective]) s (.inl (eff (by simp)))).1 hc
  | @array q d it vs hl ht hit hall hlen huni he ih =>
    obtain ⟨i, hi, hs, hSd, hrd, hsim, ha⟩ := here hl hb hS
    replace ha := ha (by unfold Objectlike; rw [ht]; decide)
    have htype := text_eq hs.facts.type
    obtain ⟨m, hm1, hm2⟩ := hs.items it hit
    have hSi := hset.closed.items d it hSd hrd hit
    have hu : Off d c!"uniqueItems" := by
      cases hsim.plainly with
      | array _ _ _ hu _ => exact hu
      | object h =>
        rcases h with h | ⟨h, -⟩ <;> rw [ht] at h <;> cases h
      | _ h => rw [ht] at h; cases h
    have hun := switch_off hs.facts.uniqueItems hu
    have hfor' : ∀ v ∈ vs, C70.foreign v = false := foreign_mem (by simpa [C70.foreign] using hfor)
    obtain ⟨F, hF⟩ := bound (P := fun v F => Taken env toJson P m v F) (fun _ _ _ h hg => h.mono hg) vs
      fun v hv => ih v hv hm2 hSi (hfor' v hv)
    have : ∃ xs ws, List.Forall₂ (fun v x => convert env F m v true = .ok x) vs xs ∧
        List.Forall₂ (fun p v => C70.jsonOf toJson p = .ok v) xs ws ∧ vs.length = ws.length ∧
        ∀ (i : Nat) v w, vs[i]? = some v → ws[i]? = some w → Same v w := by
      clear hall hlen huni he ih hfor hfor'
      induction vs with
      | nil => exact ⟨[], [], .nil, .nil, rfl, fun i v w h => by simp at h⟩
      | cons v vs ih2 =>
        obtain ⟨xs, ws, h1, h2, h3, h4⟩ := ih2 fun v hv => hF v (by simp [hv])
        obtain ⟨x, w', g3, g1, g2⟩ := hF v (by simp) true (.inl rfl)
        refine ⟨x :: xs, w' :: ws, .cons g3 h1, .cons g1 h2, by simp [h3], fun i a b ha hb => ?_⟩
        cases i with
        | zero =>
          simp only [List.getElem?_cons_zero, Option.some.injEq] at ha hb
          subst ha; subst hb; exact g2
        | succ i => exact h4 i a b (by simpa using ha) (by simpa using hb)
    obtain ⟨xs, ws, h1, h2, h3, h4⟩ := this
    refine ⟨F + 1, fun read _ => ⟨.array (C35.formatOf (env.node i)) xs, .list ws, ?_, ?_, .list h3 h4⟩⟩
    · refine ((C35.C35_array env F n i m (.list vs) read vs vs hi
        (typed hset.handlers (by decide) (htype.trans ht) rfl (get_array _)) ha hm1 (by rw [eff (by simp)]; rfl)
        (by rw [hun]; rfl)).1 _).2 ⟨xs, rfl, h1, ?_, ?_⟩
      · intro k hk
        rw [length_eq hs.facts.minItems] at hk; exact hlen.1 k hk
      · intro k hk _
        rw [length_eq hs.facts.maxItems] at hk; exact hlen.2 k hk
    · simp only [C70.jsonOf, jsonItems_forall.2 h2]; rfl
  | @object q d es hl ht hwf hreq hprop hadd hno he hpart ih1 ih2 ih3 =>
    obtain ⟨i, hi, hs, hSd, hrd, hsim, ha⟩ := here hl hb hS
    have hneud := hneu d hSd
    have hpl : (textAt d c!"type" = some c!"object" ∨ textAt d c!"type" = none ∧
        (Dict.get? d c!"additionalProperties" ≠ some (.atom (.bool false)) ∨ ∃ k s, propertyAt d k = some (.dict s))) ∧
        (∀ k t, propertyAt d k = some t → ∃ s, t = .dict s) ∧ Further d := by
      cases hsim.plainly with
      | object h1 h2 h3 h4 => exact ⟨h1, h2, h3⟩
      | _ h => rcases ht with ht | ht <;> rw [ht] at h <;> cases h
    obtain ⟨hpt, hpd, hfu⟩ := hpl
    have hmod := asModel hset.handlers hs hpt hfu
    have hdisc : (env.node i).discriminator = none := (text_eq hs.facts.discriminator).trans hneud.tag
    have hforp : C70.foreignPairs es = false := by simpa [C70.foreign] using hfor
    -- declared properties are those of the document
    have hdecl : ∀ k p, Dict.get? (env.node i).properties k = some p → ∃ s, propertyAt d k = some (.dict s) ∧
        B p s ∧ S s := by
      intro k p hp
      cases hk : propertyAt d k with
      | none => rw [hs.noProperty k hk] at hp; cases hp
      | some t =>
        obtain ⟨s, rfl⟩ := hpd k t hk
        obtain ⟨m, hm1, hm2⟩ := hs.property k s hk
        rw [hm1] at hp; cases hp
        exact ⟨s, rfl, hm2, hset.closed.property d k s hSd hrd hk⟩
    have hundecl : ∀ k, Dict.get? (env.node i).properties k = none → propertyAt d k = none := by
      intro k hp
      cases hk : propertyAt d k with
      | none => rfl
      | some t =>
        obtain ⟨s, rfl⟩ := hpd k t hk
        obtain ⟨m, hm1, -⟩ := hs.property k s hk
        rw [hm1] at hp; cases hp
    by_cases hall : listAt d c!"allOf" ≠ []
    · obtain ⟨i', hi', hbi⟩ := (hset.leads hb).2 d hl
      rw [hi] at hi'; cases hi'
      refine composed_accepted hset hneu hbi hSd hrd hall ht hi hwf hforp hreq (fun k v p hk hp => ?_) fun s hsm => ?_
      · obtain ⟨s, hs1, hs2, hs3⟩ := hdecl k p hp
        obtain ⟨F, hF⟩ := ih1 k v s hk hs1 hs2 hs3 (foreign_get hforp hk)
        obtain ⟨x, w', g⟩ := hF true (.inl rfl)
        exact ⟨F, x, w', g⟩
      · refine ⟨?_, fun a hba => ih3 s hsm hba (hset.closed.part d s hSd hrd hsm) hfor⟩
        have hps := hpart s hsm
        cases hps with
        | number _ _ hn => rcases hn with hn | ⟨_, hn, -⟩ <;> cases hn
        | object hl' _ _ hr' => exact ⟨_, hl', hr'⟩
    replace hall : listAt d c!"allOf" = [] := Classical.not_not.1 hall
    replace ha := allOf_nil hs hall
    have hadds : ∀ p, (env.node i).additional = .schema p → ∃ s,
        Dict.get? d c!"additionalProperties" = some (.dict s) ∧ B p s ∧ S s := by
      intro p hp
      cases hfu with
      | nothing h => rw [hs.anyFurther h] at hp; cases hp
      | @bool b h => rw [hs.further b h] at hp; cases b <;> cases hp
      | schema h =>
        obtain ⟨m, hm1, hm2⟩ := hs.furtherSchema _ h
        rw [hm1] at hp; cases hp
        exact ⟨_, h, hm2, hset.closed.further d _ hSd hrd h⟩
    have haddno : (env.node i).additional = .no → Dict.get? d c!"additionalProperties" = some (.atom (.bool false)) := by
      intro hp
      cases hfu with
      | nothing h => rw [hs.anyFurther h] at hp; cases hp
      | @bool b h => rw [hs.further b h] at hp; cases b <;> first | exact h | cases hp
      | schema h => obtain ⟨m, hm1, -⟩ := hs.furtherSchema _ h; rw [hm1] at hp; cases hp
    -- every entry that is converted is taken
    obtain ⟨F, hF⟩ := bound (P := fun (e : Str × Val) F =>
        (∀ p, Dict.get? (env.node i).properties e.1 = some p → Taken env toJson P p e.2 F) ∧
        (∀ p, Dict.get? (env.node i).properties e.1 = none → (env.node i).additional = .schema p →
          Taken env toJson P p e.2 F))
      (fun e F G h hg => ⟨fun p hp => (h.1 p hp).mono hg, fun p h1 h2 => (h.2 p h1 h2).mono hg⟩) es (by
        rintro ⟨k, v⟩ hkv
        have hg := Dict.get?_of_mem hwf hkv
        cases hp : Dict.get? (env.node i).properties k with
        | some p =>
          obtain ⟨s, hs1, hs2, hs3⟩ := hdecl k p hp
          obtain ⟨F, hF⟩ := ih1 k v s hg hs1 hs2 hs3 (foreign_get hforp hg)
          refine ⟨F, fun p' hp' => ?_, fun p' hp' => ?_⟩
          · cases hp'; exact hF
          · cases hp'
        | none =>
          cases ha : (env.node i).additional with
          | schema p =>
            obtain ⟨s, hs1, hs2, hs3⟩ := hadds p ha
            obtain ⟨F, hF⟩ := ih2 k v s hg (hundecl k hp) hs1 hs2 hs3 (foreign_get hforp hg)
            refine ⟨F, fun p' hp' => ?_, fun p' _ hp' => ?_⟩
            · cases hp'
            · cases hp'; exact hF
          | _ =>
            refine ⟨0, fun p' hp' => ?_, fun p' _ hp' => ?_⟩
            · cases hp'
            · cases hp')
    have hF1 : ∀ k v p, Dict.get? es k = some v → Dict.get? (env.node i).properties k = some p →
        Taken env toJson P p v F := fun k v p h1 h2 => (hF (k, v) (Dict.mem_of_get? h1)).1 p h2
    have hF2 : ∀ k v p, Dict.get? es k = some v → Dict.get? (env.node i).properties k = none →
        (env.node i).additional = .schema p → Taken env toJson P p v F :=
      fun k v p h1 h2 => (hF (k, v) (Dict.mem_of_get? h1)).2 p h2
    have hnodef : ∀ k p, Dict.get? (env.node i).properties k = some p → (env.node p).defaultSet = false := by
      intro k p hp
      obtain ⟨s, -, hs2, hs3⟩ := hdecl k p hp
      exact (default_none (hset.tells hs2).facts.default (hneu s hs3).default).1
    have hacc : ∀ read, read = true ∨ P → C36.Accepts env F i read es := by
      intro read hP
      refine ⟨?_, ?_, ?_, ?_, ?_⟩
      · intro k v p h1 h2
        obtain ⟨s, -, hs2, hs3⟩ := hdecl k p h2
        obtain ⟨x, w', g, -, -⟩ := hF1 k v p h1 h2 true (.inl rfl)
        refine ⟨fun h => ?_, x, g⟩
        rcases hP with hP | hP
        · exact hP
        · have hro := switch_off (hset.tells hs2).facts.readOnly ((hneu s hs3).readOnly hP)
          rw [hro] at h; cases h
      · intro k p _ h2 h3
        rw [hnodef k p h2] at h3; cases h3
      · intro k hk
        have hk := (hs.facts.required k).1 hk
        obtain ⟨t, h1⟩ := hneud.required k hk
        obtain ⟨s, rfl⟩ := hpd k t h1
        obtain ⟨m, hm1, -⟩ := hs.property k s h1
        obtain ⟨v, hv⟩ := hreq k hk
        exact ⟨m, hm1, .inl (by rw [hv]; simp)⟩
      · intro h; exact absurd hdisc h
      · intro p hp k v h1 h2
        obtain ⟨x, w', g, -, -⟩ := hF2 k v p h1 h2 hp true (.inl rfl)
        exact ⟨x, g⟩
    have hcont : ∀ k, (Dict.get? es k = none → C36.content env F i es k = none) ∧
        ∀ v, Dict.get? es k = some v → ∃ x w', C36.content env F i es k = some x ∧ C70.jsonOf toJson x = .ok w' ∧
          Same v w' := by
      intro k
      constructor
      · intro hk
        unfold C36.content
        rw [hk, hdisc]
        cases hp : Dict.get? (env.node i).properties k with
        | none => simp
        | some p => simp [hnodef k p hp]
      · intro v hk
        unfold C36.content
        rw [hk, hdisc]
        cases hp : Dict.get? (env.node i).properties k with
        | some p =>
          obtain ⟨x, w', g3, g1, g2⟩ := hF1 k v p hk hp true (.inl rfl)
          exact ⟨x, w', by simp [g3, okOf], g1, g2⟩
        | none =>
          cases ha : (env.node i).additional with
          | yes => exact ⟨.raw v, v, rfl, by simp [C70.jsonOf, foreign_get hforp hk], .refl _⟩
          | no => exact absurd (haddno ha) (hno k v hk (hundecl k hp))
          | schema p =>
            obtain ⟨x, w', g3, g1, g2⟩ := hF2 k v p hk hp ha true (.inl rfl)
            exact ⟨x, w', by simp [g3, okOf], g1, g2⟩
    refine ⟨F + 1, fun read hP => ?_⟩
    obtain ⟨m, h1, h2, h3⟩ := C36.C36_content env F n i es read hi hmod ha hwf (hset.distinct i) hset.order
      (hacc read hP)
    obtain ⟨es', hes'⟩ := jsonPairs_ok (toJson := toJson) (m := m) (by
      rintro ⟨k, p⟩ hkp
      have hg := Dict.get?_of_mem h2 hkp
      rw [h3 k] at hg
      cases hk : Dict.get? es k with
      | none => rw [(hcont k).1 hk] at hg; cases hg
      | some v =>
        obtain ⟨x, w', g1, g2, -⟩ := (hcont k).2 v hk
        rw [g1] at hg; cases hg
        exact ⟨w', g2⟩)
    obtain ⟨hkeys, hget⟩ := jsonPairs_get hes'
    refine ⟨.model m, .dict es', h1, by simp only [C70.jsonOf, hes']; rfl, .dict hwf ?_ (fun k => ?_)
      fun k v w hv hw => ?_⟩
    · show (es'.map Prod.fst).Nodup
      rw [hkeys]; exact h2
    · constructor
      · intro hk
        cases hk' : Dict.get? es' k with
        | none => rfl
        | some w =>
          obtain ⟨p, g1, -⟩ := (hget k w).1 hk'
          rw [h3 k, (hcont k).1 hk] at g1; cases g1
      · intro hk'
        cases hk : Dict.get? es k with
        | none => rfl
        | some v =>
          obtain ⟨x, w', g1, g2, -⟩ := (hcont k).2 v hk
          rw [(hget k w').2 ⟨x, (h3 k).trans g1, g2⟩] at hk'; cases hk'
    · obtain ⟨x, w', g1, g2, g3⟩ := (hcont k).2 v hv
      rw [(hget k w').2 ⟨x, (h3 k).trans g1, g2⟩] at hw
      cases hw; exact g3

end Props.C79
