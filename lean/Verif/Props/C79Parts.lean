import Verif.Props.C79World
/-!
# C79, objects with parts

A concrete case of C79 with `allOf` and a discriminator, and what is beyond its reach.
-/

namespace Props.C79.Parts
open Py Tree Prim Spec Spec.Described Spec.SchemaDoc Spec.Conform Proofs.Conform Props.C78 Props.C79
open _root_.Doc

def kindQ : Dict Str Tree := [(c!"type", txt c!"string")]
def barkQ : Dict Str Tree := [(c!"type", txt c!"integer"), (c!"maximum", .atom (.int 9))]
def refQ : Dict Str Tree := [(c!"$ref", txt c!"u#/definitions/Animal")]
/-- `#/definitions/Animal` -/
def animalQ : Dict Str Tree := [(c!"type", txt c!"object"), (c!"discriminator", txt c!"kind"), (c!"required", .list [txt c!"kind"]),
  (c!"properties", .dict [(c!"kind", .dict kindQ)])]
/-- `#/definitions/Dog` -/
def dogQ : Dict Str Tree := [(c!"allOf", .list [.dict refQ]), (c!"properties", .dict [(c!"bark", .dict barkQ)])]

def kindFs : List (Str × Tree) := assemble schemaCls kindQ
def barkFs : List (Str × Tree) := assemble schemaCls barkQ
def refFs : List (Str × Tree) := assemble schemaCls refQ
def animalFs : List (Str × Tree) := assemble schemaCls [(c!"type", txt c!"object"), (c!"discriminator", txt c!"kind"),
  (c!"required", .list [txt c!"kind"]), (c!"properties", .dict [(c!"kind", .obj cSchema kindFs)])]
def dogFs : List (Str × Tree) := assemble schemaCls [(c!"allOf", .list [.obj cSchema refFs]),
  (c!"properties", .dict [(c!"bark", .obj cSchema barkFs)])]

def docs : MergeRefs.World where
  content n := if n = 4 then .obj cSchema animalFs else .obj cSchema dogFs
  resolve r := if r = c!"u#/definitions/Animal" then .ok 4 else .error .KeyError

def look (r : Str) : Option (Dict Str Tree) := if r = c!"u#/definitions/Animal" then some animalQ else none

/-- `Dog`, `bark`, the part of `Dog`, `kind`, `Animal` -/
def objs : Nat → Node
  | 0 => Schemas.nodeOf dogFs (some c!"Dog") none [2] [(c!"bark", 1)] .yes
  | 1 => Schemas.nodeOf barkFs none none [] [] .yes
  | 2 => Schemas.nodeOf refFs none none [] [] .yes
  | 3 => Schemas.nodeOf kindFs none none [] [] .yes
  | _ => Schemas.nodeOf animalFs (some c!"Animal") none [] [(c!"kind", 3)] .yes

def refs : Nat → Option Nat
  | 2 => some 4
  | _ => none

/-- an environment around the objects -/
def env : Env World.Atom := World.env plainWorld
  { node := objs, deref := fun n => if n = 2 then .ok 4 else .ok n, reg := [], toInt := fun _ => .error .TypeError,
    toFloat := fun _ => .error .TypeError, toStr := fun _ => [], toBool := fun _ => true, validEmail := fun _ => true,
    eq := fun a b => a = b, atom := fun _ _ _ => .error .TypeError, mismatch := fun _ _ _ => .ok (), order := id }

theorem animal_shown : Schemas.Shows env refs docs 4 (.obj cSchema animalFs) :=
  .intro rfl (.none rfl) .nil (.cons (.intro rfl (.none rfl) .nil .nil (.bool (b := true)) rfl) .nil) (.bool (b := true)) rfl

theorem dog_shown : Schemas.Shows env refs docs 0 (.obj cSchema dogFs) :=
  .intro rfl (.none rfl) (.cons (.intro rfl (.none rfl) .nil .nil (.bool (b := true)) rfl) .nil)
    (.cons (.intro rfl (.none rfl) .nil .nil (.bool (b := true)) rfl) .nil) (.bool (b := true)) rfl

/-- the schemas within reach -/
def dogs (q : Dict Str Tree) : Prop := q = dogQ ∨ q = animalQ ∨ q = barkQ ∨ q = kindQ ∨ q = refQ

theorem look_eq {r : Str} {d : Dict Str Tree} (h : look r = some d) : d = animalQ := by
  unfold look at h
  split at h
  · cases h; rfl
  · cases h

theorem part_eq {s e : Dict Str Tree} (hs : .dict s ∈ listAt dogQ c!"allOf") (hl : Leads look s e) : e = animalQ := by
  cases List.mem_singleton.1 hs
  cases hl with
  | stop h => cases h
  | go _ h h' =>
    cases look_eq h
    cases h' with
    | stop => rfl
    | go h => cases h

theorem member_eq {e : Dict Str Tree} (h : Member look dogQ e) : e = dogQ ∨ e = animalQ := by
  cases h with
  | self => exact .inl rfl
  | part hs hl => exact .inr (part_eq hs hl)

theorem dog_property {k : Str} {t : Tree} (h : propertyAt dogQ k = some t) : k = c!"bark" ∧ t = .dict barkQ := by
  have h : Dict.get? [(c!"bark", Tree.dict barkQ)] k = some t := h
  simp only [Dict.get?] at h
  split at h
  · next e => cases h; exact ⟨e.symm, rfl⟩
  · cases h

theorem animal_property {k : Str} {t : Tree} (h : propertyAt animalQ k = some t) : k = c!"kind" ∧ t = .dict kindQ := by
  have h : Dict.get? [(c!"kind", Tree.dict kindQ)] k = some t := h
  simp only [Dict.get?] at h
  split at h
  · next e => cases h; exact ⟨e.symm, rfl⟩
  · cases h

theorem dogs_closed : Closed look dogs where
  simple := by
    rintro q (rfl | rfl | rfl | rfl | rfl) h
    · exact ⟨.inr (.inl rfl), ⟨.inr (.inl rfl), .inr (.inl rfl)⟩, .object (.inr ⟨rfl, .inl (by intro h; cases h)⟩)
        (fun k t h => ⟨_, (dog_property h).2⟩) (.nothing rfl) rfl⟩
    · exact ⟨.inl rfl, ⟨.inr (.inl rfl), .inr (.inl rfl)⟩, .object (.inl rfl)
        (fun k t h => ⟨_, (animal_property h).2⟩) (.nothing rfl) rfl⟩
    · exact ⟨.inl rfl, ⟨.inr (.inl rfl), .inr (.inl rfl)⟩, .integer rfl rfl rfl⟩
    · exact ⟨.inl rfl, ⟨.inr (.inl rfl), .inr (.inl rfl)⟩, .string rfl (fun f h => by cases h) (by decide)⟩
    · cases h
  ref := by
    rintro q r d (rfl | rfl | rfl | rfl | rfl) h hl
    all_goals first | cases h; done | exact .inr (.inl (look_eq hl))
  items := by
    rintro q d (rfl | rfl | rfl | rfl | rfl) - h <;> cases h
  property := by
    rintro q k d (rfl | rfl | rfl | rfl | rfl) h' h
    · cases (dog_property h).2; exact .inr (.inr (.inl rfl))
    · cases (animal_property h).2; exact .inr (.inr (.inr (.inl rfl)))
    · cases h
    · cases h
    · cases h
  further := by
    rintro q d (rfl | rfl | rfl | rfl | rfl) - h <;> cases h
  part := by
    rintro q d (rfl | rfl | rfl | rfl | rfl) - h
    · cases List.mem_singleton.1 h; exact .inr (.inr (.inr (.inr rfl)))
    all_goals cases h
  composed := by
    rintro q (rfl | rfl | rfl | rfl | rfl) - h
    · refine ⟨fun t ht => ⟨_, List.mem_singleton.1 ht⟩, fun s e hs hl => ?_, fun e he => ?_, fun e e' k t t' he he' h1 h2 => ?_,
        .inr ⟨_, rfl⟩⟩
      · cases part_eq hs hl; exact ⟨rfl, .inr rfl⟩
      · rcases member_eq he with rfl | rfl <;> exact .inl rfl
      · rcases member_eq he with rfl | rfl <;> rcases member_eq he' with rfl | rfl
        · rw [h1] at h2; exact Option.some.inj h2
        · have := (dog_property h1).1.symm.trans (animal_property h2).1
          exact absurd this (by decide)
        · have := (dog_property h2).1.symm.trans (animal_property h1).1
          exact absurd this (by decide)
        · rw [h1] at h2; exact Option.some.inj h2
    all_goals exact absurd rfl h
  tag := by
    rintro q k (rfl | rfl | rfl | rfl | rfl) - h
    · cases h
    · cases h; exact ⟨kindQ, kindQ, rfl, .stop rfl, rfl, rfl, rfl, rfl, rfl⟩
    all_goals cases h

/-- the hypotheses hold -/
theorem setting_derefs : Schemas.Derefs env refs := by
  intro n
  show (∀ m, (if n = 2 then Except.ok 4 else Except.ok n) = .ok m → _) ∧ _
  refine ⟨fun m hm => ?_, fun e he => by dsimp only [env, World.env] at he; split at he <;> cases he⟩
  by_cases hn : n = 2
  · subst hn; cases hm; exact ⟨3, _, rfl⟩
  · simp only [if_neg hn, Except.ok.injEq] at hm
    subst hm
    have : refs n = none := by
      unfold refs; split
      · exact absurd rfl hn
      · rfl
    exact ⟨1, [n], by simp [Utils.deref, Utils.derefLoop, Utils.CycleGuard.update, this]⟩

theorem setting_known : Known env refs docs look := by
  intro r j hr _
  unfold docs at hr
  dsimp only at hr
  split at hr
  · next h =>
    cases hr
    exact ⟨animal_shown, animalQ, by unfold look; rw [if_pos h], rfl⟩
  · cases hr

/-- schemas with a discriminator are those named -/
theorem names {n : Nat} {q e : Dict Str Tree} {k : Str} (hq : dogs q) (hb : Belongs env refs docs n q)
    (hm : Member look q e) (h : textAt e c!"discriminator" = some k) : ∃ s, (env.node n).name = some (some s) := by
  have hs := C78_schema setting_derefs setting_known hb
  have here : q = dogQ ∨ q = animalQ := by
    rcases hq with rfl | rfl | rfl | rfl | rfl
    · exact .inl rfl
    · exact .inr rfl
    all_goals
      cases hm with
      | self => cases h
      | part hs => cases hs
  rcases here with rfl | rfl
  · have hp : ((objs n).allOf).length = 1 := hs.parts
    show ∃ s, (objs n).name = some (some s)
    match n, hp with
    | 0, _ => exact ⟨_, rfl⟩
    | 1, h | 2, h | 3, h | n + 4, h => cases h
  · have hp : (objs n).type = some c!"object" := text_eq hs.facts.type
    show ∃ s, (objs n).name = some (some s)
    match n, hp with
    | 0, h | 1, h | 2, h | 3, h => exact absurd h (by decide)
    | n + 4, _ => exact ⟨_, rfl⟩

theorem setting : Read env refs docs look dogs where
  derefs := setting_derefs
  known := setting_known
  closed := dogs_closed
  handlers := rfl
  order l := List.Perm.refl _
  distinct n := by
    show Dict.WF (objs n).properties
    match n with
    | 0 => decide
    | 1 | 2 | 3 => exact List.nodup_nil
    | n + 4 => show Dict.WF [(c!"kind", 3)]; decide
  values := by rintro q (rfl | rfl | rfl | rfl | rfl) t h <;> cases h
  names _ _ _ _ hq _ hb hm h := names hq hb hm h

theorem forms : Forms env World.toJson (Texts fun _ => true = true) :=
  C79_formats (w := plainWorld) ⟨fun _ _ h => (by cases h), fun _ _ h => (by cases h), fun _ _ h => (by cases h),
    fun _ _ h => (by cases h), fun _ _ h => (by cases h)⟩ (fun _ _ h => by cases h) _

/-- A dog of another kind is sent as a `Dog`. Its bark is checked by `Dog`, its kind by `Animal`. -/
example : ∃ x, convert env 9 0 (.dict [(c!"bark", .int 7), (c!"kind", .str c!"Cat"), (c!"age", .int 3)]) false = .ok x ∧
    C70.jsonOf World.toJson x = .ok (.dict [(c!"bark", .int 7), (c!"kind", .str c!"Dog"), (c!"age", .int 3)]) ∧
    Conforms look (Texts fun _ => true = true) False dogQ
      (.dict [(c!"bark", .int 7), (c!"kind", .str c!"Dog"), (c!"age", .int 3)]) := by
  have hc : (convert env 9 0 (.dict [(c!"bark", .int 7), (c!"kind", .str c!"Cat"), (c!"age", .int 3)]) false).toOption.map
      (C70.jsonOf World.toJson) = some (.ok (.dict [(c!"bark", .int 7), (c!"kind", .str c!"Dog"), (c!"age", .int 3)])) := by rfl
  cases hx : convert env 9 0 (.dict [(c!"bark", .int 7), (c!"kind", .str c!"Cat"), (c!"age", .int 3)]) false with
  | error e => rw [hx] at hc; cases hc
  | ok x =>
    rw [hx] at hc
    have hj := Option.some.inj hc
    refine ⟨x, rfl, hj, ?_⟩
    exact C79_conforms setting.setting (fun q hq t ht => by rcases hq with rfl | rfl | rfl | rfl | rfl <;> cases ht) forms
      ⟨_, _, dog_shown, rfl, .inl rfl⟩ (.inl rfl) (by simp [Proper, ProperPairs]) hx hj rfl

/-! ## beyond reach -/

/-- an environment around objects without references -/
def envOf (node : Nat → Node) : Env World.Atom := World.env plainWorld
  { node := node, deref := fun n => .ok n, reg := [], toInt := fun _ => .error .TypeError,
    toFloat := fun _ => .error .TypeError, toStr := fun _ => [], toBool := fun _ => true, validEmail := fun _ => true,
    eq := fun a b => a = b, atom := fun _ _ _ => .error .TypeError, mismatch := fun _ _ _ => .ok (), order := id }

theorem derefs_of (node : Nat → Node) : Schemas.Derefs (envOf node) fun _ => none := by
  intro n
  refine ⟨fun m hm => ?_, fun e he => by cases he⟩
  cases hm
  exact ⟨1, [n], by simp [Utils.deref, Utils.derefLoop, Utils.CycleGuard.update]⟩

def noDocs : MergeRefs.World := ⟨fun _ => .atom .none, fun _ => .error .KeyError⟩

/-- requires `a` -/
def deepQ : Dict Str Tree := [(c!"required", .list [txt c!"a"]), (c!"properties", .dict [(c!"a", .dict kindQ)])]
def midQ : Dict Str Tree := [(c!"allOf", .list [.dict deepQ])]
def topQ : Dict Str Tree := [(c!"required", .list [txt c!"b"]), (c!"properties", .dict [(c!"b", .dict kindQ)]),
  (c!"allOf", .list [.dict midQ])]

def deepFs : List (Str × Tree) := assemble schemaCls [(c!"required", .list [txt c!"a"]),
  (c!"properties", .dict [(c!"a", .obj cSchema kindFs)])]
def midFs : List (Str × Tree) := assemble schemaCls [(c!"allOf", .list [.obj cSchema deepFs])]
def topFs : List (Str × Tree) := assemble schemaCls [(c!"required", .list [txt c!"b"]),
  (c!"properties", .dict [(c!"b", .obj cSchema kindFs)]), (c!"allOf", .list [.obj cSchema midFs])]

def nest : Nat → Node
  | 0 => Schemas.nodeOf topFs none none [2] [(c!"b", 1)] .yes
  | 2 => Schemas.nodeOf midFs none none [3] [] .yes
  | 3 => Schemas.nodeOf deepFs none none [] [(c!"a", 1)] .yes
  | _ => Schemas.nodeOf kindFs none none [] [] .yes

/-- **C79, refuted for parts of parts.** They are not looked at: an object that lacks what they require is sent. -/
theorem C79_nested_false : ∃ x, convert (envOf nest) 9 0 (.dict [(c!"b", .str c!"x")]) false = .ok x ∧
    C70.jsonOf World.toJson x = .ok (.dict [(c!"b", .str c!"x")]) ∧
    Belongs (envOf nest) (fun _ => none) noDocs 0 topQ ∧ Known (envOf nest) (fun _ => none) noDocs (fun _ => none) ∧
    Schemas.Derefs (envOf nest) (fun _ => none) ∧
    ∀ form, ¬ Conforms (fun _ => none) form False topQ (.dict [(c!"b", .str c!"x")]) := by
  have kind : Schemas.Shows (envOf nest) (fun _ => none) noDocs 1 (.obj cSchema kindFs) :=
    .intro rfl (.none rfl) .nil .nil (.bool (b := true)) rfl
  refine ⟨_, rfl, by rfl, ⟨_, _, .intro rfl (.none rfl) (.cons (.intro rfl (.none rfl) (.cons (.intro rfl (.none rfl) .nil
      (.cons kind .nil) (.bool (b := true)) rfl) .nil) .nil (.bool (b := true)) rfl) .nil) (.cons kind .nil)
      (.bool (b := true)) rfl, rfl, .inl rfl⟩, fun r j h => (by cases h), derefs_of _, fun form h => ?_⟩
  have stay : ∀ {q d : Dict Str Tree}, Leads (fun _ => none) q d → d = q := by
    intro q d h
    cases h with
    | stop => rfl
    | go _ h => cases h
  cases h with
  | number _ _ hn => rcases hn with hn | ⟨_, hn, -⟩ <;> cases hn
  | object hl _ _ _ _ _ _ _ hp =>
    cases stay hl
    cases hp midQ (List.mem_singleton.2 rfl) with
    | number _ _ hn => rcases hn with hn | ⟨_, hn, -⟩ <;> cases hn
    | object hl _ _ _ _ _ _ _ hp =>
      cases stay hl
      cases hp deepQ (List.mem_singleton.2 rfl) with
      | number _ _ hn => rcases hn with hn | ⟨_, hn, -⟩ <;> cases hn
      | object hl _ _ hr _ _ _ _ _ =>
        cases stay hl
        obtain ⟨v, hv⟩ := hr c!"a" (List.mem_singleton.2 rfl)
        cases hv

def unnamed : Nat → Node
  | 0 => Schemas.nodeOf animalFs none none [] [(c!"kind", 1)] .yes
  | _ => Schemas.nodeOf kindFs none none [] [] .yes

/-- **C79, refuted for a discriminator of a schema without a name.** Schemas outside `definitions` have none: null is
sent in place of the value given for the discriminator. -/
theorem C79_unnamed_false : ∃ x, convert (envOf unnamed) 9 0 (.dict [(c!"kind", .str c!"Cat")]) false = .ok x ∧
    C70.jsonOf World.toJson x = .ok (.dict [(c!"kind", .none)]) ∧
    Belongs (envOf unnamed) (fun _ => none) noDocs 0 animalQ ∧ Known (envOf unnamed) (fun _ => none) noDocs (fun _ => none) ∧
    Schemas.Derefs (envOf unnamed) (fun _ => none) ∧
    ∀ form, ¬ Conforms (fun _ => none) form False animalQ (.dict [(c!"kind", .none)]) := by
  refine ⟨.model [(c!"kind", .none)], ?_, by rfl, ⟨_, _, .intro rfl (.none rfl) .nil (.cons (.intro rfl (.none rfl) .nil .nil
    (.bool (b := true)) rfl) .nil) (.bool (b := true)) rfl, rfl, .inl rfl⟩, fun r j h => (by cases h), derefs_of _, fun form h => ?_⟩
  · rfl
  · cases h with
    | number _ _ hn => rcases hn with hn | ⟨_, hn, -⟩ <;> cases hn
    | object hl _ _ _ hp _ _ _ _ =>
      cases hl with
      | go _ h => cases h
      | stop =>
        cases hp c!"kind" .none kindQ rfl rfl with
        | null h => exact h
        | number _ _ hn => rcases hn with hn | ⟨_, hn, -⟩ <;> cases hn

/-! ## what conforms to all parts is accepted -/

/-- requires `b`, and, with its part, `a` -/
def pairQ : Dict Str Tree := [(c!"required", .list [txt c!"b"]), (c!"properties", .dict [(c!"b", .dict kindQ)]),
  (c!"allOf", .list [.dict deepQ])]
def pairFs : List (Str × Tree) := assemble schemaCls [(c!"required", .list [txt c!"b"]),
  (c!"properties", .dict [(c!"b", .obj cSchema kindFs)]), (c!"allOf", .list [.obj cSchema deepFs])]

def pair : Nat → Node
  | 0 => Schemas.nodeOf pairFs none none [2] [(c!"b", 1)] .yes
  | 2 => Schemas.nodeOf deepFs none none [] [(c!"a", 1)] .yes
  | _ => Schemas.nodeOf kindFs none none [] [] .yes

theorem pair_shown : Schemas.Shows (envOf pair) (fun _ => none) noDocs 0 (.obj cSchema pairFs) :=
  .intro rfl (.none rfl) (.cons (.intro rfl (.none rfl) .nil (.cons (.intro rfl (.none rfl) .nil .nil (.bool (b := true)) rfl) .nil)
    (.bool (b := true)) rfl) .nil) (.cons (.intro rfl (.none rfl) .nil .nil (.bool (b := true)) rfl) .nil) (.bool (b := true)) rfl

def pairs (q : Dict Str Tree) : Prop := q = pairQ ∨ q = deepQ ∨ q = kindQ

theorem stay {q d : Dict Str Tree} (h : Leads (fun _ => none) q d) : d = q := by
  cases h with
  | stop => rfl
  | go _ h => cases h

theorem pair_property {k : Str} {t : Tree} (h : propertyAt pairQ k = some t) : k = c!"b" ∧ t = .dict kindQ := by
  have h : Dict.get? [(c!"b", Tree.dict kindQ)] k = some t := h
  simp only [Dict.get?] at h
  split at h
  · next e => cases h; exact ⟨e.symm, rfl⟩
  · cases h

theorem deep_property {k : Str} {t : Tree} (h : propertyAt deepQ k = some t) : k = c!"a" ∧ t = .dict kindQ := by
  have h : Dict.get? [(c!"a", Tree.dict kindQ)] k = some t := h
  simp only [Dict.get?] at h
  split at h
  · next e => cases h; exact ⟨e.symm, rfl⟩
  · cases h

theorem pair_member {e : Dict Str Tree} (h : Member (fun _ => none) pairQ e) : e = pairQ ∨ e = deepQ := by
  cases h with
  | self => exact .inl rfl
  | part hs hl => cases List.mem_singleton.1 hs; exact .inr (stay hl)

theorem pairs_closed : Closed (fun _ => none) pairs where
  simple := by
    rintro q (rfl | rfl | rfl) h
    · exact ⟨.inr (.inl rfl), ⟨.inr (.inl rfl), .inr (.inl rfl)⟩, .object (.inr ⟨rfl, .inl (by intro h; cases h)⟩)
        (fun k t h => ⟨_, (pair_property h).2⟩) (.nothing rfl) rfl⟩
    · exact ⟨.inl rfl, ⟨.inr (.inl rfl), .inr (.inl rfl)⟩, .object (.inr ⟨rfl, .inl (by intro h; cases h)⟩)
        (fun k t h => ⟨_, (deep_property h).2⟩) (.nothing rfl) rfl⟩
    · exact ⟨.inl rfl, ⟨.inr (.inl rfl), .inr (.inl rfl)⟩, .string rfl (fun f h => by cases h) (by decide)⟩
  ref _ _ _ _ _ h := by cases h
  items := by rintro q d (rfl | rfl | rfl) - h <;> cases h
  property := by
    rintro q k d (rfl | rfl | rfl) h' h
    · cases (pair_property h).2; exact .inr (.inr rfl)
    · cases (deep_property h).2; exact .inr (.inr rfl)
    · cases h
  further := by rintro q d (rfl | rfl | rfl) - h <;> cases h
  part := by
    rintro q d (rfl | rfl | rfl) - h
    · cases List.mem_singleton.1 h; exact .inr (.inl rfl)
    all_goals cases h
  composed := by
    rintro q (rfl | rfl | rfl) - h
    · refine ⟨fun t ht => ⟨_, List.mem_singleton.1 ht⟩, fun s e hs hl => ?_, fun e he => ?_, fun e e' k t t' he he' h1 h2 => ?_,
        .inr ⟨_, rfl⟩⟩
      · cases List.mem_singleton.1 hs; cases stay hl; exact ⟨rfl, .inl rfl⟩
      · rcases pair_member he with rfl | rfl <;> exact .inl rfl
      · rcases pair_member he with rfl | rfl <;> rcases pair_member he' with rfl | rfl
        · rw [h1] at h2; exact Option.some.inj h2
        · exact absurd ((pair_property h1).1.symm.trans (deep_property h2).1) (by decide)
        · exact absurd ((pair_property h2).1.symm.trans (deep_property h1).1) (by decide)
        · rw [h1] at h2; exact Option.some.inj h2
    all_goals exact absurd rfl h
  tag := by rintro q k (rfl | rfl | rfl) - h <;> cases h

theorem pair_setting : Read (envOf pair) (fun _ => none) noDocs (fun _ => none) pairs where
  derefs := derefs_of _
  known _ _ h := by cases h
  closed := pairs_closed
  handlers := rfl
  order l := List.Perm.refl _
  distinct n := by
    show Dict.WF (pair n).properties
    match n with
    | 0 | 2 => decide
    | 1 | n + 3 => exact List.nodup_nil
  values := by rintro q (rfl | rfl | rfl) t h <;> cases h
  names n q e k hq _ _ hm h := by
    rcases hq with rfl | rfl | rfl
    · rcases pair_member hm with rfl | rfl <;> cases h
    all_goals
      cases hm with
      | self => cases h
      | part hs => cases hs

/-- the object with both is accepted, for sending, too -/
example : ∃ F, Taken (envOf pair) World.toJson True 0 (.dict [(c!"a", .str c!"x"), (c!"b", .str c!"y")]) F := by
  have text : ∀ {form : Str → Str → Prop} s, Conforms (fun _ => none) form False kindQ (.str s) := fun s =>
    .string (d := kindQ) (.stop rfl) rfl (.inl rfl) ⟨fun m h => (by cases h), fun m h => (by cases h)⟩ fun f h => by cases h
  have deep : ∀ {form : Str → Str → Prop} {d}, d = deepQ ∨ d = pairQ → ∀ {k v s}, Dict.get? [(c!"a", Val.str c!"x"), (c!"b", .str c!"y")] k = some v →
      propertyAt d k = some (.dict s) → Conforms (fun _ => none) form False s v := by
    rintro form d hd k v s hk hs
    have : s = kindQ := by
      rcases hd with rfl | rfl
      · exact Tree.dict.inj (deep_property hs).2
      · exact Tree.dict.inj (pair_property hs).2
    subst this
    simp only [Dict.get?] at hk
    split at hk
    · cases hk; exact text _
    · split at hk
      · cases hk; exact text _
      · cases hk
  refine C79_accepted (N := False) (q := pairQ) pair_setting.setting (C79_own _ _) (C79_back _ _) ?_ ?_ ⟨_, _, pair_shown, rfl, .inl rfl⟩ (.inl rfl) rfl
  · rintro q (rfl | rfl | rfl)
    · refine ⟨.inl rfl, fun _ => .inl rfl, fun k hk => ?_, fun h => (by cases h), .inr ⟨c!"b", kindQ, ?_, rfl⟩, rfl⟩
      · cases List.mem_singleton.1 hk; exact ⟨_, rfl⟩
      · exact List.mem_singleton.2 rfl
    · refine ⟨.inl rfl, fun _ => .inl rfl, fun k hk => ?_, fun h => (by cases h), .inl rfl, rfl⟩
      cases List.mem_singleton.1 hk; exact ⟨_, rfl⟩
    · exact ⟨.inl rfl, fun _ => .inl rfl, fun k hk => (by cases hk), fun h => (by cases h), .inl rfl, rfl⟩
  · refine .object (d := pairQ) (.stop rfl) (.inl rfl) (by decide) (fun k hk => ?_) (fun k v s hk hs => deep (.inr rfl) hk hs)
      (fun k v s _ _ h => by cases h) (fun k v _ _ h => by cases h) (.inl rfl) fun s hs => ?_
    · cases List.mem_singleton.1 hk; exact ⟨_, rfl⟩
    · cases List.mem_singleton.1 hs
      refine .object (d := deepQ) (.stop rfl) (.inl rfl) (by decide) (fun k hk => ?_) (fun k v s hk hs => deep (.inl rfl) hk hs)
        (fun k v s _ _ h => by cases h) (fun k v _ _ h => by cases h) (.inl rfl) fun s hs => by cases hs
      cases List.mem_singleton.1 hk; exact ⟨_, rfl⟩

end Props.C79.Parts
