import Verif.Props.C90
import Verif.Props.C83Example
/-!
# C90: a concrete document

Dogs are animals; the discriminator is declared for animals.
-/

namespace Props.C90.Zoo
open Py Utils Tree _root_.Doc Prim Spec Spec.Places Spec.Pointed Spec.Described Spec.SchemaDoc Spec.Conform Spec.Wire Spec.Tagged
open _root_.Loaded Proofs.Loaded Proofs.Origin Proofs.Wire Props.C78 Props.C79 Props.C83
open Call Io Ask Spec.Server Props.C72

def url : Str := c!"http://h/z"
def at_ : Url := ⟨c!"http", c!"h", c!"/z", [], [], []⟩

def kindQ : Dict Str Tree := [(c!"type", txt c!"string")]
def barkQ : Dict Str Tree := [(c!"type", txt c!"integer")]
def partQ : Dict Str Tree := [(c!"$ref", txt c!"#/definitions/Animal")]
def animalQ : Dict Str Tree := [(c!"type", txt c!"object"), (c!"discriminator", txt c!"kind"), (c!"required", .list [txt c!"kind"]),
  (c!"properties", .dict [(c!"kind", .dict kindQ)])]
def dogQ : Dict Str Tree := [(c!"allOf", .list [.dict partQ]), (c!"properties", .dict [(c!"bark", .dict barkQ)])]
def refQ : Dict Str Tree := [(c!"$ref", txt c!"http://h/z#/definitions/Dog")]
def bodyQ : Dict Str Tree := [(c!"name", txt c!"pet"), (c!"in", txt c!"body"), (c!"schema", .dict refQ)]
def postQ : Dict Str Tree := [(c!"parameters", .list [.dict bodyQ]), (c!"responses", .dict [])]
def itemQ : Dict Str Tree := [(c!"post", .dict postQ)]

/-- the document -/
def doc : Tree := .dict [(c!"swagger", txt c!"2.0"), (c!"host", txt c!"h"),
  (c!"paths", .dict [(c!"/zoo", .dict itemQ)]), (c!"definitions", .dict [(c!"Dog", .dict dogQ), (c!"Animal", .dict animalQ)])]

theorem canon : Canon at_ :=
  have : urlparse url = at_ := by decide
  this ▸ canon_urlparse (this ▸ ⟨by decide, Or.inl (by decide)⟩)

theorem url_eq : urlunparse at_ = url := by decide

theorem self : SelfContained doc url := Proofs.Checked.checked (by decide +kernel)

def read : Tree := (parse v20 cSwagger doc).getD (.atom .none)
def root : Tree := (normalizeRefs url read).getD (.atom .none)

theorem read_eq : parse v20 cSwagger doc = some read := by
  have h : (parse v20 cSwagger doc).isSome = true := by decide +kernel
  unfold read
  cases hp : parse v20 cSwagger doc with
  | none => rw [hp] at h; cases h
  | some t => rfl

theorem root_eq : normalizeRefs url read = some root := by
  have h : (normalizeRefs url read).isSome = true := by decide +kernel
  unfold root
  cases hp : normalizeRefs url read with
  | none => rw [hp] at h; cases h
  | some t => rfl

theorem loads : Loads doc at_ read root := ⟨canon, rfl, url_eq ▸ self, read_eq, url_eq ▸ root_eq⟩

/-! numbers for the objects -/

def table : List (List Str) := [[c!"definitions", c!"Dog"], [c!"definitions", c!"Dog", c!"properties", c!"bark"],
  [c!"definitions", c!"Dog", c!"allOf", c!"0"], [c!"definitions", c!"Animal"],
  [c!"definitions", c!"Animal", c!"properties", c!"kind"],
  [c!"paths", c!"/zoo", c!"post", c!"parameters", c!"0", c!"schema"]]

def idx (p : List Str) : Nat := if p ∈ table then table.idxOf p else table.length + C83.code p
def spot (n : Nat) : List Str := if n < table.length then table.getD n [] else C83.place (n - table.length)

theorem spot_idx (p : List Str) : spot (idx p) = p := by
  unfold idx spot
  by_cases h : p ∈ table
  · have hi : table.idxOf p < table.length := List.idxOf_lt_length_of_mem h
    rw [if_pos h, if_pos hi, List.getD_eq_getElem?_getD, List.getElem?_eq_getElem hi, List.getElem_idxOf]
    rfl
  · rw [if_neg h, if_neg (by omega), Nat.add_sub_cancel_left, C83.place_code]

/-- the objects of the document have even numbers, those inside `final` odd ones -/
def outside : Objects.Outside where
  num ts := 2 * idx ts
  pos n := spot (n / 2)
  left ts := by rw [Nat.mul_div_cancel_left _ (by decide), spot_idx]
  foreign _ := .atom .none
  away _ := .error .KeyError
  path2url := id
  abspath := id
  alone _ _ h := by cases h
  spare i ts := 2 * Nat.pair i (idx ts) + 1
  made n := if n % 2 = 0 then none else some ((n / 2).unpair.1, spot (n / 2).unpair.2)
  makes i ts := by
    rw [if_neg (by omega), show (2 * Nat.pair i (idx ts) + 1) / 2 = Nat.pair i (idx ts) by omega, Nat.unpair_pair]
    dsimp only
    rw [spot_idx]
  apart ts := if_pos (by omega)

/-! what is written -/

theorem written {ts : List Str} {c : Nat} {q : Dict Str Tree}
    (h : ((Proofs.Checked.places (.one cSwagger) doc).any fun x =>
      x.1 == ts && Proofs.Checked.takes x.2.1 == some c && decide (x.2.2 = .dict q)) = true) : Written doc ts c q := by
  obtain ⟨⟨ts', k, u⟩, hx, h⟩ := List.any_eq_true.1 h
  simp only [Bool.and_eq_true, beq_iff_eq, decide_eq_true_eq] at h
  obtain ⟨⟨rfl, hk⟩, rfl⟩ := h
  exact Proofs.Checked.written_mem (by decide +kernel) hk hx

theorem styled : Styled doc := by
  intro ts c q v ⟨k, hk, hp⟩ _ hv
  have key : ((Proofs.Checked.places (.one cSwagger) doc).all fun x =>
      match x.2.2 with
      | .dict q => decide (Dict.get? q c!"collectionFormat" = none)
      | _ => true) = true := by decide +kernel
  have := List.all_eq_true.1 key _ (Proofs.Checked.place_mem hp)
  rw [of_decide_eq_true this] at hv
  cases hv

theorem body_stands : Stands doc url cParameter 0 [c!"paths", c!"/zoo", c!"post", c!"parameters", c!"0"] bodyQ :=
  .inline (written (by decide +kernel)) rfl

theorem forOp : elements ([c!"paths", c!"/zoo"] ++ [c!"post"]) c!"parameters" postQ =
    [[c!"paths", c!"/zoo", c!"post", c!"parameters", c!"0"]] := by decide +kernel

theorem asked : Asked doc at_ [c!"paths", c!"/zoo"] c!"post" itemQ postQ [bodyQ] [] where
  item := written (by decide +kernel)
  inPlace := rfl
  operation := ⟨rfl, by decide⟩
  forOp := by
    rw [url_eq, Zoo.forOp]
    exact .cons ⟨0, body_stands⟩ .nil
  forItem := .nil
  texts q hq := by cases List.mem_singleton.1 hq; exact ⟨⟨_, rfl⟩, _, rfl⟩
  distinct := by decide

/-! the schemas within reach -/

def look : Str → Option (Dict Str Tree) := Proofs.Checked.lookIn doc url

theorem look_animal : look c!"#/definitions/Animal" = some animalQ := by decide +kernel
theorem look_dog : look c!"http://h/z#/definitions/Dog" = some dogQ := by decide +kernel

def dogs (q : Dict Str Tree) : Prop := q = dogQ ∨ q = animalQ ∨ q = barkQ ∨ q = kindQ ∨ q = partQ ∨ q = refQ

theorem part_eq {s e : Dict Str Tree} (hs : .dict s ∈ listAt dogQ c!"allOf") (hl : Leads look s e) : e = animalQ := by
  cases List.mem_singleton.1 hs
  cases hl with
  | stop h => cases h
  | go h' h h'' =>
    cases h'
    rw [look_animal] at h
    cases h
    cases h'' with
    | stop => rfl
    | go h => cases h

theorem member_eq {e : Dict Str Tree} (h : Member look dogQ e) : e = dogQ ∨ e = animalQ := by
  cases h with
  | self => exact .inl rfl
  | part hs hl => exact .inr (part_eq hs hl)

theorem dog_property {k : Str} {t : Tree} (h : propertyAt dogQ k = some t) : k = c!"bark" ∧ t = .dict barkQ := by
  have h : Dict.get? [(c!"bark", Tree.dict barkQ)] k = some t := h
  simp only [Dict.get?] at h
  split at h
  · next e => cases h; exact ⟨e.symm, rfl⟩
  · cases h

theorem animal_property {k : Str} {t : Tree} (h : propertyAt animalQ k = some t) : k = c!"kind" ∧ t = .dict kindQ := by
  have h : Dict.get? [(c!"kind", Tree.dict kindQ)] k = some t := h
  simp only [Dict.get?] at h
  split at h
  · next e => cases h; exact ⟨e.symm, rfl⟩
  · cases h

theorem dogs_closed : Closed look dogs where
  simple := by
    rintro q (rfl | rfl | rfl | rfl | rfl | rfl) h
    · exact ⟨.inr (.inl rfl), ⟨.inr (.inl rfl), .inr (.inl rfl)⟩, .object (.inr ⟨rfl, .inl (by intro h; cases h)⟩)
        (fun k t h => ⟨_, (dog_property h).2⟩) (.nothing rfl) rfl⟩
    · exact ⟨.inl rfl, ⟨.inr (.inl rfl), .inr (.inl rfl)⟩, .object (.inl rfl)
        (fun k t h => ⟨_, (animal_property h).2⟩) (.nothing rfl) rfl⟩
    · exact ⟨.inl rfl, ⟨.inr (.inl rfl), .inr (.inl rfl)⟩, .integer rfl rfl rfl⟩
    · exact ⟨.inl rfl, ⟨.inr (.inl rfl), .inr (.inl rfl)⟩, .string rfl (fun f h => by cases h) (by decide)⟩
    · cases h
    · cases h
  ref := by
    rintro q r d (rfl | rfl | rfl | rfl | rfl | rfl) h hl
    · cases h
    · cases h
    · cases h
    · cases h
    · cases h; rw [look_animal] at hl; cases hl; exact .inr (.inl rfl)
    · cases h; rw [look_dog] at hl; cases hl; exact .inl rfl
  items := by
    rintro q d (rfl | rfl | rfl | rfl | rfl | rfl) - h <;> cases h
  property := by
    rintro q k d (rfl | rfl | rfl | rfl | rfl | rfl) h' h
    · cases (dog_property h).2; exact .inr (.inr (.inl rfl))
    · cases (animal_property h).2; exact .inr (.inr (.inr (.inl rfl)))
    all_goals cases h
  further := by
    rintro q d (rfl | rfl | rfl | rfl | rfl | rfl) - h <;> cases h
  part := by
    rintro q d (rfl | rfl | rfl | rfl | rfl | rfl) - h
    · cases List.mem_singleton.1 h; exact .inr (.inr (.inr (.inr (.inl rfl))))
    all_goals cases h
  composed := by
    rintro q (rfl | rfl | rfl | rfl | rfl | rfl) - h
    · refine ⟨fun t ht => ⟨_, List.mem_singleton.1 ht⟩, fun s e hs hl => ?_, fun e he => ?_, fun e e' k t t' he he' h1 h2 => ?_,
        .inr ⟨_, rfl⟩⟩
      · cases part_eq hs hl; exact ⟨rfl, .inr rfl⟩
      · rcases member_eq he with rfl | rfl <;> exact .inl rfl
      · rcases member_eq he with rfl | rfl <;> rcases member_eq he' with rfl | rfl
        · rw [h1] at h2; exact Option.some.inj h2
        · have := (dog_property h1).1.symm.trans (animal_property h2).1
          exact absurd this (by decide)
        · have := (dog_property h2).1.symm.trans (animal_property h1).1
          exact absurd this (by decide)
        · rw [h1] at h2; exact Option.some.inj h2
    all_goals exact absurd rfl h
  tag := by
    rintro q k (rfl | rfl | rfl | rfl | rfl | rfl) - h
    · cases h
    · cases h; exact ⟨kindQ, kindQ, rfl, .stop rfl, rfl, rfl, rfl, rfl, rfl⟩
    all_goals cases h

/-- where `Dog` and `Animal` are written, and only there -/
theorem at_definition {ts : List Str} {q : Dict Str Tree} (hw : Written doc ts cSchema q) (hq : q = dogQ ∨ q = animalQ) :
    ts = [c!"definitions", c!"Dog"] ∨ ts = [c!"definitions", c!"Animal"] := by
  obtain ⟨k, hk, hp⟩ := hw
  have key : ((Proofs.Checked.places (.one cSwagger) doc).all fun x =>
      !(decide (x.2.2 = .dict dogQ) || decide (x.2.2 = .dict animalQ)) ||
        decide (x.1 = [c!"definitions", c!"Dog"] ∨ x.1 = [c!"definitions", c!"Animal"])) = true := by decide +kernel
  have := List.all_eq_true.1 key _ (Proofs.Checked.place_mem hp)
  rcases hq with rfl | rfl <;> simpa using this

theorem schemed : Schemed doc at_ look dogs where
  looks r ts q hn hw := by
    rw [url_eq] at hn
    exact Proofs.Checked.looks self.plain (by decide) (by decide) r ts q hn hw
  closed := dogs_closed
  values := by rintro q (rfl | rfl | rfl | rfl | rfl | rfl) t h <;> cases h
  tags := by
    intro ts q e hw hts hq hr hm
    have no : ∀ {q}, Written doc ts cSchema q → (q = dogQ ∨ q = animalQ) → False := by
      intro q hw hq
      rcases at_definition hw hq with rfl | rfl <;> rcases hts with h | h <;> exact absurd h (by decide)
    rcases hq with rfl | rfl | rfl | rfl | rfl | rfl
    · exact (no hw (.inl rfl)).elim
    · exact (no hw (.inr rfl)).elim
    all_goals
      cases hm with
      | self => rfl
      | part h => cases h

/-! ## a dog is sent -/

def env0 : Prim.Env World.Atom :=
  { node := fun _ => {}, deref := fun n => .ok n, reg := [], toInt := fun _ => .error .TypeError,
    toFloat := fun _ => .error .TypeError, toStr := fun _ => [], toBool := fun _ => true, validEmail := fun _ => true,
    eq := fun a b => a = b, atom := fun _ _ _ => .error .TypeError, mismatch := fun _ _ _ => .ok (), order := id }

/-- the objects of the document -/
def zoo : Prim.Env World.Atom :=
  Objects.env outside (urlunparse at_) root id 9 (Proofs.Made.bound root) (World.env plainWorld env0)

theorem objects : C82.Schemata doc at_ root outside.toOutside zoo (Objects.ref outside (urlunparse at_) root id 9) look dogs :=
  schemata_of loads schemed (Nat.le_refl _) _ rfl (fun _ => List.Perm.refl _) 9

/-- the schema of the body -/
def here : List Str := [c!"paths", c!"/zoo", c!"post", c!"parameters", c!"0", c!"schema"]

theorem here_written : Written doc here cSchema refQ := written (by decide +kernel)

theorem here_holds : C82.Holds doc outside.toOutside zoo (Objects.ref outside (urlunparse at_) root id 9)
    (raw outside.toOutside doc (urlunparse at_) read) (outside.num here) refQ := by
  obtain ⟨fs, h1, -, h3, h4⟩ := content_raw (o := outside.toOutside) loads here_written
  refine ⟨⟨_, _, schema_raw loads h4 ?_, h1, .inl rfl⟩, here, here_written, .inl rfl⟩
  rw [← h3]
  exact objects.schemas _ _ here_written

/-- what the caller passes -/
def rex : Val := .dict [(c!"bark", .int 7), (c!"kind", .str c!"???")]

/-- what is sent of it -/
def sent : Option Val :=
  match convert zoo 9 (outside.num here) rex false with
  | .ok x => (C70.jsonOf World.toJson x).toOption
  | .error _ => none

/-- the discriminator holds the name of the definition, whatever the caller passed -/
theorem sent_eq : sent = some (.dict [(c!"bark", .int 7), (c!"kind", .str c!"Dog")]) := by decide +kernel

theorem defaults : ∀ q, dogs q → Defaults True q := by
  rintro q (rfl | rfl | rfl | rfl | rfl | rfl) t ht <;> cases ht

/-- ... as is said of every value -/
theorem rex_tagged : Tagged look (Definition (urlunparse at_)) refQ (.dict [(c!"bark", .int 7), (c!"kind", .str c!"Dog")]) := by
  have hw := sent_eq
  unfold sent at hw
  cases h : convert zoo 9 (outside.num here) rex false with
  | error e => rw [h] at hw; cases hw
  | ok x =>
    rw [h] at hw
    cases hj : C70.jsonOf World.toJson x with
    | error e => simp only [hj] at hw; cases hw
    | ok w =>
      simp only [hj] at hw
      have hw : w = _ := Option.some.inj hw
      subst hw
      exact C90_tagged (N := True) (C82.schemata loads objects) defaults
        (names_of loads objects fun r X hX => ⟨hX.1, _, hX.2, rfl⟩) here_holds (.inr (.inr (.inr (.inr (.inr rfl)))))
        (by simp [rex, Proper, ProperPairs]) h hj rfl

/-- the schema of the body is a reference to `Dog` -/
theorem named : Definition (urlunparse at_) c!"http://h/z#/definitions/Dog" c!"Dog" :=
  ⟨by decide, by decide, .inr (by decide)⟩

theorem leads_dog {d : Dict Str Tree} (h : Leads look refQ d) : d = dogQ := by
  cases h with
  | stop h => cases h
  | go h' h h'' =>
    cases h'
    rw [look_dog] at h
    cases h
    cases h'' with
    | stop => rfl
    | go h => cases h

/-- a value with another discriminator is none the document allows -/
theorem cat_not : ¬ Tagged look (Definition (urlunparse at_)) refQ (.dict [(c!"kind", .str c!"Cat"), (c!"bark", .int 7)]) := by
  intro h
  cases h with
  | single _ h => exact h _ rfl
  | @object _ d _ hd h _ _ =>
    have hd' := leads_dog hd
    subst hd'
    have := h _ _ animalQ c!"kind" (.last rfl look_dog rfl) named (.part (List.mem_singleton.2 rfl) (.go rfl look_animal (.stop rfl))) rfl
    cases this

/-- The same of whole requests: whatever the caller passes for the parameter `pet`, the body holds the discriminator. -/
example {δ : Type} {w : World.Outside} {order : List Atom → List Atom} (ho : ∀ l, (order l).Perm l)
    {files : FileArg World.Atom → FileVal}
    {op : Io.Op δ} {sch : SchemeArg} {hf : Bool} {enc : Prim.Json.Enc World.Atom} {leaf : Prim World.Atom → Except Exc Str}
    {renv : Io.Env (Prim World.Atom) δ Str} (hw : C74.Sound w) {v : Val} {k : Dict Str Val}
    (hk : Dict.get? k c!"pet" = some v) (hv : Proper True v) : ∃ b, ∀ mfuel, b ≤ mfuel → ∀ rounds, b ≤ rounds →
    ∃ ps, Objects.decls outside url root order mfuel [outside.num [c!"paths", c!"/zoo", c!"post", c!"parameters", c!"0"]] []
        = some ps ∧
      ∀ {fuel : Nat} {r r' : Req (Prim World.Atom) Str},
      ask (World.env w (Objects.env outside url root order mfuel rounds env0)) leaf fuel ps files op k = .ok r →
      prepare renv op sch hf r = .ok r' → r.p.file = [] → r.p.formData = [] →
      op.parameters.map (fun d => (d.name, d.in_)) = ps.map (fun q => (q.name, q.in_)) →
      (∀ b d, renv.marshal (C24.bodyType op.consumes r.consume) b d = Prim.Json.marshal enc b) →
      ∃ m c, convert (World.env w (Objects.env outside url root order mfuel rounds env0)) fuel m v false = .ok c ∧
        ∀ u, C70.jsonOf enc.toJson c = .ok u → Spec.Json.Plain enc.repr u →
          ∃ body, r'.data = .payload body ∧ Spec.Json.readJson body = some u ∧
            ∀ es, u = .dict es → Dict.get? es c!"kind" = some (.str c!"Dog") := by
  obtain ⟨b, h⟩ := C90_body (N := True) (order := order) (e := env0) (files := files) (op := op) (sch := sch) (hf := hf) (enc := enc)
    (leaf := leaf) (renv := renv) loads
    (rfl : outside.version12 = false) styled ho (fun _ => List.Perm.refl _) asked
    hw schemed defaults (q := bodyQ) (List.mem_singleton.2 rfl) rfl rfl rfl rfl
    (fun d hd _ => by cases List.mem_singleton.1 hd; rfl) rfl (.inr (.inr (.inr (.inr (.inr rfl))))) hk hv
  refine ⟨b, fun mfuel hm rounds hr => ?_⟩
  obtain ⟨ps, h1, h2⟩ := h mfuel hm rounds hr
  rw [url_eq] at h1 h2
  rw [Zoo.forOp] at h1
  refine ⟨ps, h1, fun ha hp h3 h4 h5 h6 => ?_⟩
  obtain ⟨m, c, -, g1, g2⟩ := h2 ha hp h3 h4 h5 h6
  refine ⟨m, c, g1, fun u hu hpl => ?_⟩
  obtain ⟨body, g3, g4, g5⟩ := g2 u hu hpl
  refine ⟨body, g3, g4, ?_⟩
  rintro es rfl
  cases g5 with
  | single _ h => exact absurd rfl (h es)
  | @object _ d _ hd h _ _ =>
    have hd' := leads_dog hd
    subst hd'
    exact h _ _ animalQ c!"kind" (.last rfl look_dog rfl) (url_eq ▸ named)
      (.part (List.mem_singleton.2 rfl) (.go rfl look_animal (.stop rfl))) rfl

/-! ## and received -/

/-- A reply is declared to be an animal, and holds a dog. -/
def got : Option Val :=
  match convert zoo 9 (outside.num [c!"definitions", c!"Dog", c!"allOf", c!"0"])
    (.dict [(c!"kind", .str c!"Dog")]) true with
  | .ok x => (C70.jsonOf World.toJson x).toOption
  | .error _ => none

/-- **C90 fails for what is received:** the discriminator the server sent is replaced by the name of the schema the
reply is declared with, so the caller cannot tell which model it is. -/
theorem C90_received_false : got = some (.dict [(c!"kind", .str c!"Animal")]) := by decide +kernel

end Props.C90.Zoo
