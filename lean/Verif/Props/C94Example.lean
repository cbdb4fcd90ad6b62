import Verif.Props.C94
import Verif.Props.C92Example
/-!
# C94: concrete documents

`Dog` is a `Pet` with a property more, and with a definition of its own for one of the properties of `Pet`.
-/

namespace Props.C94.Notes
open Py Utils Tree _root_.Doc Spec.Pointed Spec.Composed _root_.Loaded Proofs.Loaded Proofs.Origin Proofs.Composed Proofs.Checked
open Spec.Merge (In)
open _root_.Create (schemaHeap schemaIndex composeSchemas visited)
open _root_.Aggregate (look Heap Value)
open Props.C83 (outside)
open Props.C88.Shelf (txt)
open Props.C92.Notes (dicts dicts_iff url at_ url_eq)

def strQ : Dict Str Tree := [(c!"type", txt c!"string")]
def intQ : Dict Str Tree := [(c!"type", txt c!"integer")]
def refQ : Dict Str Tree := [(c!"$ref", txt c!"#/definitions/Pet")]
def moreQ : Dict Str Tree := [(c!"required", .list [txt c!"bark"]), (c!"properties", .dict [(c!"bark", .dict intQ)])]
def petQ : Dict Str Tree := [(c!"type", txt c!"object"), (c!"required", .list [txt c!"name"]),
  (c!"properties", .dict [(c!"name", .dict strQ), (c!"kind", .dict strQ)])]
def dogQ : Dict Str Tree := [(c!"allOf", .list [.dict refQ, .dict moreQ]), (c!"properties", .dict [(c!"kind", .dict intQ)])]
def sq : Dict Str Tree := [(c!"swagger", txt c!"2.0"), (c!"definitions", .dict [(c!"Pet", .dict petQ), (c!"Dog", .dict dogQ)])]
def doc : Tree := .dict sq

theorem self : SelfContained doc url := by
  apply Proofs.Checked.checked
  decide +kernel

def read : Tree := (parse v20 cSwagger doc).getD (.atom .none)
def root : Tree := (normalizeRefs url read).getD (.atom .none)

theorem read_eq : parse v20 cSwagger doc = some read := by
  have h : (parse v20 cSwagger doc).isSome = true := by decide +kernel
  unfold read
  cases hp : parse v20 cSwagger doc with
  | none => rw [hp] at h; cases h
  | some t => rfl

theorem root_eq : normalizeRefs url read = some root := by
  have h : (normalizeRefs url read).isSome = true := by decide +kernel
  unfold root
  cases hp : normalizeRefs url read with
  | none => rw [hp] at h; cases h
  | some t => rfl

theorem loads : Loads doc at_ read root := ⟨C86.Notes.canon, rfl, url_eq ▸ self, read_eq, url_eq ▸ root_eq⟩

def pet : List Str := [c!"definitions", c!"Pet"]
def dog : List Str := [c!"definitions", c!"Dog"]

/-- all that is written -/
def all : List (List Str × Nat × Dict Str Tree) :=
  [([], cSwagger, sq), (pet, cSchema, petQ), (pet ++ [c!"properties", c!"name"], cSchema, strQ),
    (pet ++ [c!"properties", c!"kind"], cSchema, strQ), (dog, cSchema, dogQ), (dog ++ [c!"allOf", c!"0"], cSchema, refQ),
    (dog ++ [c!"allOf", c!"1"], cSchema, moreQ), (dog ++ [c!"allOf", c!"1", c!"properties", c!"bark"], cSchema, intQ),
    (dog ++ [c!"properties", c!"kind"], cSchema, intQ)]

local instance : DecidableEq (Dict Str Tree) := inferInstanceAs (DecidableEq (List (Str × Tree)))

theorem plain_doc : plain doc = true := by decide +kernel
theorem dicts_eq : dicts doc = all := by decide +kernel

theorem written {ts : List Str} {q : Dict Str Tree} (h : Written doc ts cSchema q) : q ∈ [petQ, strQ, dogQ, refQ, moreQ, intQ] := by
  have := (dicts_iff plain_doc).1 h
  rw [dicts_eq] at this
  simp only [all, List.mem_cons, List.not_mem_nil, or_false, Prod.mk.injEq] at this ⊢
  rcases this with ⟨-, h, -⟩ | ⟨-, -, h⟩ | ⟨-, -, h⟩ | ⟨-, -, h⟩ | ⟨-, -, h⟩ | ⟨-, -, h⟩ | ⟨-, -, h⟩ | ⟨-, -, h⟩ | ⟨-, -, h⟩
  · cases h
  all_goals simp [h]

theorem is_written {ts : List Str} {q : Dict Str Tree} (h : (ts, cSchema, q) ∈ all) : Written doc ts cSchema q := by
  rw [← dicts_eq] at h; exact (dicts_iff plain_doc).2 h

theorem dog_written : Written doc dog cSchema dogQ := is_written (by decide)
theorem pet_written : Written doc pet cSchema petQ := is_written (by decide)
theorem more_written : Written doc (dog ++ [c!"allOf", c!"1"]) cSchema moreQ := is_written (by decide)
theorem ref_written : Written doc (dog ++ [c!"allOf", c!"0"]) cSchema refQ := is_written (by decide)

theorem pet_part : Part doc url dog pet := by
  refine .direct ⟨dogQ, _, 0, dog_written, rfl, by decide, ?_⟩
  have : natStr 0 = c!"0" := by decide +kernel
  rw [this]
  exact .step ref_written (r := c!"#/definitions/Pet") rfl ⟨by decide, .inl (by decide +kernel)⟩ (.here pet_written rfl)

theorem more_part : Part doc url dog (dog ++ [c!"allOf", c!"1"]) := by
  refine .direct ⟨dogQ, _, 1, dog_written, rfl, by decide, ?_⟩
  have : natStr 1 = c!"1" := by decide +kernel
  rw [this]
  exact .here more_written rfl

theorem lists {us : List Str} {t : Tree} (h : Says doc us c!"required" t) : ∃ l, t = .list l := by
  obtain ⟨q, hw, -, hq, -⟩ := h
  have := written hw
  simp only [List.mem_cons, List.not_mem_nil, or_false] at this
  rcases this with rfl | rfl | rfl | rfl | rfl | rfl <;> first | (cases hq; exact ⟨_, rfl⟩) | (cases hq)

theorem scalars {us : List Str} {t : Tree} (h : Says doc us c!"type" t) : ∃ l, t = .atom l := by
  obtain ⟨q, hw, -, hq, -⟩ := h
  have := written hw
  simp only [List.mem_cons, List.not_mem_nil, or_false] at this
  rcases this with rfl | rfl | rfl | rfl | rfl | rfl <;> first | (cases hq; exact ⟨_, rfl⟩) | (cases hq)

/-- The composed `Dog`: the properties of both, `kind` as `Dog` defines it, both names required. -/
example : ∃ h' f, composeSchemas outside.toOutside url root = some h' ∧ (look h' (schemaIndex root dog)).final = some f ∧
    (∀ n ∈ [c!"name", c!"kind", c!"bark"], n ∈ Dict.keys (look h' f).props) ∧ c!"x" ∉ Dict.keys (look h' f).props ∧
    (∀ i, Dict.get? (look h' f).props c!"kind" = some i → (look h' i).origin = schemaIndex root (dog ++ [c!"properties", c!"kind"]) ∧
      c!"type" ∈ Dict.keys (look h' i).values) ∧
    (∀ n ∈ [c!"name", c!"bark"], ∃ m, Dict.get? (look h' f).values c!"required" = some (some (.list m)) ∧ In (txt n) m) ∧
    c!"type" ∈ Dict.keys (look h' f).values := by
  rw [← url_eq]
  obtain ⟨h', hc⟩ := C94_terminates (o := outside.toOutside) loads rfl
  obtain ⟨f, hf⟩ := C94_composed loads rfl hc dog_written rfl
  have hp := C94_properties loads rfl hc dog_written hf
  have hwp : Within doc (urlunparse at_) dog pet := by rw [url_eq]; exact .inr pet_part
  have hwm : Within doc (urlunparse at_) dog (dog ++ [c!"allOf", c!"1"]) := by rw [url_eq]; exact .inr more_part
  have hkind : Defines doc dog c!"kind" := ⟨dogQ, _, dog_written, rfl, by decide⟩
  refine ⟨h', f, hc, hf, ?_, ?_, ?_, ?_, ?_⟩
  · intro n hn
    simp only [List.mem_cons, List.not_mem_nil, or_false] at hn
    rcases hn with rfl | rfl | rfl
    · exact (hp _).2 ⟨pet, hwp, petQ, _, pet_written, rfl, by decide⟩
    · exact (hp _).2 ⟨dog, .inl rfl, hkind⟩
    · exact (hp _).2 ⟨_, hwm, moreQ, _, more_written, rfl, by decide⟩
  · intro hx
    obtain ⟨us, -, q, d, hw, hq, hd⟩ := (hp _).1 hx
    have := written hw
    simp only [List.mem_cons, List.not_mem_nil, or_false] at this
    rcases this with rfl | rfl | rfl | rfl | rfl | rfl <;> cases hq <;> revert hd <;> decide
  · intro i hi
    obtain ⟨us, -, -, h1, h2, -, h3, -⟩ := C94_definition loads rfl hc dog_written hf hi
    cases h1 hkind
    refine ⟨h2, (h3 _).2 ⟨txt c!"integer", intQ, is_written (by decide), by decide, rfl, ?_, ?_⟩⟩
    · rintro ⟨-, h⟩; cases h
    · rintro ⟨-, h⟩; cases h
  · intro n hn
    simp only [List.mem_cons, List.not_mem_nil, or_false] at hn
    have hreq := fun e => (C94_lists loads rfl hc dog_written hf (n := c!"required") (fun _ _ _ h => lists h) e).2
    rcases hn with rfl | rfl
    · refine hreq _ ⟨pet, _, hwp, ⟨petQ, pet_written, by decide, rfl, ?_, ?_⟩, _, List.mem_singleton.2 rfl, .inl rfl⟩
      · rintro ⟨-, h⟩; cases h
      · rintro ⟨-, h⟩; cases h
    · refine hreq _ ⟨_, _, hwm, ⟨moreQ, more_written, by decide, rfl, ?_, ?_⟩, _, List.mem_singleton.2 rfl, .inl rfl⟩
      · rintro ⟨-, h⟩; cases h
      · rintro ⟨-, h⟩; cases h
  · refine (C94_fields loads rfl hc dog_written hf _).2 ⟨pet, txt c!"object", hwp, petQ, pet_written, by decide, rfl, ?_, ?_⟩
    · rintro ⟨-, h⟩; cases h
    · rintro ⟨-, h⟩; cases h

/-- its own `type` -/
example : ∃ h' f, composeSchemas outside.toOutside url root = some h' ∧ (look h' (schemaIndex root pet)).final = some f ∧
    Dict.get? (look h' f).values c!"type" = some (some (txt c!"object")) := by
  rw [← url_eq]
  obtain ⟨h', hc⟩ := C94_terminates (o := outside.toOutside) loads rfl
  obtain ⟨f, hf⟩ := C94_composed loads rfl hc pet_written rfl
  refine ⟨h', f, hc, hf, (C94_scalars loads rfl hc pet_written hf (fun _ _ _ h => scalars h)).1 _ ⟨petQ, pet_written, by decide, rfl, ?_, ?_⟩⟩
  · rintro ⟨-, h⟩; cases h
  · rintro ⟨-, h⟩; cases h

/-- the parts of `Dog` fit together -/
example : Matching doc url := by
  have key : ∀ us n t, Says doc us n t → n = c!"required" ∧ (∃ l, t = .list l) ∨ n = c!"type" ∧ ∃ a, t = .atom a := by
    rintro us n t ⟨q, hw, hn, hq, -⟩
    have := written hw
    simp only [List.mem_cons, List.not_mem_nil, or_false] at this
    rcases this with rfl | rfl | rfl | rfl | rfl | rfl
    all_goals
      have hm := Dict.mem_of_get? hq
      simp only [petQ, strQ, dogQ, refQ, moreQ, intQ, List.mem_cons, List.not_mem_nil, or_false, Prod.mk.injEq] at hm
    · rcases hm with ⟨rfl, rfl⟩ | ⟨rfl, rfl⟩ | ⟨rfl, -⟩
      · exact .inr ⟨rfl, _, rfl⟩
      · exact .inl ⟨rfl, _, rfl⟩
      · exact absurd hn (by decide)
    · obtain ⟨rfl, rfl⟩ := hm; exact .inr ⟨rfl, _, rfl⟩
    · rcases hm with ⟨rfl, -⟩ | ⟨rfl, -⟩ <;> exact absurd hn (by decide)
    · obtain ⟨rfl, -⟩ := hm; exact absurd hn (by decide)
    · rcases hm with ⟨rfl, rfl⟩ | ⟨rfl, -⟩
      · exact .inl ⟨rfl, _, rfl⟩
      · exact absurd hn (by decide)
    · obtain ⟨rfl, rfl⟩ := hm; exact .inr ⟨rfl, _, rfl⟩
  intro ts us vs n t u _ _ h1 h2
  rcases key _ _ _ h1 with ⟨rfl, a, rfl⟩ | ⟨rfl, a, rfl⟩ <;> rcases key _ _ _ h2 with ⟨e, b, rfl⟩ | ⟨e, b, rfl⟩
  · trivial
  · exact absurd e (by decide)
  · exact absurd e (by decide)
  · trivial

/-! ## values of different kinds -/

namespace Mixed

def partQ : Dict Str Tree := [(c!"default", .dict [])]
def mixedQ : Dict Str Tree := [(c!"default", .atom (.int 5)), (c!"allOf", .list [.dict partQ])]
def sq : Dict Str Tree := [(c!"swagger", txt c!"2.0"), (c!"definitions", .dict [(c!"Mixed", .dict mixedQ)])]
def doc : Tree := .dict sq

theorem self : SelfContained doc url := by
  apply Proofs.Checked.checked
  decide +kernel

def read : Tree := (parse v20 cSwagger doc).getD (.atom .none)
def root : Tree := (normalizeRefs url read).getD (.atom .none)

theorem read_eq : parse v20 cSwagger doc = some read := by
  have h : (parse v20 cSwagger doc).isSome = true := by decide +kernel
  unfold read
  cases hp : parse v20 cSwagger doc with
  | none => rw [hp] at h; cases h
  | some t => rfl

theorem root_eq : normalizeRefs url read = some root := by
  have h : (normalizeRefs url read).isSome = true := by decide +kernel
  unfold root
  cases hp : normalizeRefs url read with
  | none => rw [hp] at h; cases h
  | some t => rfl

theorem loads : Loads doc at_ read root := ⟨C86.Notes.canon, rfl, url_eq ▸ self, read_eq, url_eq ▸ root_eq⟩

def mixed : List Str := [c!"definitions", c!"Mixed"]

local instance : DecidableEq (Dict Str Tree) := inferInstanceAs (DecidableEq (List (Str × Tree)))

theorem places : _root_.Create.schemaPlaces root = [mixed, mixed ++ [c!"allOf", c!"0"]] := by decide +kernel

deriving instance DecidableEq for _root_.Aggregate.Obj

theorem heap : schemaHeap outside.toOutside url root = C53.kinds := by decide +kernel

theorem part : Part doc url mixed (mixed ++ [c!"allOf", c!"0"]) := by
  have hd : ∀ x, x ∈ dicts doc → Written doc x.1 x.2.1 x.2.2 := fun x hx => (dicts_iff (by decide +kernel)).2 hx
  have h0 : natStr 0 = c!"0" := by decide +kernel
  refine .direct ⟨mixedQ, _, 0, hd (mixed, cSchema, mixedQ) (by decide +kernel), rfl, by decide, ?_⟩
  rw [h0]
  exact .here (hd (mixed ++ [c!"allOf", c!"0"], cSchema, partQ) (by decide +kernel)) rfl

end Mixed

/-- its composition -/
theorem mixed_run : composeSchemas outside.toOutside url Mixed.root = some C53.kinds1 := by
  unfold composeSchemas
  rw [Mixed.heap]
  have : List.range (visited Mixed.root cSchema).length = [0, 1] := by decide +kernel
  rw [this]
  exact C53.run_kinds

/-- A document whose `default` is a number in a schema and a dict in its part: composing it raises (the value is lost), though
nothing in the standard forbids it. -/
theorem C94_kinds_false : ∃ D sq T R h' ts us f, Loads D at_ T R ∧ D = .dict sq ∧ Part D url ts us ∧
    Says D ts c!"default" (.atom (.int 5)) ∧ Says D us c!"default" (.dict []) ∧
    composeSchemas outside.toOutside url R = some h' ∧ (look h' (schemaIndex R ts)).final = some f ∧
    Dict.get? (look h' f).values c!"default" = some none := by
  have hd : ∀ x, x ∈ dicts Mixed.doc → Written Mixed.doc x.1 x.2.1 x.2.2 := fun x hx => (dicts_iff (by decide +kernel)).2 hx
  refine ⟨Mixed.doc, Mixed.sq, Mixed.read, Mixed.root, C53.kinds1, Mixed.mixed, _, 4, Mixed.loads, rfl, Mixed.part,
    ⟨Mixed.mixedQ, hd (Mixed.mixed, cSchema, Mixed.mixedQ) (by decide +kernel), by decide, rfl, ?_, ?_⟩,
    ⟨Mixed.partQ, hd (Mixed.mixed ++ [c!"allOf", c!"0"], cSchema, Mixed.partQ) (by decide +kernel), by decide, rfl, ?_, ?_⟩, ?_, ?_, rfl⟩
  · rintro ⟨-, h⟩; cases h
  · rintro ⟨-, h⟩; cases h
  · rintro ⟨-, h⟩; cases h
  · rintro ⟨-, h⟩; cases h
  · exact mixed_run
  · have : schemaIndex Mixed.root Mixed.mixed = 0 := by decide +kernel
    rw [this]
    rfl

/-- No application is made of that document. -/
theorem C94_mixed_false [LinearOrder Str] (names : Nat → Str) (order : List Atom → List Atom) (fuel : Nat) (sep : Str) (strict : Bool)
    (op m : Dict Str Nat) : _root_.Create.create outside url Mixed.doc names order fuel sep strict ≠ some (.ok (op, m)) := by
  intro h
  have ha : _root_.Create.aggregated outside url Mixed.root = false := by
    unfold _root_.Create.aggregated
    rw [mixed_run]
    rfl
  unfold _root_.Create.create at h
  rw [Mixed.read_eq] at h
  split at h
  · cases h
  · split at h
    · cases h
    · split at h
      · dsimp only at h
        rw [Mixed.root_eq] at h
        dsimp only at h
        unfold _root_.Create.prepare _root_.Create.spread at h
        rw [if_pos (by rfl : Index.inPlace Mixed.root = true)] at h
        dsimp only at h
        rw [ha] at h
        repeat' split at h
        all_goals first | cases h | contradiction
      · cases h

end Props.C94.Notes
