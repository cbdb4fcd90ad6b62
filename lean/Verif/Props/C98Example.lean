import Verif.Props.C98
import Verif.Props.C92Example
/-!
# C98: concrete documents

A document with an operation, a parameter and two schemas, one of which refers to `r`.
-/

namespace Props.C98
open Py Utils Tree _root_.Doc Spec Spec.Places Spec.Pointed _root_.Loaded Proofs.Loaded Proofs.Origin Proofs.Placed
open Proofs.Checked
open Props.C83 (outside)
open Props.C88.Shelf (txt)

namespace Notes

/-- the pieces of the document -/
def refQ (r : Str) : Dict Str Tree := [(c!"$ref", txt r)]
def partQ : Dict Str Tree := [(c!"type", txt c!"object")]
def wholeQ : Dict Str Tree := [(c!"allOf", .list [.dict partQ])]
def sizeQ : Dict Str Tree := [(c!"name", txt c!"size"), (c!"in", txt c!"query"), (c!"type", txt c!"integer")]
def getQ (s : Str) : Dict Str Tree := [(c!"operationId", txt c!"list"), (c!"parameters", .list [.dict (refQ s)])]
def itemQ (s : Str) : Dict Str Tree := [(c!"get", .dict (getQ s))]
def sq (r s : Str) : Dict Str Tree := [(c!"swagger", txt c!"2.0"), (c!"paths", .dict [(c!"/one", .dict (itemQ s))]),
  (c!"parameters", .dict [(c!"size", .dict sizeQ)]), (c!"definitions", .dict [(c!"Whole", .dict wholeQ), (c!"Other", .dict (refQ r))])]

/-- the document: the schema `Other` refers to `r`, the parameter of the operation to `s` -/
def doc (r s : Str) : Tree := .dict (sq r s)

def url : Str := c!"http://h/s"
def at_ : Url := ⟨c!"http", c!"h", c!"/s", [], [], []⟩
theorem url_eq : urlunparse at_ = url := by decide

/-- the references of the three documents -/
inductive Case | missing | another | last
  deriving DecidableEq

instance {P : Case → Prop} [DecidablePred P] : Decidable (∀ k, P k) :=
  decidable_of_iff (P .missing ∧ P .another ∧ P .last) ⟨fun h k => by cases k <;> simp [h], fun h => ⟨h _, h _, h _⟩⟩

/-- where the schema `Other` refers to -/
def schemaAt : Case → List Str
  | .missing => [c!"definitions", c!"Hole"]
  | .another => [c!"parameters", c!"size"]
  | .last => [c!"definitions", c!"Whole", c!"allOf", c!"-1"]

/-- where the parameter refers to -/
def paramAt : Case → List Str
  | .missing => [c!"parameters", c!"size"]
  | .another => [c!"parameters", c!"seize"]
  | .last => [c!"parameters", c!"size"]

def D (k : Case) : Tree := doc (url ++ pointer (schemaAt k)) (pointer (paramAt k))

local instance : DecidableEq (Dict Str Tree) := inferInstanceAs (DecidableEq (List (Str × Tree)))

theorem plain_doc (k : Case) : plain (D k) = true := by revert k; decide +kernel

def all (k : Case) : List (List Str × Nat × Dict Str Tree) :=
  [([], cSwagger, sq (url ++ pointer (schemaAt k)) (pointer (paramAt k))), ([c!"paths", c!"/one"], cPathItem, itemQ (pointer (paramAt k))),
    ([c!"paths", c!"/one", c!"get"], cOperation, getQ (pointer (paramAt k))),
    ([c!"paths", c!"/one", c!"get", c!"parameters", c!"0"], cParameter, refQ (pointer (paramAt k))),
    ([c!"parameters", c!"size"], cParameter, sizeQ), ([c!"definitions", c!"Whole"], cSchema, wholeQ),
    ([c!"definitions", c!"Whole", c!"allOf", c!"0"], cSchema, partQ),
    ([c!"definitions", c!"Other"], cSchema, refQ (url ++ pointer (schemaAt k)))]

theorem dicts_eq (k : Case) : C92.Notes.dicts (D k) = all k := by revert k; decide +kernel

theorem written_iff {k : Case} {ts : List Str} {c : Nat} {q : Dict Str Tree} : Written (D k) ts c q ↔ (ts, c, q) ∈ all k := by
  rw [← dicts_eq]; exact C92.Notes.dicts_iff (plain_doc k)

theorem no_null (k : Case) : (places (.one cSwagger) (D k)).all (fun x => !nullSpot x) = true := by revert k; decide +kernel

theorem inside (k : Case) : Inside (D k) url := by
  refine ⟨plain_sound _ (plain_doc k), fun ts c hpl => ?_, fun ts c q v hw hf hr => ?_⟩
  · have := List.all_eq_true.1 (no_null k) _ (place_mem hpl)
    simp [nullSpot] at this
  · have hw := written_iff.1 hw
    simp only [all, List.mem_cons, List.not_mem_nil, or_false] at hw
    rcases hw with h | h | h | h | h | h | h | h <;> cases h
    · cases hr
    · cases hr
    · cases hr
    · cases hr
      exact ⟨_, paramAt k, rfl, by cases k <;> simp [paramAt], .inl rfl⟩
    · cases hr
    · cases hr
    · cases hr
    · cases hr
      exact ⟨_, schemaAt k, rfl, by cases k <;> simp [schemaAt], .inr rfl⟩

def read (k : Case) : Tree := (parse v20 cSwagger (D k)).getD (.atom .none)
def root (k : Case) : Tree := (normalizeRefs url (read k)).getD (.atom .none)

theorem read_eq (k : Case) : parse v20 cSwagger (D k) = some (read k) := by
  have h : (parse v20 cSwagger (D k)).isSome = true := by revert k; decide +kernel
  unfold read
  cases hp : parse v20 cSwagger (D k) with
  | none => rw [hp] at h; cases h
  | some t => rfl

theorem root_eq (k : Case) : normalizeRefs url (read k) = some (root k) := by
  have h : (normalizeRefs url (read k)).isSome = true := by revert k; decide +kernel
  unfold root
  cases hp : normalizeRefs url (read k) with
  | none => rw [hp] at h; cases h
  | some t => rfl

theorem reads (k : Case) : Reads (D k) at_ (read k) (root k) :=
  ⟨C86.Notes.canon, rfl, url_eq ▸ inside k, read_eq k, url_eq ▸ root_eq k⟩

theorem ordinary_words {us : List Str} (h : ∀ t ∈ us, intOf? t = none) : Ordinary us := by
  intro t ht i hi
  rw [h t ht] at hi
  cases hi

theorem none_at {k : Case} {us : List Str} {c : Nat} (h : ∀ x ∈ all k, ¬ (x.1 = us ∧ x.2.1 = c)) : ¬ ∃ q, Written (D k) us c q := by
  rintro ⟨q, hw⟩
  exact h _ (written_iff.1 hw) ⟨rfl, rfl⟩

/-- a schema refers to a definition that is missing -/
theorem missing : Dangling (D .missing) url cSchema :=
  ⟨[c!"definitions", c!"Other"], refQ (url ++ pointer (schemaAt .missing)), _, schemaAt .missing, written_iff.2 (by simp [all]), rfl, ⟨by simp [schemaAt], .inr rfl⟩,
    ordinary_words (by decide +kernel), none_at (by decide +kernel)⟩

/-- a schema refers to a parameter -/
theorem another : Dangling (D .another) url cSchema :=
  ⟨[c!"definitions", c!"Other"], refQ (url ++ pointer (schemaAt .another)), _, schemaAt .another, written_iff.2 (by simp [all]), rfl, ⟨by simp [schemaAt], .inr rfl⟩,
    ordinary_words (by decide +kernel), none_at (by decide +kernel)⟩

/-- a parameter refers to one that is missing -/
theorem seize : Dangling (D .another) url cParameter :=
  ⟨[c!"paths", c!"/one", c!"get", c!"parameters", c!"0"], refQ (pointer (paramAt .another)), _, paramAt .another, written_iff.2 (by simp [all]), rfl,
    ⟨by simp [paramAt], .inl rfl⟩, ordinary_words (by decide +kernel), none_at (by decide +kernel)⟩

section
variable [LinearOrder Str] (o : Objects.Outside) (names : Nat → Str) (order : List Atom → List Atom) (fuel : Nat) (sep : Str) (strict : Bool)

example : ∃ e, _root_.Create.create o (urlunparse at_) (D .missing) names order fuel sep strict = some (.error e) :=
  C98_schema (reads .missing) rfl (.new rfl rfl) (url_eq ▸ missing)

example : ∃ e, _root_.Create.create o (urlunparse at_) (D .another) names order fuel sep strict = some (.error e) :=
  C98_schema (reads .another) rfl (.new rfl rfl) (url_eq ▸ another)

example (x) : _root_.Create.create o (urlunparse at_) (D .another) names order fuel sep strict ≠ some (.ok x) :=
  C98_refused (reads .another) rfl (c := cParameter) (by decide) (url_eq ▸ seize) x
end

end Notes

/-- **C98, indices.** Of a list, `-1` is taken for the last element: a schema may refer to it, though no place of the document is written
so. -/
theorem C98_index_false : ∃ (D T R : Tree) (p : Url) (ts us : List Str) (q : Dict Str Tree) (r : Str), Reads D p T R ∧
    Written D ts cSchema q ∧ Dict.get? q c!"$ref" = some (.atom (.str r)) ∧ Names (urlunparse p) r us ∧
    (¬ ∃ q', Written D us cSchema q') ∧ ∀ o : Objects.Outside, ∃ j,
      (world o.toOutside (urlunparse p) R).resolve (absolute (urlunparse p) r) = .ok j ∧
      cls? ((world o.toOutside (urlunparse p) R).content j) = some cSchema := by
  have hn : Names (urlunparse Notes.at_) (Notes.url ++ pointer (Notes.schemaAt .last)) (Notes.schemaAt .last) :=
    ⟨by simp [Notes.schemaAt], .inr (by rw [Notes.url_eq])⟩
  refine ⟨Notes.D .last, _, _, Notes.at_, [c!"definitions", c!"Other"], Notes.schemaAt .last,
    Notes.refQ (Notes.url ++ pointer (Notes.schemaAt .last)), _, Notes.reads .last, Notes.written_iff.2 (by simp [Notes.all]), rfl, hn,
    Notes.none_at (by decide +kernel), fun o => ?_⟩
  have h1 : (Tree.resolve (Notes.schemaAt .last) (Notes.root .last)).toOption.bind cls? = some cSchema := by decide +kernel
  have h2 : locate (Notes.schemaAt .last) (Notes.root .last) = [c!"definitions", c!"Whole", c!"allOf", c!"0"] := by decide +kernel
  have h3 : (Tree.resolve [c!"definitions", c!"Whole", c!"allOf", c!"0"] (Notes.root .last)).toOption.bind cls? = some cSchema := by
    decide +kernel
  refine ⟨o.num [c!"definitions", c!"Whole", c!"allOf", c!"0"], ?_, ?_⟩
  · rw [found_in (Notes.reads .last) _ hn]
    cases hr : Tree.resolve (Notes.schemaAt .last) (Notes.root .last) with
    | error e => rw [hr] at h1; cases h1
    | ok t =>
      rw [hr] at h1
      cases t with
      | obj c gs => simp only [AppResolve.wrap, h2]
      | _ => cases h1
  · cases hr : Tree.resolve [c!"definitions", c!"Whole", c!"allOf", c!"0"] (Notes.root .last) with
    | error e => rw [hr] at h3; cases h3
    | ok t =>
      rw [hr] at h3
      cases t with
      | obj c gs => simp only [world, o.left, hr]; exact h3
      | _ => cases h3

end Props.C98
