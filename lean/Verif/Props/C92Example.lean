import Verif.Props.C92
import Verif.Props.C88Example
import Verif.Proofs.TreeEq
/-!
# C92: concrete documents

A document with two operations and two schemas, in eight versions: a required property is read-only or not, the operations have
the same name or not, a schema refers to itself or to the other one.
-/

namespace Props.C92.Notes
open Py Utils Tree _root_.Doc Spec Spec.Places Spec.Pointed _root_.Loaded Proofs.Loaded Proofs.Origin Proofs.Placed
open Spec.Refused Proofs.Checked
open Spec.Index (Label Calls)
open Props.C83 (outside)
open Props.C88.Shelf (txt)

/-- the dicts written in a document, with their places and classes -/
def dicts (D : Tree) : List (List Str × Nat × Dict Str Tree) := (places (.one cSwagger) D).filterMap fun x =>
  match takes x.2.1, x.2.2 with
  | some c, .dict q => some (x.1, c, q)
  | _, _ => none

theorem dicts_iff {D : Tree} (hp : plain D = true) {ts : List Str} {c : Nat} {q : Dict Str Tree} :
    Written D ts c q ↔ (ts, c, q) ∈ dicts D := by
  unfold dicts
  rw [List.mem_filterMap]
  constructor
  · rintro ⟨k, hk, h⟩
    exact ⟨_, place_mem h, by rw [takes_iff.2 hk]⟩
  · rintro ⟨⟨us, k, t⟩, h1, h2⟩
    dsimp only at h2
    split at h2
    · next h3 => cases h2; exact written_mem hp h3 h1
    · cases h2

section
variable (f s r : Bool)

def idQ : Dict Str Tree := [(c!"type", txt c!"string"), (c!"readOnly", .atom (.bool f))]
def nextQ : Dict Str Tree := [(c!"$ref", if r then txt c!"#/definitions/Node" else txt c!"http://h/s#/definitions/Leaf")]
def nodeQ : Dict Str Tree := [(c!"type", txt c!"object"), (c!"required", .list [txt c!"id"]),
  (c!"properties", .dict [(c!"id", .dict (idQ f)), (c!"next", .dict (nextQ r))])]
def leafQ : Dict Str Tree := [(c!"type", txt c!"string")]
def sizeQ : Dict Str Tree := [(c!"name", txt c!"size"), (c!"in", txt c!"query"), (c!"type", txt c!"integer")]
def refQ : Dict Str Tree := [(c!"$ref", txt c!"#/parameters/size")]
def getQ : Dict Str Tree := [(c!"tags", .list [txt c!"a"]), (c!"operationId", txt c!"list"), (c!"parameters", .list [.dict refQ])]
def putQ : Dict Str Tree := [(c!"tags", .list [if s then txt c!"a" else txt c!"b"]), (c!"operationId", txt c!"list")]
def oneQ : Dict Str Tree := [(c!"get", .dict getQ)]
def twoQ : Dict Str Tree := [(c!"put", .dict (putQ s))]
def paths : Dict Str Tree := [(c!"/one", .dict oneQ), (c!"/two", .dict (twoQ s))]
def sq : Dict Str Tree := [(c!"swagger", txt c!"2.0"), (c!"paths", .dict (paths s)), (c!"parameters", .dict [(c!"size", .dict sizeQ)]),
  (c!"definitions", .dict [(c!"Node", .dict (nodeQ f r)), (c!"Leaf", .dict leafQ)])]

/-- the document -/
def doc : Tree := .dict (sq f s r)
end

def url : Str := c!"http://h/s"
def at_ : Url := ⟨c!"http", c!"h", c!"/s", [], [], []⟩

theorem url_eq : urlunparse at_ = url := by decide
theorem self (f s r : Bool) : SelfContained (doc f s r) url := by
  apply Proofs.Checked.checked
  revert f s r; decide +kernel

def read (f s r : Bool) : Tree := (parse v20 cSwagger (doc f s r)).getD (.atom .none)
def root (f s r : Bool) : Tree := (normalizeRefs url (read f s r)).getD (.atom .none)

theorem read_eq (f s r : Bool) : parse v20 cSwagger (doc f s r) = some (read f s r) := by
  have h : (parse v20 cSwagger (doc f s r)).isSome = true := by revert f s r; decide +kernel
  unfold read
  cases hp : parse v20 cSwagger (doc f s r) with
  | none => rw [hp] at h; cases h
  | some t => rfl

theorem root_eq (f s r : Bool) : normalizeRefs url (read f s r) = some (root f s r) := by
  have h : (normalizeRefs url (read f s r)).isSome = true := by revert f s r; decide +kernel
  unfold root
  cases hp : normalizeRefs url (read f s r) with
  | none => rw [hp] at h; cases h
  | some t => rfl

theorem loads (f s r : Bool) : Loads (doc f s r) at_ (read f s r) (root f s r) :=
  ⟨C86.Notes.canon, rfl, url_eq ▸ self f s r, read_eq f s r, url_eq ▸ root_eq f s r⟩

/-- all that is written -/
def all (f s r : Bool) : List (List Str × Nat × Dict Str Tree) :=
  [([], cSwagger, sq f s r), ([c!"paths", c!"/one"], cPathItem, oneQ), ([c!"paths", c!"/one", c!"get"], cOperation, getQ),
    ([c!"paths", c!"/one", c!"get", c!"parameters", c!"0"], cParameter, refQ),
    ([c!"paths", c!"/two"], cPathItem, twoQ s), ([c!"paths", c!"/two", c!"put"], cOperation, putQ s),
    ([c!"parameters", c!"size"], cParameter, sizeQ), ([c!"definitions", c!"Node"], cSchema, nodeQ f r),
    ([c!"definitions", c!"Node", c!"properties", c!"id"], cSchema, idQ f),
    ([c!"definitions", c!"Node", c!"properties", c!"next"], cSchema, nextQ r), ([c!"definitions", c!"Leaf"], cSchema, leafQ)]

local instance : DecidableEq (Dict Str Tree) := inferInstanceAs (DecidableEq (List (Str × Tree)))

theorem plain_doc (f s r : Bool) : plain (doc f s r) = true := by revert f s r; decide +kernel
theorem dicts_eq (f s r : Bool) : dicts (doc f s r) = all f s r := by revert f s r; decide +kernel

variable {f s r : Bool}

theorem written {ts : List Str} {c : Nat} {q : Dict Str Tree} (h : Written (doc f s r) ts c q) : (ts, c, q) ∈ all f s r := by
  rw [← dicts_eq]; exact (dicts_iff (plain_doc f s r)).1 h

theorem written_all {ts : List Str} {c : Nat} {q : Dict Str Tree} (h : (ts, c, q) ∈ all f s r) : Written (doc f s r) ts c q := by
  rw [← dicts_eq] at h; exact (dicts_iff (plain_doc f s r)).2 h

/-- the schemas -/
theorem schemas {ts : List Str} {q : Dict Str Tree} (h : Written (doc f s r) ts cSchema q) : (ts, q) ∈
    [([c!"definitions", c!"Node"], nodeQ f r), ([c!"definitions", c!"Node", c!"properties", c!"id"], idQ f),
      ([c!"definitions", c!"Node", c!"properties", c!"next"], nextQ r), ([c!"definitions", c!"Leaf"], leafQ)] := by
  have := written h
  simp only [all, List.mem_cons, List.not_mem_nil, or_false, Prod.mk.injEq] at this ⊢
  simpa [cSchema, cSwagger, cPathItem, cOperation, cParameter] using this

theorem operations {k m : Str} {q : Dict Str Tree} (h : Operation (sq f s r) k m q) :
    (k, m, q) = (c!"/one", c!"get", getQ) ∨ (k, m, q) = (c!"/two", c!"put", putQ s) := by
  obtain ⟨iq, h1, h2⟩ := C88.at_mem (at_iff.2 h) (paths := paths s) rfl
  simp only [paths, List.mem_cons, List.not_mem_nil, or_false, Prod.mk.injEq, Tree.dict.injEq] at h1
  rcases h1 with ⟨rfl, rfl⟩ | ⟨rfl, rfl⟩
  · simp only [oneQ, List.mem_cons, List.not_mem_nil, or_false, Prod.mk.injEq, Tree.dict.injEq] at h2
    obtain ⟨rfl, rfl⟩ := h2; exact .inl rfl
  · simp only [twoQ, List.mem_cons, List.not_mem_nil, or_false, Prod.mk.injEq, Tree.dict.injEq] at h2
    obtain ⟨rfl, rfl⟩ := h2; exact .inr rfl

def getL : Label := ⟨[c!"a"], some c!"list"⟩
def putL (s : Bool) : Label := ⟨[if s then c!"a" else c!"b"], some c!"list"⟩
theorem getIn : getL.In getQ := ⟨.inl (.inl rfl), rfl⟩
theorem putIn : (putL s).In (putQ s) := ⟨.inl (.inl (by cases s <;> rfl)), rfl⟩

theorem regular : Refused.Regular (doc f s r) url (sq f s r) where
  required ts q h := by
    have := schemas h
    simp only [List.mem_cons, List.not_mem_nil, or_false, Prod.mk.injEq] at this
    rcases this with ⟨-, rfl⟩ | ⟨-, rfl⟩ | ⟨-, rfl⟩ | ⟨-, rfl⟩
    · exact ⟨[c!"id"], .inl rfl⟩
    all_goals exact ⟨[], .inr ⟨rfl, rfl⟩⟩
  readOnly ts q h := by
    have := schemas h
    simp only [List.mem_cons, List.not_mem_nil, or_false, Prod.mk.injEq] at this
    rcases this with ⟨-, rfl⟩ | ⟨-, rfl⟩ | ⟨-, rfl⟩ | ⟨-, rfl⟩
    · exact .inl rfl
    · exact .inr (.inr ⟨f, rfl⟩)
    · exact .inl rfl
    · exact .inl rfl
  labels k m q h := by
    rcases operations h with h | h <;> cases h
    · exact ⟨_, getIn⟩
    · exact ⟨_, putIn⟩
  lists k m q h := by
    rcases operations h with h | h <;> cases h <;> exact ⟨.inl rfl, .inl rfl, .inl rfl⟩
  schemes := .inl rfl
  host := ⟨none, .inl rfl⟩
  basePath := ⟨none, .inl rfl⟩
  items ts q h := by
    have := written h
    simp only [all, List.mem_cons, List.not_mem_nil, or_false, Prod.mk.injEq, cSchema, cSwagger, cPathItem, cOperation, cParameter] at this
    simp only [Nat.reduceEqDiff, false_and, and_false, false_or, or_false, true_and] at this
    rcases this with ⟨-, rfl⟩ | ⟨-, rfl⟩ <;> rfl
  inPlace ts c q h hc := by
    have := written h
    simp only [all, List.mem_cons, List.not_mem_nil, or_false, Prod.mk.injEq] at this
    rcases this with ⟨-, rfl, rfl⟩ | ⟨-, rfl, rfl⟩ | ⟨-, rfl, rfl⟩ | ⟨-, rfl, rfl⟩ | ⟨-, rfl, rfl⟩ | ⟨-, rfl, rfl⟩ | ⟨-, rfl, rfl⟩ |
      ⟨-, rfl, rfl⟩ | ⟨-, rfl, rfl⟩ | ⟨-, rfl, rfl⟩ | ⟨-, rfl, rfl⟩
    all_goals first | exact .inl rfl | exact .inr ⟨_, rfl⟩
  styled ts c q v h _ hv := by
    have := written h
    simp only [all, List.mem_cons, List.not_mem_nil, or_false, Prod.mk.injEq] at this
    rcases this with ⟨-, rfl, rfl⟩ | ⟨-, rfl, rfl⟩ | ⟨-, rfl, rfl⟩ | ⟨-, rfl, rfl⟩ | ⟨-, rfl, rfl⟩ | ⟨-, rfl, rfl⟩ | ⟨-, rfl, rfl⟩ |
      ⟨-, rfl, rfl⟩ | ⟨-, rfl, rfl⟩ | ⟨-, rfl, rfl⟩ | ⟨-, rfl, rfl⟩
    all_goals cases hv
  parts := Proofs.Composed.matching_whole (Proofs.Checked.plain_sound _ (plain_doc f s r)) fun ts q h => by
    have := schemas h
    simp only [List.mem_cons, List.not_mem_nil, or_false, Prod.mk.injEq] at this
    rcases this with ⟨-, rfl⟩ | ⟨-, rfl⟩ | ⟨-, rfl⟩ | ⟨-, rfl⟩ <;> rfl

theorem declared : Says (sq f s r) (Spec.Service.text c!"2.0") := .new rfl rfl

theorem faulty_iff : Faulty (doc f s r) ↔ f = true := by
  constructor
  · rintro ⟨ts, q, l, k, ps, d, hw, h1, h2, h3, h4, h5⟩
    have := schemas hw
    simp only [List.mem_cons, List.not_mem_nil, or_false, Prod.mk.injEq] at this
    rcases this with ⟨-, rfl⟩ | ⟨-, rfl⟩ | ⟨-, rfl⟩ | ⟨-, rfl⟩
    · cases h1; cases h3
      rcases List.mem_singleton.1 h2 with h
      injection h with h; injection h with h
      subst h
      cases h4
      cases h5; rfl
    all_goals cases h1
  · rintro rfl
    exact ⟨[c!"definitions", c!"Node"], nodeQ true r, [txt c!"id"], c!"id", _, idQ true,
      written_all (by simp [all]), rfl, List.mem_singleton.2 rfl, rfl, rfl, rfl⟩

theorem clash_iff : Clash SCOPE_SEPARATOR (sq f s r) ↔ s = true := by
  constructor
  · rintro ⟨k, m, q, k', m', q', n, hne, h1, h2, h3, h4⟩
    rcases operations h1 with e1 | e1 <;> rcases operations h2 with e2 | e2 <;> cases e1 <;> cases e2
    · exact absurd rfl hne
    · rw [C88.calls_name getIn] at h3
      rw [C88.calls_name putIn] at h4
      rw [← h3] at h4
      revert h4; cases s <;> decide
    · rw [C88.calls_name getIn] at h4
      rw [C88.calls_name putIn] at h3
      rw [← h3] at h4
      revert h4; cases s <;> decide
    · exact absurd rfl hne
  · rintro rfl
    exact ⟨c!"/one", c!"get", getQ, c!"/two", c!"put", putQ true, _, by decide, ⟨by decide, _, _, rfl, rfl, rfl⟩,
      ⟨by decide, _, _, rfl, rfl, rfl⟩, (C88.calls_name getIn).2 rfl, (C88.calls_name putIn).2 rfl⟩

theorem circular_iff : Circular (doc f s r) (urlunparse at_) ↔ r = true := by
  rw [url_eq]
  constructor
  · rintro ⟨ts, h⟩
    cases r with
    | true => rfl
    | false =>
      have key : ∀ {ts us : List Str}, Refers (doc f s false) url ts us → us = [c!"definitions", c!"Leaf"] ∧ ts ≠ us := by
        rintro ts us ⟨-, vs, d, x, hw, hd, hn⟩
        have := schemas hw
        simp only [List.mem_cons, List.not_mem_nil, or_false, Prod.mk.injEq] at this
        rcases this with ⟨-, rfl⟩ | ⟨-, rfl⟩ | ⟨e, rfl⟩ | ⟨-, rfl⟩
        · cases hd
        · cases hd
        · cases hd
          have : us = [c!"definitions", c!"Leaf"] := names_unique (by decide) (by decide) hn ⟨by decide, .inr (by decide)⟩
          subst this
          refine ⟨rfl, ?_⟩
          rintro rfl
          revert e
          simp
        · cases hd
      obtain ⟨us, -, h1⟩ := Relation.TransGen.tail'_iff.1 h
      obtain ⟨vs, h2, -⟩ := Relation.TransGen.head'_iff.1 h
      exact absurd ((key h1).1.trans (key h2).1.symm) (key h2).2
  · rintro rfl
    refine ⟨[c!"definitions", c!"Node"], .single ⟨⟨nodeQ f true, ?_⟩, [c!"properties", c!"next"], nextQ true, c!"#/definitions/Node", ?_, rfl,
      by decide, .inl (by decide)⟩⟩ <;>
    exact written_all (by simp [all])

/-- each of the outcomes: for a strict one the first of the faults counts -/
example [LinearOrder Str] (f s r strict : Bool) (names : Nat → Str) (order : List Atom → List Atom) : ∃ f0, ∀ fuel ≥ f0,
    ∃ out, Create.create outside url (doc f s r) names order fuel SCOPE_SEPARATOR strict = some out ∧
      (out = .error .ValidationError ↔ strict = true ∧ f = true) ∧
      (out = .error .SchemaError ↔ ¬ (strict = true ∧ f = true) ∧ s = true) ∧
      (out = .error .CycleDetectionError ↔ strict = true ∧ f = false ∧ s = false ∧ r = true) ∧
      ∀ op m, out = .ok (op, m) → ScopeDict.getitem SCOPE_SEPARATOR m (.plain c!"Leaf") = .ok (outside.num [c!"definitions", c!"Leaf"]) ∧
        Dict.get? op c!"b!##!list" = some (outside.num [c!"paths", c!"/two", c!"put"]) := by
  obtain ⟨f0, h⟩ := C92_create (o := outside) (loads f s r) rfl declared regular names order SCOPE_SEPARATOR
  refine ⟨f0, fun fuel hf => ?_⟩
  obtain ⟨h1, h2, h3, h4⟩ := h fuel hf strict
  rw [url_eq, ← url_eq, circular_iff] at h3 h4
  rw [faulty_iff] at h1 h2 h3 h4
  rw [clash_iff] at h2 h3 h4
  rw [url_eq] at h1 h2 h3 h4
  by_cases c1 : strict = true ∧ f = true
  · refine ⟨_, h1 c1.1 c1.2, ?_⟩
    simp [c1]
  by_cases c2 : s = true
  · refine ⟨_, h2 c1 c2, ?_⟩
    simp [c1, c2]
  by_cases c3 : strict = true ∧ r = true
  · have hf : f ≠ true := fun h => c1 ⟨c3.1, h⟩
    refine ⟨_, h3 hf c2 c3.1 c3.2, ?_⟩
    simp [c2, c3, hf]
  · obtain ⟨op, m, e, -, g1, g2, -⟩ := h4 (fun h => h.2.elim (fun g => c1 ⟨h.1, g⟩) fun g => c3 ⟨h.1, g⟩) c2
    refine ⟨_, e, ?_, ?_, ?_, ?_⟩
    · simp only [reduceCtorEq, false_iff]; exact c1
    · simp only [reduceCtorEq, false_iff]; exact fun h => c2 h.2
    · simp only [reduceCtorEq, false_iff]; exact fun h => c3 ⟨h.1, h.2.2.2⟩
    · intro op' m' e'
      cases e'
      refine ⟨g2 _ _ (written_all (q := leafQ) (by simp [all])), (g1 _ _).2 ?_⟩
      have c2 : s = false := by simpa using c2
      subst c2
      exact ⟨c!"/two", c!"put", _, ⟨by decide, _, _, rfl, rfl, rfl⟩, (C88.calls_name putIn).2 rfl, rfl⟩

/-- a document of version 3 -/
example [LinearOrder Str] (names : Nat → Str) (order : List Atom → List Atom) (fuel : Nat) (strict : Bool) :
    Create.create outside url (.dict [(c!"swagger", txt c!"3.0")]) names order fuel SCOPE_SEPARATOR strict =
      some (.error .NotImplementedError) :=
  C92_version _ _ (by rintro (h | ⟨-, h⟩) <;> cases h) (by rintro (h | ⟨-, h⟩) <;> cases h) _ _ _ _ _

end Props.C92.Notes
