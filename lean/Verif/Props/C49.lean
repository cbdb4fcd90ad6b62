import Verif.Model.Validate
import Verif.Props.C03
/-!
# C49: validation reports exactly the schemas requiring a read-only property

References are not followed: a property counts as read-only if its own schema says so
(`pyswagger/scanner/v2_0/validate.py`:30-33 states this limitation).
-/

namespace Props.C49
open Py Utils Tree Scan Validate Spec Spec.Places Proofs.ScanTree

/-! ## specification -/

/-- the object has the given required names -/
def Requires (o : Tree) (ks : List Str) : Prop :=
  ∃ c fs, o = .obj c fs ∧ Dict.get? fs c!"required" = some (.list (ks.map fun k => .atom (.str k)))

/-- the object declares a property `k` whose schema is marked read-only -/
def ReadOnly (o : Tree) (k : Str) : Prop :=
  ∃ c fs ps c' ps', o = .obj c fs ∧ Dict.get? fs c!"properties" = some (.dict ps) ∧
    Dict.get? ps k = some (.obj c' ps') ∧ Dict.get? ps' c!"readOnly" = some (.atom (.bool true))

/-- a schema as documents give it: `required` is a list of names, `properties` a dict of objects
whose `readOnly` is absent or a boolean -/
def Regular (o : Tree) : Prop :=
  ∃ ks c fs ps, Requires o ks ∧ o = .obj c fs ∧ Dict.get? fs c!"properties" = some (.dict ps) ∧
    ∀ k p, Dict.get? ps k = some p → ∃ c' ps', p = .obj c' ps' ∧
      (Dict.get? ps' c!"readOnly" = some (.atom .none) ∨ ∃ b, Dict.get? ps' c!"readOnly" = some (.atom (.bool b)))

/-- the message for a name -/
def msg (k : Str) : Str := c!"ReadOnly property in required list: " ++ k

/-! ## one schema -/

open Classical in
theorem messages_eq (ps : Dict Str Tree)
    (hp : ∀ k p, Dict.get? ps k = some p → ∃ c' ps', p = .obj c' ps' ∧
      (Dict.get? ps' c!"readOnly" = some (.atom .none) ∨ ∃ b, Dict.get? ps' c!"readOnly" = some (.atom (.bool b))))
    (ks : List Str) :
    messages (.dict ps) (ks.map fun k => .atom (.str k)) =
      .ok ((ks.filter fun k => ∃ c' ps', Dict.get? ps k = some (.obj c' ps') ∧
        Dict.get? ps' c!"readOnly" = some (.atom (.bool true))).map msg) := by
  induction ks with
  | nil => rfl
  | cons k ks ih =>
    rw [List.map_cons, messages, ih, List.filter_cons]
    simp only [offends, readOnlyIn]
    cases hk : Dict.get? ps k with
    | none => simp
    | some p =>
      obtain ⟨c', ps', rfl, h | ⟨b, h⟩⟩ := hp k p hk
      · have hn : ¬ ∃ c1 ps1, (some (Tree.obj c' ps') : Option Tree) = some (.obj c1 ps1) ∧
            Dict.get? ps1 c!"readOnly" = some (.atom (.bool true)) := by
          rintro ⟨_, _, e, h2⟩
          cases e
          rw [h] at h2
          cases h2
        simp only [field, h, truth, hn, decide_false]
        rfl
      · cases b with
        | true =>
          have hn : ∃ c1 ps1, (some (Tree.obj c' ps') : Option Tree) = some (.obj c1 ps1) ∧
              Dict.get? ps1 c!"readOnly" = some (.atom (.bool true)) := ⟨_, _, rfl, h⟩
          simp only [field, h, truth, hn, decide_true]
          rfl
        | false =>
          have hn : ¬ ∃ c1 ps1, (some (Tree.obj c' ps') : Option Tree) = some (.obj c1 ps1) ∧
              Dict.get? ps1 c!"readOnly" = some (.atom (.bool true)) := by
            rintro ⟨_, _, e, h2⟩
            cases e
            rw [h] at h2
            cases h2
          simp only [field, h, truth, hn, decide_false]
          rfl

open Classical in
theorem validateSchema_eq (o : Tree) (ks : List Str) (h : Regular o) (hr : Requires o ks) :
    validateSchema o = .ok ((ks.filter fun k => ReadOnly o k).map msg) := by
  obtain ⟨_, c, fs, ps, _, rfl, h2, h3⟩ := h
  obtain ⟨_, _, e, h1⟩ := hr
  cases e
  simp only [validateSchema, field, h1, h2]
  rw [messages_eq ps h3]
  congr 2
  apply List.filter_congr
  intro k _
  apply decide_eq_decide.2
  constructor
  · rintro ⟨c', ps', h4, h5⟩
    exact ⟨c, fs, ps, c', ps', rfl, h2, h4, h5⟩
  · rintro ⟨_, _, ps1, c', ps', e, h6, h4, h5⟩
    cases e
    rw [h2] at h6
    cases h6
    exact ⟨c', ps', h4, h5⟩

/-! ## the scan -/

theorem handlers_eq (mro : Nat → List Nat) (schema : Nat)
    (hm : ∀ c, (mro c).count schema = if c = schema then 1 else 0) (root : Tree) :
    scan mro [(0, registered [([schema], validateSchema)])] (some root) [] =
      .ok (((traversal root []).filter fun v => cls? v.2 = some schema).map fun v =>
        ⟨0, validateSchema, v.1, v.2⟩) := by
  have hc := C03.C03_calls mro [(0, [([schema], validateSchema)])] (some root) []
  simp only [List.map_cons, List.map_nil] at hc
  rw [hc]
  simp only [List.flatMap_cons, List.flatMap_nil, List.append_nil]
  congr 1
  generalize traversal root [] = l
  induction l with
  | nil => rfl
  | cons v l ih =>
    rw [List.flatMap_cons, ih, List.filter_cons]
    cases hv : cls? v.2 with
    | none => simp
    | some c =>
      have hf : ∀ ks : List Nat, ks.flatMap (C03.handlersOf [([schema], validateSchema)]) =
          List.replicate (ks.count schema) validateSchema := by
        intro ks
        induction ks with
        | nil => rfl
        | cons t ks ih =>
          rw [List.flatMap_cons, ih, List.count_cons]
          by_cases e : t = schema
          · subst e; simp [C03.handlersOf, List.replicate_succ]
          · have e' : ¬ schema = t := fun x => e x.symm
            simp [C03.handlersOf, e, e']
      simp only [Option.toList_some, List.flatMap_cons, List.flatMap_nil, List.append_nil, hf, hm]
      by_cases e : c = schema <;> simp [e]

open Classical in
theorem collect_eq (names : Nat → Str) (schema : Nat) (vs : List (Str × Tree))
    (hv : ∀ v ∈ vs, cls? v.2 = some schema) (req : Tree → List Str)
    (hr : ∀ v ∈ vs, Regular v.2 ∧ Requires v.2 (req v.2)) :
    collect names (vs.map fun v => ⟨0, validateSchema, v.1, v.2⟩) =
      .ok (vs.flatMap fun v => ((req v.2).filter fun k => ReadOnly v.2 k).map
        fun k => ((v.1, names schema), msg k)) := by
  induction vs with
  | nil => rfl
  | cons v vs ih =>
    have h1 := hr v (List.mem_cons_self ..)
    have h2 := hv v (List.mem_cons_self ..)
    rw [List.map_cons, collect]
    simp only [validateSchema_eq v.2 _ h1.1 h1.2, h2,
      ih (fun x hx => hv x (List.mem_cons_of_mem _ hx)) (fun x hx => hr x (List.mem_cons_of_mem _ hx))]
    simp [List.map_map, Function.comp_def]

theorem requires_unique {o : Tree} {ks ks' : List Str} (h : Requires o ks) (h' : Requires o ks') : ks = ks' := by
  obtain ⟨c, fs, rfl, h⟩ := h
  obtain ⟨_, _, e, h'⟩ := h'
  cases e
  rw [h] at h'
  simp only [Option.some.injEq, Tree.list.injEq] at h'
  clear h
  induction ks generalizing ks' with
  | nil => cases ks' with
    | nil => rfl
    | cons _ _ => simp at h'
  | cons k ks ih => cases ks' with
    | nil => simp at h'
    | cons k' ks' =>
      simp only [List.map_cons, List.cons.injEq, Tree.atom.injEq, Atom.str.injEq] at h'
      rw [h'.1, ih h'.2]

theorem msg_inj {a b : Str} (h : msg a = msg b) : a = b := List.append_cancel_left h

/-- the errors of one schema, counted -/
theorem count_one (p : Str → Bool) (a : Str × Str) (k : Str) (ks : List Str) :
    ((ks.filter p).map fun k => (a, msg k)).count (a, msg k) = if p k then ks.count k else 0 := by
  induction ks with
  | nil => simp
  | cons x ks ih =>
    rw [List.filter_cons]
    by_cases hx : p x
    · simp only [hx, if_true, List.map_cons, List.count_cons, ih]
      by_cases e : x = k
      · subst e; simp [hx]
      · have e2 : ¬ msg x = msg k := fun h => e (msg_inj h)
        simp [e, e2]
    · have hx' : p x = false := by simpa using hx
      simp only [hx', Bool.false_eq_true, if_false, ih, List.count_cons]
      by_cases e : x = k
      · subst e; simp [hx']
      · simp [e]

/-- **C49** (errors). Validation does not fail; it lists, for every schema of the document and every
name, as many errors as the name is required, if the property is read-only, with the pointer of the
schema; and there is no other error. -/
theorem C49_errors (mro : Nat → List Nat) (names : Nat → Str) (schema : Nat) (root : Tree)
    (hm : ∀ c, (mro c).count schema = if c = schema then 1 else 0)
    (hw : WF root) (hr : isObj root = true)
    (hreg : ∀ ts o, At [] root ts o → cls? o = some schema → Regular o) :
    ∃ errs, errors mro names schema (some root) = .ok errs ∧
      (∀ ts o ks k, At [] root ts o → cls? o = some schema → Requires o ks →
        (ReadOnly o k → errs.count ((pointer ts, names schema), msg k) = ks.count k) ∧
        (¬ ReadOnly o k → errs.count ((pointer ts, names schema), msg k) = 0)) ∧
      ∀ e ∈ errs, ∃ ts o ks k, At [] root ts o ∧ cls? o = some schema ∧ Requires o ks ∧ k ∈ ks ∧
        ReadOnly o k ∧ e = ((pointer ts, names schema), msg k) := by
  classical
  have hex : ∀ o : Tree, ∃ ks, Regular o → Requires o ks := by
    intro o
    by_cases h : Regular o
    · exact ⟨h.choose, fun _ => h.choose_spec.choose_spec.choose_spec.choose_spec.1⟩
    · exact ⟨[], fun h' => absurd h' h⟩
  let req : Tree → List Str := fun o => (hex o).choose
  have hreq : ∀ o, Regular o → Requires o (req o) := fun o => (hex o).choose_spec
  have hin : ∀ v ∈ (traversal root []).filter (fun v => cls? v.2 = some schema),
      cls? v.2 = some schema ∧ ∃ ts, v.1 = pointer ts ∧ At [] root ts v.2 := by
    intro v hv
    rw [List.mem_filter, decide_eq_true_eq] at hv
    obtain ⟨_, ts, h1, h2⟩ := (C03.C03_visited root [] hw hr v.1 v.2).1 hv.1
    exact ⟨hv.2, ts, h1, h2⟩
  have hgood : ∀ v ∈ (traversal root []).filter (fun v => cls? v.2 = some schema),
      Regular v.2 ∧ Requires v.2 (req v.2) := by
    intro v hv
    obtain ⟨h1, ts, _, h2⟩ := hin v hv
    have := hreg ts v.2 h2 h1
    exact ⟨this, hreq _ this⟩
  refine ⟨((traversal root []).filter fun v => cls? v.2 = some schema).flatMap fun v =>
      ((req v.2).filter fun k => ReadOnly v.2 k).map fun k => ((v.1, names schema), msg k),
    ?_, ?_, ?_⟩
  · unfold errors
    rw [handlers_eq mro schema hm root]
    exact collect_eq names schema _ (fun v hv => (hin v hv).1) req hgood
  · intro ts o ks k hat hc hks
    have hro := hreg ts o hat hc
    have hobj : isObj o = true := by cases o <;> simp [cls?] at hc <;> rfl
    have hmem : (pointer ts, o) ∈ (traversal root []).filter (fun v => cls? v.2 = some schema) := by
      rw [List.mem_filter]
      exact ⟨(C03.C03_visited root [] hw hr _ _).2 ⟨hobj, ts, rfl, hat⟩, by simpa using hc⟩
    have hnd : (((traversal root []).filter (fun v => cls? v.2 = some schema)).map Prod.fst).Nodup :=
      (List.filter_sublist.map _).nodup (C03.C03_order root [] hw hr).1
    obtain rfl := requires_unique hks (hreq o hro)
    have key : ∀ l : List (Str × Tree), (l.map Prod.fst).Nodup → (pointer ts, o) ∈ l →
        (l.flatMap fun v => ((req v.2).filter fun k => ReadOnly v.2 k).map
          fun k => ((v.1, names schema), msg k)).count ((pointer ts, names schema), msg k) =
        if ReadOnly o k then (req o).count k else 0 := by
      intro l
      induction l with
      | nil => intro _ h; cases h
      | cons v l ih =>
        intro hn hm
        rw [List.map_cons, List.nodup_cons] at hn
        rw [List.flatMap_cons, List.count_append]
        rcases List.mem_cons.1 hm with e | hm
        · subst e
          have hz : (l.flatMap fun v => ((req v.2).filter fun k => ReadOnly v.2 k).map
              fun k => ((v.1, names schema), msg k)).count ((pointer ts, names schema), msg k) = 0 := by
            rw [List.count_eq_zero]
            intro hx
            rw [List.mem_flatMap] at hx
            obtain ⟨w, hw, hx⟩ := hx
            rw [List.mem_map] at hx
            obtain ⟨_, _, hx⟩ := hx
            simp only [Prod.mk.injEq] at hx
            exact hn.1 (List.mem_map.2 ⟨w, hw, hx.1.1⟩)
          rw [hz, Nat.add_zero]
          have := count_one (fun k => decide (ReadOnly o k)) (pointer ts, names schema) k (req o)
          simpa using this
        · have hz : (((req v.2).filter fun k => ReadOnly v.2 k).map
              fun k => ((v.1, names schema), msg k)).count ((pointer ts, names schema), msg k) = 0 := by
            rw [List.count_eq_zero]
            intro hx
            rw [List.mem_map] at hx
            obtain ⟨_, _, hx⟩ := hx
            simp only [Prod.mk.injEq] at hx
            exact hn.1 (List.mem_map.2 ⟨_, hm, hx.1.1.symm⟩)
          rw [hz, Nat.zero_add]
          exact ih hn.2 hm
    constructor
    · intro h; rw [key _ hnd hmem, if_pos h]
    · intro h; rw [key _ hnd hmem, if_neg h]
  · intro e he
    rw [List.mem_flatMap] at he
    obtain ⟨v, hv, he⟩ := he
    rw [List.mem_map] at he
    obtain ⟨k, hk, rfl⟩ := he
    rw [List.mem_filter, decide_eq_true_eq] at hk
    obtain ⟨h1, ts, h2, h3⟩ := hin v hv
    exact ⟨ts, v.2, req v.2, k, h3, h1, (hgood v hv).2, hk.1, hk.2, by rw [h2]⟩

/-- **C49** (strict). In strict mode `validate` raises `ValidationError` exactly if there is an
error; otherwise, and without strict mode, it returns the list. -/
theorem C49_strict (mro : Nat → List Nat) (names : Nat → Str) (schema : Nat) (root : Option Tree)
    (strict : Bool) (errs : List Err) (h : errors mro names schema root = .ok errs) :
    validate mro names schema root strict =
      if strict = true ∧ errs ≠ [] then .error .ValidationError else .ok errs := by
  unfold validate
  rw [h]
  cases strict <;> cases errs <;> simp

/-- A document without a schema that requires a read-only property passes. -/
theorem C49_valid (mro : Nat → List Nat) (names : Nat → Str) (schema : Nat) (root : Tree)
    (hm : ∀ c, (mro c).count schema = if c = schema then 1 else 0)
    (hw : WF root) (hr : isObj root = true)
    (hreg : ∀ ts o, At [] root ts o → cls? o = some schema → Regular o) (strict : Bool) :
    validate mro names schema (some root) strict = .ok [] ↔
      ∀ ts o ks k, At [] root ts o → cls? o = some schema → Requires o ks → k ∈ ks → ¬ ReadOnly o k := by
  obtain ⟨errs, h1, h2, h3⟩ := C49_errors mro names schema root hm hw hr hreg
  rw [C49_strict mro names schema _ strict errs h1]
  constructor
  · intro h ts o ks k ha hc hk hin hro
    have he : errs = [] := by
      by_cases hs : strict = true ∧ errs ≠ []
      · rw [if_pos hs] at h; cases h
      · rw [if_neg hs] at h; cases h; rfl
    have := (h2 ts o ks k ha hc hk).1 hro
    rw [he] at this
    exact absurd (List.count_pos_iff.2 hin) (by rw [← this]; simp)
  · intro h
    have he : errs = [] := by
      cases errs with
      | nil => rfl
      | cons e es =>
        obtain ⟨ts, o, ks, k, ha, hc, hk, hin, hro, _⟩ := h3 e (List.mem_cons_self ..)
        exact absurd hro (h ts o ks k ha hc hk hin)
    subst he
    simp

/-! ## example -/

def prop (ro : Option Bool) : Tree :=
  .obj 5 [(c!"required", .list []), (c!"properties", .dict []),
    (c!"readOnly", .atom (match ro with | some b => .bool b | none => .none))]

/-- a document with one schema, requiring `id` (read-only), `name` and the undeclared `x` -/
def doc : Tree := .obj 0 [(c!"definitions", .dict [(c!"Pet", .obj 5
  [(c!"required", .list [.atom (.str c!"id"), .atom (.str c!"name"), .atom (.str c!"x")]),
   (c!"properties", .dict [(c!"id", prop (some true)), (c!"name", prop none), (c!"tag", prop (some true))]),
   (c!"readOnly", .atom .none)])])]

example : errors (fun c => [c]) (fun _ => c!"Schema") 5 (some doc) =
    .ok [((c!"#/definitions/Pet", c!"Schema"), c!"ReadOnly property in required list: id")] := by
  decide +kernel
example : validate (fun c => [c]) (fun _ => c!"Schema") 5 (some doc) true = .error .ValidationError := by
  decide +kernel
example : WF doc ∧ isObj doc = true := by
  refine ⟨?_, rfl⟩
  simp [doc, prop, WF, WFDict, WFList, Dict.keys]
theorem prop_regular (ro : Option Bool) : Regular (prop ro) :=
  ⟨[], 5, _, [], ⟨5, _, rfl, rfl⟩, rfl, rfl, fun k p h => by cases h⟩

example : ∀ ts o, At [] doc ts o → cls? o = some 5 → Regular o := by
  have hp : ∀ ro ts o, At [] (prop ro) ts o → cls? o = some 5 → Regular o := by
    intro ro ts o h hc
    cases h with
    | here => exact prop_regular ro
    | field _ _ n v ts u _ hm ha =>
      simp only [List.mem_cons, Prod.mk.injEq, List.not_mem_nil, or_false] at hm
      rcases hm with ⟨_, rfl⟩ | ⟨_, rfl⟩ | ⟨_, rfl⟩
      · cases ha with
        | here => cases hc
        | item _ _ _ _ _ hi _ => simp at hi
      · cases ha with
        | here => cases hc
        | key _ _ _ _ _ hi _ => cases hi
      · cases ha; cases hc
  intro ts o h hc
  cases h with
  | here => cases hc
  | field _ _ n v ts u _ hm ha =>
    simp only [List.mem_cons, Prod.mk.injEq, List.not_mem_nil, or_false] at hm
    obtain ⟨_, rfl⟩ := hm
    cases ha with
    | here => cases hc
    | key _ _ _ ts _ hm ha =>
      simp only [List.mem_cons, Prod.mk.injEq, List.not_mem_nil, or_false] at hm
      obtain ⟨_, rfl⟩ := hm
      cases ha with
      | here =>
        refine ⟨[c!"id", c!"name", c!"x"], 5, _, _, ⟨5, _, rfl, rfl⟩, rfl, rfl, fun k p h => ?_⟩
        have := Dict.mem_of_get? h
        simp only [List.mem_cons, Prod.mk.injEq, List.not_mem_nil, or_false] at this
        rcases this with ⟨_, rfl⟩ | ⟨_, rfl⟩ | ⟨_, rfl⟩
        · exact ⟨_, _, rfl, Or.inr ⟨true, rfl⟩⟩
        · exact ⟨_, _, rfl, Or.inl rfl⟩
        · exact ⟨_, _, rfl, Or.inr ⟨true, rfl⟩⟩
      | field _ _ n v ts u _ hm ha =>
        simp only [List.mem_cons, Prod.mk.injEq, List.not_mem_nil, or_false] at hm
        rcases hm with ⟨_, rfl⟩ | ⟨_, rfl⟩ | ⟨_, rfl⟩
        · cases ha with
          | here => cases hc
          | item _ i v _ _ hi ha =>
            have := List.mem_of_getElem? hi
            simp only [List.mem_cons, List.not_mem_nil, or_false] at this
            rcases this with rfl | rfl | rfl <;> (cases ha; cases hc)
        · cases ha with
          | here => cases hc
          | key _ _ _ ts _ hm ha =>
            simp only [List.mem_cons, Prod.mk.injEq, List.not_mem_nil, or_false] at hm
            rcases hm with ⟨_, rfl⟩ | ⟨_, rfl⟩ | ⟨_, rfl⟩ <;> exact hp _ _ _ ha hc
        · cases ha; cases hc
example : ∀ c, ((fun c => [c]) c : List Nat).count 5 = if c = 5 then 1 else 0 := by
  intro c
  by_cases h : c = 5
  · subst h; rfl
  · simp [h]

end Props.C49
