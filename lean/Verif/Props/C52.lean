import Verif.Proofs.MergeRefs
/-!
# C52: Referenced parameters, responses and path items behave like inlined ones

`MergeRefs.effective W order c fuel i` is the effective object of the object `i` of class `c`
(`Parameter`, `Response`, `PathItem`). Scalar fields and fields with objects come from the first
object along the chain of references that sets them. List fields (`enum`, a `default` that is a
list) are joined over the whole chain instead (`C52_lists`, `C52_first_false`).
-/

namespace Props.C52
open Py Tree _root_.Doc _root_.MergeRefs Spec.Doc Spec.Merge Spec.MergeRefs Proofs.MergeRefs

variable {W : World} {order : List Atom → List Atom} {c fuel i : Nat}

/-- Merging terminates, however cyclic the references are: `ids` are the objects that references can
lead to. -/
theorem C52_terminates (ids : List Nat) (hids : ∀ r j, W.resolve r = .ok j → j ∈ ids)
    (hfuel : ids.length < fuel) : ∃ o, effective W order c fuel i = some o := by
  unfold effective
  cases hm : merge v20 order [] (fresh v20 c) (W.content i) with
  | none => exact ⟨_, rfl⟩
  | some result =>
    dsimp only
    refine follow_terminates (i :: ids) (fun r j h => List.mem_cons_of_mem _ (hids r j h)) _ _ _ _
      (by simp) (fun v hv => ?_) (by simp only [List.length_cons, List.length_nil]; omega)
    rw [List.mem_singleton.1 hv]
    exact List.mem_cons_self ..

/-- A reference to an object of another kind, or one that cannot be resolved, raises; a chain without
such a reference does not (unless a `merge` does). -/
theorem C52_raises {o : Outcome} (h : effective W order c fuel i = some o) (hm : o ≠ .failed)
    {rest : List Nat} {e : End} (hch : Chain W c [i] i rest e) :
    (∀ x, e = .raised x ↔ o = .raised x) ∧ (e = .done ↔ ∃ t, o = .value t) := by
  rcases effective_chain h with hf | ⟨rest', e', hch', hout⟩
  · exact absurd hf hm
  · obtain ⟨_, rfl⟩ := chain_unique hch' hch
    rcases hout with ⟨x, rfl, rfl⟩ | ⟨t, rfl, rfl, _⟩
    · refine ⟨fun y => ?_, ?_⟩
      · constructor <;> (intro h; cases h; rfl)
      · constructor
        · intro h; cases h
        · rintro ⟨t, h⟩; cases h
    · refine ⟨fun y => ?_, ?_⟩
      · constructor <;> (intro h; cases h)
      · exact ⟨fun _ => ⟨t, rfl⟩, fun _ => rfl⟩

/-- The effective object, computed, lies at the end of a chain. -/
theorem C52_chain {t : Tree} (h : effective W order c fuel i = some (.value t)) :
    ∃ rest gs, Chain W c [i] i rest .done ∧ t = .obj c gs ∧
      Dict.keys gs = Dict.keys (v20 c).fields := by
  rcases effective_chain h with hf | ⟨rest, e, hch, ⟨x, hx, _⟩ | ⟨t', ht, rfl, hm⟩⟩
  · cases hf
  · cases hx
  · cases ht
    have key : ∀ (os : List Tree) (fs : List (Str × Tree)) (r : Tree),
        mergeAll order (.obj c fs) os = some r → ∃ gs, r = .obj c gs ∧ Dict.keys gs = Dict.keys fs := by
      intro os
      induction os with
      | nil => intro fs r h; cases h; exact ⟨fs, rfl, rfl⟩
      | cons o os ih =>
        intro fs r h
        rw [mergeAll] at h
        cases hm : merge v20 order [] (.obj c fs) o with
        | none => rw [hm] at h; cases h
        | some r' =>
          rw [hm] at h
          cases o with
          | obj c' os' =>
            rw [merge] at hm
            cases hg : mergeFields v20 order [] (v20 c) os' fs with
            | none => rw [hg] at hm; cases hm
            | some gs =>
              rw [hg] at hm; cases hm
              obtain ⟨gs', h1, h2⟩ := ih gs r h
              exact ⟨gs', h1, h2.trans (Proofs.Merge.mergeFields_spec hg).1⟩
          | _ => rw [merge] at hm <;> first | cases hm | exact nofun
    obtain ⟨gs, h1, h2⟩ := key _ _ _ hm
    exact ⟨rest, gs, hch, h1, h2⟩

theorem fresh_field {n : Str} {dflt : Tree} (hf : Dict.get? (v20 c).fields n = some dflt) :
    isDefault dflt dflt = true := (C42.C42_grammar c).2.2.1 _ (Dict.mem_of_get? hf)

/-- A scalar field has the value of the first object of the chain that sets it, else the default. -/
theorem C52_scalars {gs : List (Str × Tree)} (h : effective W order c fuel i = some (.value (.obj c gs)))
    {rest : List Nat} (hch : Chain W c [i] i rest .done) {n : Str} {dflt : Tree}
    (hf : Dict.get? (v20 c).fields n = some dflt) (hc : Dict.get? (v20 c).child n = none)
    (hat : ∀ j ∈ i :: rest, ∀ x, valueOf n (W.content j) = some x → ∃ a, x = .atom a) :
    (∀ v, FirstSet n dflt ((i :: rest).map W.content) v → Dict.get? gs n = some v) ∧
    (NoneSet n dflt ((i :: rest).map W.content) → Dict.get? gs n = some dflt) := by
  rcases effective_chain h with hf' | ⟨rest', e, hch', ⟨x, hx, _⟩ | ⟨t', ht, rfl, hm⟩⟩
  · cases hf'
  · cases hx
  · cases ht
    obtain ⟨rfl, _⟩ := chain_unique hch' hch
    obtain ⟨gs', h1, _, h3⟩ := mergeAll_scalar hf hc hm hf (by
      intro o ho
      obtain ⟨j, hj, rfl⟩ := List.mem_map.1 ho
      exact hat j hj)
    cases h1
    exact h3 (fresh_field hf)

/-- A field with objects has a copy of the value of the first object of the chain that sets it, else
the default. -/
theorem C52_objects (ho : ∀ l, (order l).Perm l) {gs : List (Str × Tree)}
    (h : effective W order c fuel i = some (.value (.obj c gs)))
    {rest : List Nat} (hch : Chain W c [i] i rest .done) {n : Str} {dflt : Tree} {k : Kind}
    (hf : Dict.get? (v20 c).fields n = some dflt) (hc : Dict.get? (v20 c).child n = some k) :
    (∀ v, FirstSet n dflt ((i :: rest).map W.content) v →
      ∃ w, Dict.get? gs n = some w ∧ Copy v20 k v w) ∧
    (NoneSet n dflt ((i :: rest).map W.content) → Dict.get? gs n = some dflt) := by
  rcases effective_chain h with hf' | ⟨rest', e, hch', ⟨x, hx, _⟩ | ⟨t', ht, rfl, hm⟩⟩
  · cases hf'
  · cases hx
  · cases ht
    obtain ⟨rfl, _⟩ := chain_unique hch' hch
    obtain ⟨gs', h1, _, h3⟩ := mergeAll_child ho hf hc hm hf
    cases h1
    exact h3 (fresh_field hf)

/-- A list field has exactly the elements that some object of the chain lists. -/
theorem C52_lists (ho : ∀ l, (order l).Perm l) {gs : List (Str × Tree)}
    (h : effective W order c fuel i = some (.value (.obj c gs)))
    {rest : List Nat} (hch : Chain W c [i] i rest .done) {n : Str} {dflt : Tree}
    (hf : Dict.get? (v20 c).fields n = some dflt) (hc : Dict.get? (v20 c).child n = none)
    (hl : ∀ j ∈ i :: rest, ∀ x, valueOf n (W.content j) = some x →
      isDefault dflt x = true ∨ ∃ l, x = .list l) :
    ∃ w, Dict.get? gs n = some w ∧ ∀ t, In t (elems w) ↔
      ∃ j ∈ i :: rest, ∃ x, valueOf n (W.content j) = some x ∧ In t (elems x) := by
  rcases effective_chain h with hf' | ⟨rest', e, hch', ⟨x, hx, _⟩ | ⟨t', ht, rfl, hm⟩⟩
  · cases hf'
  · cases hx
  · cases ht
    obtain ⟨rfl, _⟩ := chain_unique hch' hch
    obtain ⟨gs', w, h1, hw, h3⟩ := mergeAll_list ho hf hc hm hf (Or.inl (fresh_field hf)) (by
      intro o ho
      obtain ⟨j, hj, rfl⟩ := List.mem_map.1 ho
      exact hl j hj)
    cases h1
    refine ⟨w, hw, fun t => ?_⟩
    rw [h3 t, elems_default (fresh_field hf)]
    constructor
    · rintro (⟨u, hu, _⟩ | ⟨o, ho, x, hx, hin⟩)
      · cases hu
      · obtain ⟨j, hj, rfl⟩ := List.mem_map.1 ho
        exact ⟨j, hj, x, hx, hin⟩
    · rintro ⟨j, hj, x, hx, hin⟩
      exact Or.inr ⟨_, List.mem_map.2 ⟨j, hj, rfl⟩, x, hx, hin⟩

/-- A path item keeps the operations it has and gets copies of those of the first referenced path
item that has them. -/
theorem C52_pathItem (ho : ∀ l, (order l).Perm l) {fs gs : List (Str × Tree)}
    (hi : W.content i = .obj cPathItem fs)
    (h : pathItem W order fuel i = some (.value (.obj cPathItem gs)))
    {rest : List Nat} (hch : Chain W cPathItem [i] i rest .done) {n : Str} {dflt : Tree} {k : Kind}
    (hf : Dict.get? (v20 cPathItem).fields n = some dflt) (hc : Dict.get? (v20 cPathItem).child n = some k) :
    (∀ v, Dict.get? fs n = some v → isDefault dflt v = false → Dict.get? gs n = some v) ∧
    (∀ v own, Dict.get? fs n = some own → isDefault dflt own = true →
      FirstSet n dflt (rest.map W.content) v →
      ∃ u w, Dict.get? gs n = some w ∧ Copy v20 k v u ∧ Copy v20 k u w) := by
  unfold pathItem at h
  cases he : effective W order cPathItem fuel i with
  | none => rw [he] at h; cases h
  | some o =>
    rw [he] at h
    cases o with
    | raised e => cases h
    | failed => cases h
    | value t =>
      dsimp only at h
      cases hm : merge v20 order [] (W.content i) t with
      | none => rw [hm] at h; cases h
      | some r =>
        rw [hm] at h
        cases h
        obtain ⟨_, es, _, rfl, _⟩ := C52_chain he
        rw [hi] at hm
        have hall : mergeAll order (.obj cPathItem fs) [.obj cPathItem es] = some (.obj cPathItem gs) := by
          simp [mergeAll, hm]
        refine ⟨fun v hv hd => ?_, fun v own hown hd hfirst => ?_⟩
        · obtain ⟨gs', h1, h2, _⟩ := mergeAll_child ho hf hc hall hv
          cases h1
          exact h2 hd
        · obtain ⟨gs', h1, _, h3⟩ := mergeAll_child ho hf hc hall hown
          cases h1
          have hv' : valueOf n (W.content i) = some own := by rw [hi]; exact hown
          have hfull : FirstSet n dflt ((i :: rest).map W.content) v :=
            (firstSet_cons hv').2 (Or.inr ⟨hd, hfirst⟩)
          obtain ⟨u, hu, hcu⟩ := (C52_objects ho he hch hf hc).1 v hfull
          have hnd : isDefault dflt u = false := by
            obtain ⟨_, _, _, _, _, hvd, _⟩ := hfirst
            exact copy_not_default ((C42.C42_grammar _).2.2.2 _ (Dict.mem_of_get? hf) k hc) hcu hvd
          obtain ⟨w, hw, hcw⟩ := (h3 hd).1 u ((firstSet_cons (n := n) (o := .obj cPathItem es) hu).2
            (Or.inl ⟨hnd, rfl⟩))
          exact ⟨u, w, hw, hcu, hcw⟩

/-- the parameters `#/parameters/a` (a reference to `b` with a list of its own) and `b` -/
def world : World where
  content j :=
    if j = 0 then .obj cParameter (assemble parameterCls
      [(c!"$ref", .atom (.str c!"#/parameters/b")), (c!"enum", .list [.atom (.int 1)])])
    else .obj cParameter (assemble parameterCls
      [(c!"$ref", .atom (.str c!"#/parameters/b")), (c!"name", .atom (.str c!"b")),
        (c!"in", .atom (.str c!"query")), (c!"enum", .list [.atom (.int 2)])])
  resolve r := if r = c!"#/parameters/b" then .ok 1 else .error .KeyError

theorem world_chain : Chain world cParameter [0] 0 [1] .done :=
  .step (r := c!"#/parameters/b") ⟨by simp, by rfl⟩ (by rfl) (by rfl) (by decide)
    (.cycle (r := c!"#/parameters/b") (j := 1) ⟨by simp, by rfl⟩ (by rfl) (by rfl) (by decide))

example : ∃ gs, effective world id cParameter 2 0 = some (.value (.obj cParameter gs)) ∧
    Dict.get? gs c!"name" = some (.atom (.str c!"b")) ∧
    Dict.get? gs c!"in" = some (.atom (.str c!"query")) := ⟨_, rfl, rfl, rfl⟩

/-- A list of the object itself does not replace the list of the referenced object: the two are
joined. -/
theorem C52_first_false : ∃ gs, effective world id cParameter 2 0 = some (.value (.obj cParameter gs)) ∧
    FirstSet c!"enum" nul ([0, 1].map world.content) (.list [.atom (.int 1)]) ∧
    Dict.get? gs c!"enum" = some (.list [.atom (.int 1), .atom (.int 2)]) := by
  refine ⟨_, rfl, ⟨[], _, _, rfl, rfl, rfl, fun b hb => by cases hb⟩, ?_⟩
  exact (by rfl : _ = some (.list ((distinct ((distinct [.int 1]) ++ [.int 2])).map .atom))).trans
    (by rw [show distinct ((distinct [.int 1]) ++ [.int 2]) = [.int 1, .int 2] by decide +kernel]; rfl)

end Props.C52
