import Verif.Model.Doc20
import Verif.Proofs.Merge
import Verif.Props.C42
/-!
# C43: Merging keeps what is set and fills in only what is missing

`merge exclude self other`, field by field. A list field is joined to the own one (duplicates
dropped, in any order), a dict field is completed, any other field is taken over only when the own
one has its default; objects are copied.
-/

namespace Props.C43
open Py Tree _root_.Doc Spec.Doc Spec.Merge

variable {order : List Atom → List Atom} {exclude : List Str} {c c' : Nat} {fs os : List (Str × Tree)}
  {r : Tree}

theorem field (h : merge v20 order exclude (.obj c fs) (.obj c' os) = some r) :
    ∃ gs, r = .obj c gs ∧ Dict.keys gs = Dict.keys fs ∧ ∀ n, Dict.get? gs n =
      (Dict.get? fs n).bind (Proofs.Merge.mergedField v20 order exclude (v20 c) os n) := by
  rw [merge] at h
  cases hg : mergeFields v20 order exclude (v20 c) os fs with
  | none => rw [hg] at h; cases h
  | some gs =>
    rw [hg] at h; cases h
    exact ⟨gs, rfl, Proofs.Merge.mergeFields_spec hg⟩

/-- The result has the same class and the same fields. -/
theorem C43_fields (h : merge v20 order exclude (.obj c fs) (.obj c' os) = some r) :
    ∃ gs, r = .obj c gs ∧ Dict.keys gs = Dict.keys fs := by
  obtain ⟨gs, h1, h2, _⟩ := field h
  exact ⟨gs, h1, h2⟩

/-- Excluded fields, and fields where the other object has the default, stay as they are. -/
theorem C43_untouched {gs : List (Str × Tree)}
    (h : merge v20 order exclude (.obj c fs) (.obj c' os) = some (.obj c gs)) {n : Str} {own : Tree}
    (hown : Dict.get? fs n = some own)
    (hn : n ∈ exclude ∨ ∃ dflt v, Dict.get? (v20 c).fields n = some dflt ∧ Dict.get? os n = some v ∧
      isDefault dflt v = true) :
    Dict.get? gs n = some own := by
  obtain ⟨gs', h1, _, h3⟩ := field h
  cases h1
  rw [h3, hown]
  simp only [Option.bind_some]
  unfold Proofs.Merge.mergedField
  by_cases he : n ∈ exclude
  · simp [he]
  · rcases hn with hn | ⟨dflt, v, hf, hv, hd⟩
    · exact absurd hn he
    · simp only [he, if_false, hv, Option.bind_some]
      unfold mergeField
      rw [Proofs.Merge.defaultOf_eq hf, if_pos hd]

/-- the field of the result, when the field counts -/
theorem counts {gs : List (Str × Tree)}
    (h : merge v20 order exclude (.obj c fs) (.obj c' os) = some (.obj c gs)) {n : Str} {own v dflt : Tree}
    (hown : Dict.get? fs n = some own) (hn : n ∉ exclude)
    (hf : Dict.get? (v20 c).fields n = some dflt) (hv : Dict.get? os n = some v)
    (hd : isDefault dflt v = false) :
    Dict.get? gs n = (if (Dict.get? (v20 c).child n).isSome then
        (if isDefault dflt own then copyOf v20 order (v20 c) n v else some own)
      else match v with
        | .list l => joinLists order own l
        | .dict d => joinDicts own d
        | v => if isDefault dflt own then some v else some own) := by
  obtain ⟨gs', h1, _, h3⟩ := field h
  cases h1
  rw [h3, hown]
  simp only [Option.bind_some]
  unfold Proofs.Merge.mergedField
  simp only [hn, if_false, hv, Option.bind_some]
  unfold mergeField
  rw [Proofs.Merge.defaultOf_eq hf]
  simp only [hd, Bool.false_eq_true, if_false]
  cases v <;> rfl

/-- Every field of the object is also one of the result (so that the theorems below speak about all
fields). -/
theorem C43_present {gs : List (Str × Tree)}
    (h : merge v20 order exclude (.obj c fs) (.obj c' os) = some (.obj c gs)) (n : Str) :
    (Dict.get? gs n).isSome ↔ (Dict.get? fs n).isSome := by
  obtain ⟨gs', h1, h2, _⟩ := field h
  cases h1
  rw [Dict.get?_isSome_iff, Dict.get?_isSome_iff, h2]

/-- A scalar: the own value is kept unless it is the default, and then the other's is taken. -/
theorem C43_scalar {gs : List (Str × Tree)}
    (h : merge v20 order exclude (.obj c fs) (.obj c' os) = some (.obj c gs)) {n : Str} {own dflt : Tree}
    {a : Atom} (hown : Dict.get? fs n = some own) (hn : n ∉ exclude)
    (hf : Dict.get? (v20 c).fields n = some dflt) (hv : Dict.get? os n = some (.atom a))
    (hc : Dict.get? (v20 c).child n = none) (hd : isDefault dflt (.atom a) = false) :
    Dict.get? gs n = if isDefault dflt own = true then some (.atom a) else some own := by
  rw [counts h hown hn hf hv hd, hc]
  rfl

/-- A field with objects that is set is kept. -/
theorem C43_objects_kept {gs : List (Str × Tree)}
    (h : merge v20 order exclude (.obj c fs) (.obj c' os) = some (.obj c gs)) {n : Str} {own dflt : Tree}
    {k : Kind} (hown : Dict.get? fs n = some own)
    (hf : Dict.get? (v20 c).fields n = some dflt) (hv : (Dict.get? os n).isSome)
    (hc : Dict.get? (v20 c).child n = some k) (hset : isDefault dflt own = false) :
    Dict.get? gs n = some own := by
  obtain ⟨v, hv⟩ := Option.isSome_iff_exists.1 hv
  by_cases hn : n ∈ exclude
  · exact C43_untouched h hown (Or.inl hn)
  · cases hd : isDefault dflt v with
    | true => exact C43_untouched h hown (Or.inr ⟨dflt, v, hf, hv, hd⟩)
    | false =>
      rw [counts h hown hn hf hv hd, hc, hset]
      rfl

/-- A field with objects that is not set becomes a copy of the other's. -/
theorem C43_objects_copied (ho : ∀ l, (order l).Perm l) {gs : List (Str × Tree)}
    (h : merge v20 order exclude (.obj c fs) (.obj c' os) = some (.obj c gs)) {n : Str} {own v dflt : Tree}
    {k : Kind} (hown : Dict.get? fs n = some own) (hn : n ∉ exclude)
    (hf : Dict.get? (v20 c).fields n = some dflt) (hv : Dict.get? os n = some v)
    (hc : Dict.get? (v20 c).child n = some k) (hd : isDefault dflt v = false)
    (hset : isDefault dflt own = true) :
    ∃ w, Dict.get? gs n = some w ∧ Copy v20 k v w := by
  have hg := counts h hown hn hf hv hd
  rw [hc, hset] at hg
  simp only [Option.isSome_some, if_true] at hg
  unfold copyOf at hg
  rw [hc] at hg
  obtain ⟨w, hw⟩ := Option.isSome_iff_exists.1 ((C43_present h n).2 (by rw [hown]; rfl))
  exact ⟨w, hw, Proofs.Merge.copyAs_copy C42.C42_grammar ho v k w (hg.symm.trans hw)⟩

/-- A list is joined to the own list (or to nothing). -/
theorem C43_lists (ho : ∀ l, (order l).Perm l) {gs : List (Str × Tree)}
    (h : merge v20 order exclude (.obj c fs) (.obj c' os) = some (.obj c gs)) {n : Str} {own dflt : Tree}
    {l : List Tree} (hown : Dict.get? fs n = some own) (hn : n ∉ exclude)
    (hf : Dict.get? (v20 c).fields n = some dflt) (hv : Dict.get? os n = some (.list l))
    (hc : Dict.get? (v20 c).child n = none) (hd : isDefault dflt (.list l) = false) :
    ∃ own' m, Dict.get? gs n = some (.list m) ∧ Joined own' l m ∧
      (own = .list own' ∨ (Nothing own ∧ own' = [])) := by
  have hg := counts h hown hn hf hv hd
  rw [hc] at hg
  simp only [Option.isSome_none, Bool.false_eq_true, if_false] at hg
  obtain ⟨w, hw⟩ := Option.isSome_iff_exists.1 ((C43_present h n).2 (by rw [hown]; rfl))
  obtain ⟨own', m, h1, h2, h3⟩ := Proofs.Merge.joinLists_spec ho (hg.symm.trans hw)
  exact ⟨own', m, by rw [hw, h1], h2, h3.imp_right (And.imp_left (Proofs.Merge.nothing_iff _).1)⟩

/-- A dict is completed by the other's entries, the own entries winning. -/
theorem C43_dicts {gs : List (Str × Tree)}
    (h : merge v20 order exclude (.obj c fs) (.obj c' os) = some (.obj c gs)) {n : Str} {own dflt : Tree}
    {d : Dict Str Tree} (hown : Dict.get? fs n = some own) (hn : n ∉ exclude)
    (hf : Dict.get? (v20 c).fields n = some dflt) (hv : Dict.get? os n = some (.dict d))
    (hc : Dict.get? (v20 c).child n = none) (hd : isDefault dflt (.dict d) = false)
    (hwf : WF own) :
    ∃ own' m, Dict.get? gs n = some (.dict m) ∧ (own = .dict own' ∨ (Nothing own ∧ own' = [])) ∧
      ∀ key, Dict.get? m key = (match Dict.get? own' key with
        | some x => some x
        | none => Dict.get? d key) := by
  have hg := counts h hown hn hf hv hd
  rw [hc] at hg
  simp only [Option.isSome_none, Bool.false_eq_true, if_false] at hg
  obtain ⟨w, hw⟩ := Option.isSome_iff_exists.1 ((C43_present h n).2 (by rw [hown]; rfl))
  have hj := hg.symm.trans hw
  cases own with
  | dict e =>
    cases hj
    rw [WF] at hwf
    exact ⟨e, _, hw, Or.inl rfl, fun key => by
      rw [Dict.get?_update hwf.1]; cases Dict.get? e key <;> rfl⟩
  | _ =>
    simp only [joinDicts] at hj
    split at hj
    · next hfalse => cases hj; exact ⟨[], d, hw, Or.inr ⟨(Proofs.Merge.nothing_iff _).1 hfalse, rfl⟩, fun key => rfl⟩
    · cases hj

/-- Merging succeeds for objects as they are read from documents (`Shaped`), if lists meet lists and
dicts meet dicts. -/
theorem C43_total (hs : Shaped v20 (.one c) (.obj c fs)) (ho : Shaped v20 (.one c) (.obj c os))
    (hj : ∀ n own v, n ∉ exclude → Dict.get? (v20 c).child n = none → Dict.get? fs n = some own →
      Dict.get? os n = some v → Joins own v) :
    ∃ r, merge v20 order exclude (.obj c fs) (.obj c os) = some r := by
  simp only [Shaped] at hs ho
  have : ∃ gs, mergeFields v20 order exclude (v20 c) os fs = some gs := by
    refine Proofs.Merge.mergeFields_total fun n own hm => ?_
    unfold Proofs.Merge.mergedField
    by_cases hn : n ∈ exclude
    · exact ⟨own, by simp [hn]⟩
    simp only [hn, if_false]
    have hnd : (Dict.keys fs).Nodup := hs.2.1 ▸ (C42.C42_grammar c).1
    have hown := Dict.get?_of_mem hnd hm
    have hmem : n ∈ Dict.keys os := by
      rw [ho.2.1, ← hs.2.1]
      exact List.mem_map.2 ⟨_, hm, rfl⟩
    obtain ⟨v, hv⟩ := Option.isSome_iff_exists.1 ((Dict.get?_isSome_iff _ _).2 hmem)
    rw [hv]
    simp only [Option.bind_some]
    have hsh := Proofs.Merge.shapedFields_mem ho.2.2 (Dict.mem_of_get? hv)
    unfold copyOf
    cases hc : Dict.get? (v20 c).child n with
    | none => exact Proofs.Merge.mergeField_total (hj n own v hn hc hown hv)
    | some k =>
      rw [hc] at hsh
      obtain ⟨w, hw⟩ := Proofs.Merge.copyAs_total (order := order) v k hsh
      dsimp only
      rw [hw]
      unfold mergeField
      simp only [Option.isSome_some, if_true]
      split
      · exact ⟨_, rfl⟩
      · split <;> exact ⟨_, rfl⟩
  obtain ⟨gs, hgs⟩ := this
  exact ⟨.obj c gs, by rw [merge, hgs]; rfl⟩

/-- The copy of a list may come back in another order and without repeated elements, so the merge of
`enum: [2, 1, 2]` into a fresh object need not have the same `enum`. -/
theorem C43_order_false : ∃ order : List Atom → List Atom, (∀ l, (order l).Perm l) ∧ ∃ gs,
    merge v20 order [] (fresh v20 cItems)
      (.obj cItems (assemble itemsCls [(c!"enum", .list [.atom (.int 2), .atom (.int 1), .atom (.int 2)])]))
      = some (.obj cItems gs) ∧ Dict.get? gs c!"enum" = some (.list [.atom (.int 1), .atom (.int 2)]) :=
  ⟨List.reverse, List.reverse_perm, _, rfl, (by rfl : _ = some (.list
    ((distinct [.int 2, .int 1, .int 2]).reverse.map .atom))).trans
    (by rw [show distinct [.int 2, .int 1, .int 2] = [.int 2, .int 1] by decide +kernel]; rfl)⟩

/-- Values that are equal in Python but differ in JSON are identified: of `1` and `true` in an `enum`
one is lost. -/
theorem C43_equal_false : ∃ gs, merge v20 id [] (fresh v20 cItems)
      (.obj cItems (assemble itemsCls [(c!"enum", .list [.atom (.int 1), .atom (.bool true)])]))
      = some (.obj cItems gs) ∧ Dict.get? gs c!"enum" = some (.list [.atom (.int 1)]) :=
  ⟨_, rfl, (by rfl : _ = some (.list ((distinct [.int 1, .bool true]).map .atom))).trans
    (by rw [show distinct [.int 1, .bool true] = [.int 1] by decide +kernel]; rfl)⟩

/-- two parameters -/
def p1 : Tree := .obj cParameter (assemble parameterCls
  [(c!"name", .atom (.str c!"a")), (c!"enum", .list [.atom (.int 1)]), (c!"type", .atom (.str c!"integer"))])
def p2 : Tree := .obj cParameter (assemble parameterCls
  [(c!"name", .atom (.str c!"b")), (c!"enum", .list [.atom (.int 1), .atom (.int 2)]),
    (c!"in", .atom (.str c!"query")), (c!"required", .atom (.bool true)),
    (c!"items", .obj cItems (assemble itemsCls [(c!"type", .atom (.str c!"string"))]))])

example : ∃ gs, merge v20 id [c!"required"] p1 p2 = some (.obj cParameter gs) ∧
    Dict.get? gs c!"name" = some (.atom (.str c!"a")) ∧
    Dict.get? gs c!"in" = some (.atom (.str c!"query")) ∧
    Dict.get? gs c!"required" = some (.atom .none) ∧
    Dict.get? gs c!"enum" = some (.list [.atom (.int 1), .atom (.int 2)]) ∧
    ∃ i, Dict.get? gs c!"items" = some (.obj cItems i) ∧ Dict.get? i c!"type" = some (.atom (.str c!"string")) :=
  ⟨_, rfl, rfl, rfl, rfl, (by rfl : _ = some (.list ((distinct [.int 1, .int 1, .int 2]).map .atom))).trans
    (by rw [show distinct [.int 1, .int 1, .int 2] = [.int 1, .int 2] by decide +kernel]; rfl), _, rfl, rfl⟩

end Props.C43
