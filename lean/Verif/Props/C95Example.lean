import Verif.Props.C95
import Verif.Props.C94Example
/-!
# C95: concrete documents

`Sized` has its type and an upper limit itself and the lower limit from a part.
-/

namespace Props.C95
open Py Utils Tree _root_.Doc Prim Spec.Pointed Spec.Composed Spec.Generated Spec.Rendered _root_.Loaded Proofs.Loaded Proofs.Origin Proofs.Composed
open Render (Opt generate item)
open _root_.Create (schemaHeap schemaIndex composeSchemas visited renderEnv renderNode fieldsOf)
open _root_.Aggregate (look Heap aggregate compose composeAll finish gather deref mergeInto mergeItems mergeProps addProps finalOr copyObj
  copyOpt copyList copyDict joinValues joinField joinValue)
open Props.C83 (outside)
open Props.C88.Shelf (txt)
open Props.C92.Notes (dicts dicts_iff url at_ url_eq)
open Props.C53 (compose_step composeAll_step)

namespace Sized

def partQ : Dict Str Tree := [(c!"minLength", .atom (.int 2))]
def sizedQ : Dict Str Tree := [(c!"type", txt c!"string"), (c!"maxLength", .atom (.int 5)), (c!"allOf", .list [.dict partQ])]
def sq : Dict Str Tree := [(c!"swagger", txt c!"2.0"), (c!"definitions", .dict [(c!"Sized", .dict sizedQ)])]
def doc : Tree := .dict sq

theorem self : SelfContained doc url := by
  apply Proofs.Checked.checked
  decide +kernel

def read : Tree := (parse v20 cSwagger doc).getD (.atom .none)
def root : Tree := (normalizeRefs url read).getD (.atom .none)

theorem read_eq : parse v20 cSwagger doc = some read := by
  have h : (parse v20 cSwagger doc).isSome = true := by decide +kernel
  unfold read
  cases hp : parse v20 cSwagger doc with
  | none => rw [hp] at h; cases h
  | some t => rfl

theorem root_eq : normalizeRefs url read = some root := by
  have h : (normalizeRefs url read).isSome = true := by decide +kernel
  unfold root
  cases hp : normalizeRefs url read with
  | none => rw [hp] at h; cases h
  | some t => rfl

theorem loads : Loads doc at_ read root := ⟨C86.Notes.canon, rfl, url_eq ▸ self, read_eq, url_eq ▸ root_eq⟩

def sized : List Str := [c!"definitions", c!"Sized"]

local instance : DecidableEq (Dict Str Tree) := inferInstanceAs (DecidableEq (List (Str × Tree)))
deriving instance DecidableEq for _root_.Aggregate.Obj

def own : Dict Str _root_.Aggregate.Value := [(c!"type", some (txt c!"string")), (c!"maxLength", some (.atom (.int 5)))]
def part : Dict Str _root_.Aggregate.Value := [(c!"minLength", some (.atom (.int 2)))]

def heap0 : Heap := [⟨none, none, none, [], [1], own, 0, false⟩, ⟨none, none, none, [], [], part, 1, false⟩]
def heap1 : Heap := [⟨none, none, none, [], [1], own, 0, false⟩, ⟨none, some 2, none, [], [], part, 1, false⟩,
  ⟨none, none, none, [], [], part, 1, true⟩]
def heap2 : Heap := [⟨none, some 4, none, [], [1], own, 0, false⟩, ⟨none, some 2, none, [], [], part, 1, false⟩,
  ⟨none, none, none, [], [], part, 1, true⟩, ⟨none, some 2, none, [], [], part, 1, false⟩,
  ⟨none, none, none, [], [3], own ++ part, 0, true⟩]

theorem heap : schemaHeap outside.toOutside url root = heap0 := by decide +kernel

theorem run : composeSchemas outside.toOutside url root = some heap2 := by
  unfold composeSchemas
  rw [heap]
  have : List.range (visited root cSchema).length = [0, 1] := by decide +kernel
  rw [this]
  have h1 : compose heap0 1 [0] = some (heap1, [0, 1]) := by
    unfold heap0 heap1 part; run; simp [_root_.Aggregate.fresh]
  have h2 : compose heap0 0 [] = some (heap2, [0, 1]) := by
    refine compose_step (y := 0) (g1 := [0]) (by unfold heap0; run) rfl
      (show composeAll _ [1] [0] = _ by rw [composeAll_step h1, composeAll]) ?_
    unfold heap1 heap2 own part
    run
    simp [_root_.Aggregate.fresh, joinField, txt, Dict.get?]
  have h3 : compose heap2 1 [] = some (heap2, [1]) := by unfold heap2; run
  simp only [aggregate, h2, h3, Option.bind_eq_bind, Option.bind_some]

/-- all that is written -/
def all : List (List Str × Nat × Dict Str Tree) :=
  [([], cSwagger, sq), (sized, cSchema, sizedQ), (sized ++ [c!"allOf", c!"0"], cSchema, partQ)]

theorem plain_doc : Proofs.Checked.plain doc = true := by decide +kernel
theorem dicts_eq : dicts doc = all := by decide +kernel

theorem written {ts : List Str} {q : Dict Str Tree} (h : Written doc ts cSchema q) :
    (ts = sized ∧ q = sizedQ) ∨ (ts = sized ++ [c!"allOf", c!"0"] ∧ q = partQ) := by
  have := (dicts_iff plain_doc).1 h
  rw [dicts_eq] at this
  simp only [all, List.mem_cons, List.not_mem_nil, or_false, Prod.mk.injEq] at this
  rcases this with ⟨-, h, -⟩ | ⟨h, -, h'⟩ | ⟨h, -, h'⟩
  · cases h
  · exact .inl ⟨h, h'⟩
  · exact .inr ⟨h, h'⟩

theorem is_written {ts : List Str} {q : Dict Str Tree} (h : (ts, cSchema, q) ∈ all) : Written doc ts cSchema q := by
  rw [← dicts_eq] at h; exact (dicts_iff plain_doc).2 h

theorem sized_written : Written doc sized cSchema sizedQ := is_written (by decide)
theorem part_written : Written doc (sized ++ [c!"allOf", c!"0"]) cSchema partQ := is_written (by decide)

theorem has_part : Part doc url sized (sized ++ [c!"allOf", c!"0"]) := by
  refine .direct ⟨sizedQ, _, 0, sized_written, rfl, by decide, ?_⟩
  have : natStr 0 = c!"0" := by decide +kernel
  rw [this]
  exact .here part_written rfl

theorem typed : Spec.Generated.Typed doc := by
  rintro ts n t ⟨q, hw, -, hq, -⟩
  rcases written hw with ⟨-, rfl⟩ | ⟨-, rfl⟩
  · have := Dict.mem_of_get? hq
    simp only [sizedQ, List.mem_cons, List.not_mem_nil, or_false, Prod.mk.injEq] at this
    rcases this with ⟨rfl, rfl⟩ | ⟨rfl, rfl⟩ | ⟨rfl, rfl⟩
    · exact ⟨fun _ => ⟨_, rfl⟩, fun h => absurd h (by decide)⟩
    · exact ⟨fun _ => ⟨_, rfl⟩, fun h => absurd h (by decide)⟩
    · exact ⟨fun h => absurd h (by decide), fun h => absurd h (by decide)⟩
  · have := Dict.mem_of_get? hq
    simp only [partQ, List.mem_cons, List.not_mem_nil, or_false, Prod.mk.injEq] at this
    obtain ⟨rfl, rfl⟩ := this
    exact ⟨fun _ => ⟨_, rfl⟩, fun h => absurd h (by decide)⟩

theorem flat : Flat doc := by
  intro ts q vs q' us h1 h2 h3 _ _
  rcases h2 with ⟨n, rfl⟩ | rfl
  · rcases written h1 with ⟨rfl, -⟩ | ⟨rfl, -⟩ <;> rcases written h3 with ⟨h, -⟩ | ⟨h, -⟩ <;>
      simp [sized] at h
  · rcases written h1 with ⟨rfl, -⟩ | ⟨rfl, -⟩ <;> rcases written h3 with ⟨h, -⟩ | ⟨h, -⟩ <;>
      simp [sized] at h

theorem leads {us : List Str} (h : Leads doc url sized us) : us = sized := by
  cases h with
  | here => rfl
  | step hw hr =>
    rcases written hw with ⟨-, rfl⟩ | ⟨-, rfl⟩ <;> cases hr

theorem type_of {q : Dict Str Tree} (h : Combined doc url sized q) : Dict.get? q c!"type" = some (txt c!"string") := by
  refine h.own _ (by decide) _ ⟨sizedQ, sized_written, by decide, rfl, ?_, ?_⟩
  · rintro ⟨-, h⟩; cases h
  · rintro ⟨-, h⟩; cases h

theorem max_of {q : Dict Str Tree} (h : Combined doc url sized q) : Dict.get? q c!"maxLength" = some (.atom (.int 5)) := by
  refine h.own _ (by decide) _ ⟨sizedQ, sized_written, by decide, rfl, ?_, ?_⟩
  · rintro ⟨-, h⟩; cases h
  · rintro ⟨-, h⟩; cases h

theorem min_of {q : Dict Str Tree} (h : Combined doc url sized q) : Dict.get? q c!"minLength" = some (.atom (.int 2)) := by
  cases hq : Dict.get? q c!"minLength" with
  | none =>
    refine absurd ?_ (h.nothing _ (by decide) hq _ (.atom (.int 2)) (.inr has_part))
    refine ⟨partQ, part_written, by decide, rfl, ?_, ?_⟩
    · rintro ⟨-, h⟩; cases h
    · rintro ⟨-, h⟩; cases h
  | some t =>
    obtain ⟨us, -, q', hw, -, hs, -⟩ := h.part _ (by decide) (by
      rintro t ⟨q', hw, -, hs, -⟩
      rcases written hw with ⟨-, rfl⟩ | ⟨h, -⟩
      · cases hs
      · simp at h) t hq
    rcases written hw with ⟨-, rfl⟩ | ⟨-, rfl⟩
    · cases hs
    · cases hs; rfl

theorem none_of {q : Dict Str Tree} (h : Combined doc url sized q) {n : Str} (hn : n ∈ facets)
    (h0 : n ∉ [c!"type", c!"maxLength", c!"minLength"]) : Dict.get? q n = none := by
  cases hq : Dict.get? q n with
  | none => rfl
  | some t =>
    have hno : ∀ us t, ¬ Says doc us n t := by
      rintro us t ⟨q, hw, -, hs, -⟩
      have := Dict.mem_of_get? hs
      rcases written hw with ⟨-, rfl⟩ | ⟨-, rfl⟩ <;>
        simp only [sizedQ, partQ, List.mem_cons, List.not_mem_nil, or_false, Prod.mk.injEq, not_or] at this h0
      · rcases this with ⟨h, -⟩ | ⟨h, -⟩ | ⟨h, -⟩
        · exact h0.1 h
        · exact h0.2.1 h
        · subst h; revert hn; decide
      · exact h0.2.2 this.1
    obtain ⟨us, -, hs⟩ := h.part n hn (hno _) t hq
    exact absurd hs (hno _ _)

/-- **C95**: a text of two to five letters; it has an upper limit of its own and the lower one of its part. And such values are made. -/
example (special : Render.Special → Nat → Val → Gen Val) :
    (∀ fuel v, Run (generate (renderEnv special heap2) {} 1 fuel (schemaIndex root sized)) (.value v) →
      ∃ s, v = .str s ∧ 2 ≤ s.length ∧ s.length ≤ 5 ∧ ∀ c ∈ s, Letter c) ∧
    Run (generate (renderEnv special heap2) {} 1 1 (schemaIndex root sized)) (.value (.str c!"abc")) := by
  constructor
  · intro fuel v h
    have hf := C95_values (o := outside.toOutside) special {} 1 fuel loads rfl (by rw [url_eq]; exact run) typed flat sized_written h
    rw [url_eq] at hf
    generalize hs : sized = ts at hf
    have text : ∀ {q s}, Combined doc url sized q → Spec.Described.Text q c!"type" (some s) → s = c!"string" := by
      intro q s hq ht
      unfold Spec.Described.Text at ht
      rw [type_of hq] at ht
      exact Option.some.inj ht
    cases hf with
    | object place hl hq ht =>
      subst hs
      cases leads hl
      cases text hq ht
    | array place hl hq ha ht =>
      subst hs
      cases leads hl
      have := ha.type
      rw [ht] at this
      cases text hq this
    | @leaf _ _ q a _ _ hl hq ha ht h1 h2 hv =>
      subst hs
      cases leads hl
      have hty := ha.type
      rw [ht] at hty
      obtain rfl := text hq hty
      have hfo := ha.format
      unfold Spec.Described.Text at hfo
      rw [none_of hq (by decide) (by decide)] at hfo
      have hmin := ha.minLength
      unfold Spec.Described.Length at hmin
      rw [min_of hq] at hmin
      have hmax := ha.maxLength
      unfold Spec.Described.Length at hmax
      rw [max_of hq] at hmax
      have hmin := hmin.1 (by decide)
      have hmax := hmax.1 (by decide)
      have henum := ha.enum
      have hno : ∀ e, ¬ ∃ us l, Within doc url sized us ∧ Says doc us c!"enum" (.list l) ∧ Spec.Merge.In e l := by
        rintro e ⟨us, l, -, ⟨q, hw, -, hs, -⟩, -⟩
        rcases written hw with ⟨-, rfl⟩ | ⟨-, rfl⟩ <;> cases hs
      have henum : a.enum = [] := by
        split at henum
        · next l hl' =>
          cases l with
          | nil => exact henum
          | cons e l => exact absurd ((hq.enum e).1 ⟨_, hl', e, by simp, .inl rfl⟩) (hno e)
        · exact henum
      obtain ⟨-, ⟨-, h, -⟩ | ⟨h, -⟩ | ⟨-, h⟩ | h⟩ := hv
      · rw [henum] at h; cases h
      · cases h
      · rw [hfo] at h
        cases h with
        | string hf hc hlen =>
          obtain ⟨lo, hi, h1, h2, h3, h4⟩ := hlen
          refine ⟨_, rfl, ?_, ?_, hc⟩
          · rcases h1 with ⟨h1, -⟩ | ⟨h1 | h1, -⟩ <;> rw [h1] at hmin <;> cases hmin
            exact h3
          · rcases h2 with ⟨h2, -⟩ | ⟨h2 | h2, -⟩ <;> rw [h2] at hmax <;> cases hmax
            exact h4
      · rcases h with ⟨-, h⟩ | ⟨h, -⟩
        · rw [hfo] at h; simp at h
        · cases h
  · have hi : schemaIndex root sized = 0 := by decide +kernel
    rw [hi, Render.generate_leaf (renderEnv special heap2) {} 1 0 0 4 c!"string" ?_ (show (renderNode heap2 4).type = _ by decide +kernel)
      (by decide) (by decide),
      Render.run_leaf]
    · refine ⟨.none, .inl ⟨show (renderNode heap2 4).enum = [] by decide +kernel, rfl⟩, .inr ⟨.str, ?_, ?_⟩⟩
      · have : (renderNode heap2 4).format = none := by decide +kernel
        show Render.maker _ (renderNode heap2 4).format = _
        rw [this]; rfl
      · refine Render.run_makeStr.2 (.inl ⟨c!"abc", rfl, ?_, ?_⟩)
        · intro c hc
          simp only [List.mem_cons, List.not_mem_nil, or_false] at hc
          rcases hc with rfl | rfl | rfl <;> (unfold Letter; decide)
        · exact ⟨2, 5, .inl ⟨show (renderNode heap2 4).minLength = _ by decide +kernel, by decide⟩,
            .inl ⟨show (renderNode heap2 4).maxLength = _ by decide +kernel, by decide⟩, by decide, by decide⟩
    · have hd : _root_.Aggregate.deref heap2 0 [] = some (some 0, [0]) := by unfold heap2; run
      show _root_.Create.renderTarget heap2 0 = _
      unfold _root_.Create.renderTarget
      rw [hd]; rfl

end Sized
namespace Nested

def firstQ : Dict Str Tree := [(c!"$ref", txt c!"#/definitions/Base/properties/next")]
def refQ : Dict Str Tree := [(c!"$ref", txt c!"#/definitions/Base")]
def nextQ : Dict Str Tree := [(c!"allOf", .list [.dict refQ])]
def baseQ : Dict Str Tree := [(c!"type", txt c!"object"), (c!"properties", .dict [(c!"next", .dict nextQ)])]
def sq : Dict Str Tree := [(c!"swagger", txt c!"2.0"), (c!"definitions", .dict [(c!"Base", .dict baseQ), (c!"First", .dict firstQ)])]
def doc : Tree := .dict sq

theorem self : SelfContained doc url := by
  apply Proofs.Checked.checked
  decide +kernel

def read : Tree := (parse v20 cSwagger doc).getD (.atom .none)
def root : Tree := (normalizeRefs url read).getD (.atom .none)

theorem read_eq : parse v20 cSwagger doc = some read := by
  have h : (parse v20 cSwagger doc).isSome = true := by decide +kernel
  unfold read
  cases hp : parse v20 cSwagger doc with
  | none => rw [hp] at h; cases h
  | some t => rfl

theorem root_eq : normalizeRefs url read = some root := by
  have h : (normalizeRefs url read).isSome = true := by decide +kernel
  unfold root
  cases hp : normalizeRefs url read with
  | none => rw [hp] at h; cases h
  | some t => rfl

theorem loads : Loads doc at_ read root := ⟨C86.Notes.canon, rfl, url_eq ▸ self, read_eq, url_eq ▸ root_eq⟩

def base : List Str := [c!"definitions", c!"Base"]

local instance : DecidableEq (Dict Str Tree) := inferInstanceAs (DecidableEq (List (Str × Tree)))
deriving instance DecidableEq for _root_.Aggregate.Obj

def object : Dict Str _root_.Aggregate.Value := [(c!"type", some (txt c!"object"))]

def heap0 : Heap := [⟨some 2, none, none, [], [], [], 0, false⟩, ⟨none, none, none, [(c!"next", 2)], [], object, 1, false⟩,
  ⟨none, none, none, [], [3], [], 2, false⟩, ⟨some 1, none, none, [], [], [], 3, false⟩]

def heap1 : Heap := [⟨some 2, none, none, [], [], [], 0, false⟩, ⟨none, some 6, none, [(c!"next", 2)], [], object, 1, false⟩,
  ⟨none, none, none, [], [3], [], 2, false⟩, ⟨some 1, none, none, [], [], [], 3, false⟩,
  ⟨some 1, none, none, [], [], [], 3, false⟩, ⟨none, none, none, [], [4], [], 2, false⟩,
  ⟨none, none, none, [(c!"next", 5)], [], object, 1, true⟩]

def heap2 : Heap := [⟨some 2, none, none, [], [], [], 0, false⟩, ⟨none, some 6, none, [(c!"next", 2)], [], object, 1, false⟩,
  ⟨none, some 8, none, [], [3], [], 2, false⟩, ⟨some 1, none, none, [], [], [], 3, false⟩,
  ⟨some 1, none, none, [], [], [], 3, false⟩, ⟨none, none, none, [], [4], [], 2, false⟩,
  ⟨none, none, none, [(c!"next", 5)], [], object, 1, true⟩, ⟨some 1, none, none, [], [], [], 3, false⟩,
  ⟨none, none, none, [(c!"next", 5)], [7], object, 2, true⟩, ⟨some 1, none, none, [], [], [], 3, false⟩,
  ⟨none, none, none, [], [9], [], 2, false⟩]

theorem written {x : List Str × Nat × Dict Str Tree} (h : x ∈ dicts doc) : Written doc x.1 x.2.1 x.2.2 :=
  (dicts_iff (by decide +kernel)).2 h

theorem obj_ext {a b : _root_.Aggregate.Obj} (h1 : a.ref = b.ref) (h2 : a.final = b.final) (h3 : a.items = b.items) (h4 : a.props = b.props)
    (h5 : a.allOf = b.allOf) (h6 : a.values = b.values) (h7 : a.origin = b.origin) (h8 : a.composed = b.composed) : a = b := by
  cases a; cases b
  simp only at h1 h2 h3 h4 h5 h6 h7 h8
  subst h1 h2 h3 h4 h5 h6 h7 h8
  rfl

theorem heap : schemaHeap outside.toOutside url root = heap0 := by
  have h0 : look (schemaHeap outside.toOutside url root) 0 = look heap0 0 := by
    refine obj_ext ?_ (by decide +kernel) (by decide +kernel) (by decide +kernel) (by decide +kernel) (by decide +kernel)
      (by decide +kernel) (by decide +kernel)
    have h := (ref_some (o := outside.toOutside) loads rfl
      (written (x := ([c!"definitions", c!"First"], cSchema, firstQ)) (by decide +kernel)) rfl (us := base ++ [c!"properties", c!"next"])
      ⟨by decide, .inl (by decide +kernel)⟩).1
    have e0 : schemaIndex root [c!"definitions", c!"First"] = 0 := by decide +kernel
    have e2 : schemaIndex root (base ++ [c!"properties", c!"next"]) = 2 := by decide +kernel
    rw [e0, e2, url_eq] at h
    exact h
  have h1 : look (schemaHeap outside.toOutside url root) 1 = look heap0 1 := by decide +kernel
  have h2 : look (schemaHeap outside.toOutside url root) 2 = look heap0 2 := by decide +kernel
  have h3 : look (schemaHeap outside.toOutside url root) 3 = look heap0 3 := by decide +kernel
  have hl : (schemaHeap outside.toOutside url root).length = heap0.length := by decide +kernel
  generalize schemaHeap outside.toOutside url root = H at *
  match H, hl with
  | [a, b, c, d], _ =>
    obtain rfl : a = _ := h0
    obtain rfl : b = _ := h1
    obtain rfl : c = _ := h2
    obtain rfl : d = _ := h3
    rfl

theorem run : composeSchemas outside.toOutside url root = some heap2 := by
  unfold composeSchemas
  rw [heap]
  have : List.range (visited root cSchema).length = [0, 1, 2, 3] := by decide +kernel
  rw [this]
  have h0 : compose heap0 2 [0, 2, 3, 1] = some (heap0, [0, 2, 3, 1]) := by unfold heap0; run
  have h1 : compose heap0 3 [0, 2] = some (heap1, [0, 2, 3, 1]) := by
    refine compose_step (y := 1) (g1 := [0, 2, 3, 1]) (by unfold heap0; run) rfl
      (show composeAll _ [2] _ = _ by rw [composeAll_step h0, composeAll]) ?_
    unfold heap0 heap1 object
    run
    simp [_root_.Aggregate.fresh, txt]
  have h2 : compose heap0 0 [] = some (heap2, [0, 2, 3, 1]) := by
    refine compose_step (y := 2) (g1 := [0, 2]) (by unfold heap0; run) rfl
      (show composeAll _ [3] _ = _ by rw [composeAll_step h1, composeAll]) ?_
    unfold heap1 heap2 object
    run
    simp [_root_.Aggregate.fresh, txt]
  have h3 : compose heap2 1 [] = some (heap2, [1]) := by unfold heap2; run
  have h4 : compose heap2 2 [] = some (heap2, [2]) := by unfold heap2; run
  have h5 : compose heap2 3 [] = some (heap2, [3, 1]) := by unfold heap2; run
  simp only [aggregate, h2, h3, h4, h5, Option.bind_eq_bind, Option.bind_some]

theorem typed : Spec.Generated.Typed doc := by
  rintro ts n t ⟨q, hw, -, hq, -⟩
  have := (dicts_iff (by decide +kernel)).1 hw
  have hd : dicts doc = [([], cSwagger, sq), (base, cSchema, baseQ), (base ++ [c!"properties", c!"next"], cSchema, nextQ),
    (base ++ [c!"properties", c!"next", c!"allOf", c!"0"], cSchema, refQ), ([c!"definitions", c!"First"], cSchema, firstQ)] := by
    decide +kernel
  rw [hd] at this
  simp only [List.mem_cons, List.not_mem_nil, or_false, Prod.mk.injEq] at this
  have hq := Dict.mem_of_get? hq
  rcases this with ⟨-, h, -⟩ | ⟨-, -, rfl⟩ | ⟨-, -, rfl⟩ | ⟨-, -, rfl⟩ | ⟨-, -, rfl⟩
  · cases h
  all_goals simp only [baseQ, nextQ, refQ, firstQ, List.mem_cons, List.not_mem_nil, or_false, Prod.mk.injEq] at hq
  · rcases hq with ⟨rfl, rfl⟩ | ⟨rfl, rfl⟩
    · exact ⟨fun _ => ⟨_, rfl⟩, fun h => absurd h (by decide)⟩
    · exact ⟨fun h => absurd h (by decide), fun h => absurd h (by decide)⟩
  all_goals
    obtain ⟨rfl, rfl⟩ := hq
    exact ⟨fun h => absurd h (by decide), fun h => absurd h (by decide)⟩

end Nested

/-- Without the condition on properties and items it fails: a property `next` of `Base`, whose part is `Base` again, is composed first
when another schema refers to it. `Base` then keeps a copy of `next` from before, without a type. So rendering `Base` raises
"No type info available", though `Base` has a type and `next` has it from its part. -/
theorem C95_nested_false (special : Render.Special → Nat → Val → Gen Val) (opt : Opt) (rounds fuel : Nat) (hm : opt.maxProperty = true)
    (ht : opt.objectTemplate = []) : ∃ D sq T R h' ts, Loads D at_ T R ∧ D = .dict sq ∧ Spec.Generated.Typed D ∧
    composeSchemas outside.toOutside url R = some h' ∧ Says D ts c!"type" (txt c!"object") ∧ Defines D ts c!"next" ∧
    Part D url (ts ++ [c!"properties", c!"next"]) ts ∧
    Run (generate (renderEnv special h') opt rounds (fuel + 2) (schemaIndex R ts)) (.raises .Exception) := by
  have hb : Written Nested.doc Nested.base cSchema Nested.baseQ := Nested.written (x := (Nested.base, cSchema, Nested.baseQ)) (by decide +kernel)
  refine ⟨Nested.doc, Nested.sq, Nested.read, Nested.root, Nested.heap2, Nested.base, Nested.loads, rfl, ?_, Nested.run,
    ⟨_, hb, by decide, rfl, ?_, ?_⟩, ⟨_, _, hb, rfl, by decide⟩, ?_, ?_⟩
  · exact Nested.typed
  · rintro ⟨-, h⟩; cases h
  · rintro ⟨-, h⟩; cases h
  · refine .direct ⟨Nested.nextQ, _, 0, Nested.written (x := (_, cSchema, Nested.nextQ)) (by decide +kernel), rfl, by decide, ?_⟩
    have : natStr 0 = c!"0" := by decide +kernel
    rw [this]
    exact .step (Nested.written (x := (_, cSchema, Nested.refQ)) (by decide +kernel)) (r := c!"#/definitions/Base") rfl
      ⟨by decide, .inl (by decide +kernel)⟩ (.here hb rfl)
  · have hi : schemaIndex Nested.root Nested.base = 1 := by decide +kernel
    have hd : _root_.Aggregate.deref Nested.heap2 1 [] = some (some 1, [1]) := by unfold Nested.heap2; run
    have hd5 : _root_.Aggregate.deref Nested.heap2 5 [] = some (some 5, [5]) := by unfold Nested.heap2; run
    have h1 : (renderEnv special Nested.heap2).target 1 = .ok 6 := by
      show _root_.Create.renderTarget Nested.heap2 1 = _
      unfold _root_.Create.renderTarget
      rw [hd]; rfl
    have h5 : (renderEnv special Nested.heap2).target 5 = .ok 5 := by
      show _root_.Create.renderTarget Nested.heap2 5 = _
      unfold _root_.Create.renderTarget
      rw [hd5]; rfl
    rw [hi]
    refine (C58.C58_raises _ opt rounds (fuel + 1) 1 6 .Exception ⟨h1, show (renderNode Nested.heap2 6).type = _ by decide +kernel⟩ ?_).2
      (.inr ⟨rfl, .inl ⟨[], c!"next", 5, [], [], 0, rfl, .nil, ⟨by rw [ht]; rfl, .inl hm⟩, ?_⟩⟩)
    · show Dict.WF (look Nested.heap2 6).props
      decide +kernel
    · have hg : generate (renderEnv special Nested.heap2) opt rounds (fuel + 1) 5 = .fail .Exception := by
        show Render.generateBody _ opt rounds _ 5 = _
        unfold Render.generateBody
        rw [h5]
        have : ((renderEnv special Nested.heap2).node 5).type = none := by
          show (renderNode Nested.heap2 5).type = none
          decide +kernel
        simp only [this]
      rw [hg]
      exact run_fail.2 rfl

end Props.C95
