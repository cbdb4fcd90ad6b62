import Verif.Proofs.Generated
/-!
# C95 What `Renderer` makes for a schema of a document is what the schema and its parts say

`Renderer` reads the composed schemas that `App.prepare` leaves behind (C94). Here both are put together: what is made for a schema
written at a place of the document, said in terms of the document.
-/

namespace Props.C95
open Py Utils Tree _root_.Doc Prim Spec.Pointed Spec.Composed Spec.Generated Spec.Rendered _root_.Loaded Proofs.Origin Proofs.Generated
open Render (Opt generate item generate_array generate_leaf run_array)
open Spec.Described (Text)
open _root_.Create (schemaIndex composeSchemas fieldsOf renderEnv renderTarget renderNode)
open _root_.Aggregate (look Heap)

variable {D T R : Tree} {p : Url} {o : Loaded.Outside} {sq : Dict Str Tree} {h' : Heap} {ts us : List Str} {q : Dict Str Tree}

theorem required_iff {h' : Heap} {t : Nat} (hm : Means D (urlunparse p) R h' t us) (n : Str) :
    n ∈ (renderNode h' t).required ↔ Requires D (urlunparse p) us n := by
  rw [← hm.required n]
  show n ∈ Schemas.texts _ ↔ _
  unfold Schemas.texts
  rw [List.mem_filterMap]
  constructor
  · rintro ⟨t, ht, h⟩
    cases t with
    | atom a =>
      cases a with
      | str s => cases h; exact ht
      | _ => cases h
    | _ => cases h
  · exact fun h => ⟨_, h, rfl⟩

/-- values and exceptions together, for the original of a schema or a copy -/
theorem ends (special : Render.Special → Nat → Val → Gen Val) (opt : Opt) (rounds : Nat) (hl : Loads D p T R) (hD : D = .dict sq)
    (hc : composeSchemas o (urlunparse p) R = some h') (ht : Typed D) (hfl : Flat D) : ∀ (fuel i : Nat) (ts : List Str),
    At D (urlunparse p) R h' i ts →
    (∀ v, Run (generate (renderEnv special h') opt rounds fuel i) (.value v) → Fits D (urlunparse p) opt ts v) ∧
    (∀ e, Run (generate (renderEnv special h') opt rounds fuel i) (.raises e) → Fails D (urlunparse p) opt ts e ∨ e = .RecursionError)
  | 0, i, ts, _ => by
    constructor
    · intro v h
      cases run_fail.1 h
    · intro e h
      cases run_fail.1 h
      exact .inr rfl
  | fuel + 1, i, ts, hat => by
    have ih := ends special opt rounds hl hD hc ht hfl fuel
    rcases target hl hD hc ht hfl hat with ⟨t, us, h1, hle, hm⟩ | ⟨h1, hno⟩
    · have ha := facets_of h' t
      have hta : (renderEnv special h').target i = .ok t := h1
      cases hty : (renderNode h' t).type with
      | none =>
        have hg : generate (renderEnv special h') opt rounds (fuel + 1) i = .fail .Exception := by
          show Render.generateBody _ opt rounds _ i = _
          unfold Render.generateBody
          rw [hta]
          simp only [show ((renderEnv special h').node t).type = none from hty]
        rw [hg]
        constructor
        · intro v h
          cases run_fail.1 h
        · intro e h
          cases run_fail.1 h
          refine .inl (.untyped hle hm.combined ?_)
          have := ha.type
          rwa [hty] at this
      | some type =>
        by_cases hobj : type = c!"object"
        · subst hobj
          have his : C57.Is (renderEnv special h') i t c!"object" := ⟨hta, hty⟩
          have htx : Text (fieldsOf (look h' t)) c!"type" (some c!"object") := by have := ha.type; rwa [hty] at this
          constructor
          · intro v h
            obtain ⟨d, rfl, hwf, hall, hin⟩ := C58.C58_contents (renderEnv special h') opt rounds fuel i t v his hm.wf h
            have hin' : ∀ k w, Dict.get? d k = some w → ∃ x vs, Dict.get? (look h' t).props k = some x ∧
                Within D (urlunparse p) us vs ∧ Defines D vs k ∧ (Defines D us k → vs = us) ∧
                At D (urlunparse p) R h' x (vs ++ [c!"properties", k]) ∧
                (Dict.get? opt.objectTemplate k = some w ∨
                (Dict.get? opt.objectTemplate k = none ∧ Run (generate (renderEnv special h') opt rounds fuel x) (.value w) ∧
                  (opt.minimalProperty = true → opt.maxProperty = false → k ∈ (renderNode h' t).required))) := by
              intro k w hk
              rcases hin k w hk with ⟨x, hx, hx2⟩ | ⟨x, hx, -⟩
              · obtain ⟨vs, a, b, c, e⟩ := hm.props k x hx
                exact ⟨x, vs, hx, a, b, c, e, hx2⟩
              · cases hx
            have hpl : ∀ k, ∃ vs, k ∈ Dict.keys d → ∃ x, Dict.get? (look h' t).props k = some x ∧
                Within D (urlunparse p) us vs ∧ Defines D vs k ∧ (Defines D us k → vs = us) ∧
                At D (urlunparse p) R h' x (vs ++ [c!"properties", k]) := by
              intro k
              by_cases hk : k ∈ Dict.keys d
              · obtain ⟨w, hw⟩ := Option.isSome_iff_exists.1 ((Dict.get?_isSome_iff _ _).2 hk)
                obtain ⟨x, vs, hx, a, b, c, e, -⟩ := hin' k w hw
                exact ⟨vs, fun _ => ⟨x, hx, a, b, c, e⟩⟩
              · exact ⟨[], fun h => absurd h hk⟩
            have hmem : ∀ {k w}, Dict.get? d k = some w → k ∈ Dict.keys d := fun h => by
              rw [← Dict.get?_isSome_iff, h]; rfl
            refine .object (fun k => (hpl k).choose) hle hm.combined htx hwf ?_ ?_ ?_ ?_ ?_
            · intro n vs hvs hdef hreq
              obtain ⟨x, hx⟩ := Option.isSome_iff_exists.1 ((Dict.get?_isSome_iff _ _).2 (hm.all n vs hvs hdef))
              have := hall n x hx (by
                rcases hreq with h | h | h
                · exact .inl ((required_iff hm n).2 h)
                · refine .inr (.inl fun h0 => ?_)
                  exact (Dict.get?_eq_none_iff _ _).1 h0 h
                · exact .inr (.inr h))
              obtain ⟨w, hw⟩ := Option.ne_none_iff_exists'.1 this
              exact hmem hw
            · intro n hn
              obtain ⟨x, -, a, b, c, -⟩ := (hpl n).choose_spec hn
              exact ⟨a, b, c⟩
            · intro n v w hv hw
              obtain ⟨x, vs, -, -, -, -, -, h | ⟨h, -⟩⟩ := hin' n v hv
              · rw [hw] at h; exact (Option.some.inj h).symm
              · rw [hw] at h; cases h
            · intro n v hv hno h2 h3
              obtain ⟨x, vs, -, -, -, -, -, h | ⟨-, -, h⟩⟩ := hin' n v hv
              · rw [hno] at h; cases h
              · exact (required_iff hm n).1 (h h2 h3)
            · intro n v hv hno
              obtain ⟨x, hx, -, -, -, hax⟩ := (hpl n).choose_spec (hmem hv)
              obtain ⟨x', vs, hx', -, -, -, -, h | ⟨-, h, -⟩⟩ := hin' n v hv
              · rw [hno] at h; cases h
              · rw [hx] at hx'; cases hx'
                exact (ih x _ hax).1 v h
          · intro e h
            rcases (C58.C58_raises (renderEnv special h') opt rounds fuel i t e his hm.wf).1 h with ⟨h, -⟩ | ⟨-, h⟩
            · cases h
            rcases h with ⟨l1, n, x, l2, d, k, hp, -, ⟨hno, hmay⟩, hr⟩ | ⟨d, n, -, x, hx, -⟩
            · have hx : Dict.get? (look h' t).props n = some x := by
                refine Dict.get?_of_mem hm.wf ?_
                have hp : (look h' t).props = l1 ++ (n, x) :: l2 := hp
                rw [hp]; simp
              obtain ⟨vs, a, b, c, hax⟩ := hm.props n x hx
              refine ((ih x _ hax).2 e hr).imp_left fun hf => ?_
              refine .property hle hm.combined htx a b c ((Dict.get?_eq_none_iff _ _).1 hno) ?_ hf
              rcases hmay with h | h | h
              · exact .inr (.inl h)
              · exact .inl ((required_iff hm n).1 h)
              · exact .inr (.inr h)
            · cases hx
        by_cases harr : type = c!"array"
        · subst harr
          have htx : Text (fieldsOf (look h' t)) c!"type" (some c!"array") := by have := ha.type; rwa [hty] at this
          rw [generate_array _ opt rounds fuel i t hta hty]
          constructor
          · intro v h
            rcases run_array.1 h with ⟨l, hv, hlen, hev⟩ | ⟨-, h⟩ | ⟨-, ⟨_, h, -⟩ | ⟨h, -⟩⟩
            · cases hv
              have hlen : LengthBetween (renderNode h' t).minItems (renderNode h' t).maxItems opt.maxArrayLength l.length := hlen
              cases hit : (look h' t).items with
              | none =>
                have : l = [] := by
                  cases l with
                  | nil => rfl
                  | cons v l =>
                    have := hev v (by simp)
                    rw [show ((renderEnv special h').node t).items = none from hit] at this
                    cases run_fail.1 this
                subst this
                exact .array [] hle hm.combined ha hty hlen (fun h => absurd rfl h) (fun v h => by cases h)
              | some x =>
                obtain ⟨vs, a, b, c, hax⟩ := hm.items x hit
                refine .array vs hle hm.combined ha hty hlen (fun _ => ⟨a, b, c⟩) (fun v h => ?_)
                have := hev v h
                rw [show ((renderEnv special h').node t).items = some x from hit] at this
                exact (ih x _ hax).1 v this
            · cases h
            · cases h
            · cases h
          · intro e h
            rcases run_array.1 h with ⟨l, hv, -⟩ | ⟨hx, h⟩ | ⟨-, ⟨e', h, hr⟩ | ⟨h, -⟩⟩
            · cases hv
            · cases h
              exact .inl (.array hle hm.combined ha hty hx)
            · cases h
              cases hit : (look h' t).items with
              | none =>
                rw [show ((renderEnv special h').node t).items = none from hit] at hr
                cases run_fail.1 hr
                refine .inl (.bare hle hm.combined htx fun vs hvs hi => ?_)
                have := hm.some vs hvs hi
                rw [hit] at this; cases this
              | some x =>
                rw [show ((renderEnv special h').node t).items = some x from hit] at hr
                obtain ⟨vs, a, b, c, hax⟩ := hm.items x hit
                exact ((ih x _ hax).2 e hr).imp_left fun hf => .item hle hm.combined htx a b c hf
            · cases h
        · rw [generate_leaf _ opt rounds fuel i t type hta hty hobj harr]
          constructor
          · intro v h
            exact .leaf hle hm.combined ha hty hobj harr ((leaf_ends (whole_den h' t) h).1 v rfl)
          · intro e h
            rcases (leaf_ends (whole_den h' t) h).2 e rfl with ⟨rfl, hk⟩ | ⟨rfl, rfl, hk⟩ | ⟨rfl, rfl, hk⟩ | hk
            · exact .inl (.unknown hle hm.combined ha hty hobj harr hk)
            · exact .inl (.integer hle hm.combined ha hty hk)
            · exact .inl (.string hle hm.combined ha hty hk)
            · exact .inl (.left hle hm.combined ha hty hk)
    · have hg : generate (renderEnv special h') opt rounds (fuel + 1) i = .fail .CycleDetectionError := by
        show Render.generateBody _ opt rounds _ i = _
        unfold Render.generateBody
        rw [show (renderEnv special h').target i = .error .CycleDetectionError from h1]
      rw [hg]
      constructor
      · intro v h
        cases run_fail.1 h
      · intro e h
        cases run_fail.1 h
        exact .inl (.circle hno)

/-- **C95** (values). In a document whose properties and items have no parts of their own (they may refer to schemas that have), what
`Renderer` makes for the schema at a place fits what is written there, in the schema referred to, and in its parts. The formats byte,
date, date-time, uuid and the type file are left open (`special`), and schemas for additional properties are not covered. -/
theorem C95_values (special : Render.Special → Nat → Val → Gen Val) (opt : Opt) (rounds fuel : Nat) (hl : Loads D p T R)
    (hD : D = .dict sq) (hc : composeSchemas o (urlunparse p) R = some h') (ht : Typed D) (hfl : Flat D)
    (hw : Written D ts cSchema q) {v : Val}
    (h : Run (generate (renderEnv special h') opt rounds fuel (schemaIndex R ts)) (.value v)) : Fits D (urlunparse p) opt ts v :=
  (ends special opt rounds hl hD hc ht hfl fuel _ ts (at_place hl hD hc hw)).1 v h

/-- **C95** (exceptions). An exception has its reason in the document: references in a circle, no type, an unknown format, limits that
exclude each other, an array without items, or one of these in a schema that is needed. Or the stack is exhausted. -/
theorem C95_raises (special : Render.Special → Nat → Val → Gen Val) (opt : Opt) (rounds fuel : Nat) (hl : Loads D p T R)
    (hD : D = .dict sq) (hc : composeSchemas o (urlunparse p) R = some h') (ht : Typed D) (hfl : Flat D)
    (hw : Written D ts cSchema q) {e : Exc}
    (h : Run (generate (renderEnv special h') opt rounds fuel (schemaIndex R ts)) (.raises e)) :
    Fails D (urlunparse p) opt ts e ∨ e = .RecursionError :=
  (ends special opt rounds hl hD hc ht hfl fuel _ ts (at_place hl hD hc hw)).2 e h

end Props.C95
