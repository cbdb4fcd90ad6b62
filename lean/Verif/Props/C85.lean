import Verif.Proofs.Doc12
/-!
# C85: A 1.2 document is read with the objects and fields of the Swagger 1.2 standard

As C84 for the 2.0 standard. Two things are particular to 1.2: the `items` of a data type are read
when the object is made, and a resource has its operations by nickname in place of its apis.
Differences from the standard: `authorizations` of an API declaration stays a plain value, and there
is a field `description` that the standard does not have.
-/

namespace Props.C85
open Py Tree _root_.Doc12 Spec.Swagger12 Proofs.Doc12

/-- the class of the library for an object of the standard -/
def number : Ob → Nat
  | .listing => Validate12.resourceList | .info => Validate12.info
  | .authorization => Validate12.authorization | .scope => Validate12.scope
  | .grantTypes => Validate12.grantType | .implicit => Validate12.implicit
  | .authorizationCode => Validate12.authorizationCode | .loginEndpoint => Validate12.loginEndpoint
  | .tokenRequestEndpoint => Validate12.tokenRequestEndpoint | .tokenEndpoint => Validate12.tokenEndpoint
  | .declaration => Validate12.resource | .api => Validate12.api | .operation => Validate12.operation
  | .scopeOf => Validate12.authorizations | .parameter => Validate12.parameter
  | .responseMessage => Validate12.responseMessage | .model => Validate12.model
  | .property => Validate12.property | .items => Validate12.items

/-- what the parser is told about a field -/
def kind : Holds → Option Kind
  | .value _ => none
  | .one o => some (.one (number o))
  | .many o => some (.list (number o))
  | .byName o => some (.dict (number o))
  | .manyByName o => some (.lists (number o))
  | .filled _ => none

/-- how a document is read as an object of the standard -/
def Reads (o : Ob) (j x : Tree) : Prop := parse (number o) j = some x

/-- a data type: its constructor reads `items` -/
def Typed (o : Ob) : Prop := o = .parameter ∨ o = .operation ∨ o = .property

instance (o : Ob) : Decidable (Typed o) := inferInstanceAs (Decidable (_ ∨ _ ∨ _))

/-- what the tables have to say about one field -/
def Fits (o : Ob) (n : Str) : Option Holds → Prop
  | some (.value a) => Dict.get? (v12 (number o)).fields n = some a
  | some (.one _) => Dict.get? (v12 (number o)).fields n = some null
  | some (.filled o') => Dict.get? (v12 (number o)).fields n = some null ∧ Typed o ∧ n = c!"items" ∧ o' = .items
  | _ => True

instance (o : Ob) (n : Str) (h : Option Holds) : Decidable (Fits o n h) := by
  unfold Fits; split <;> infer_instance

/-- the tables agree about one name -/
def Agree (o : Ob) (n : Str) : Prop :=
  (Dict.get? (v12 (number o)).fields n).isSome = ((Dict.get? (fields o) n).isSome || decide (Extra o n)) ∧
  Fits o n (Dict.get? (fields o) n) ∧
  (if Unread o n then Dict.get? (v12 (number o)).child n = none
    else Dict.get? (v12 (number o)).child n = (Dict.get? (fields o) n).bind kind)

instance (o : Ob) (n : Str) : Decidable (Agree o n) := by unfold Agree; infer_instance

theorem tables (o : Ob) : (Dict.keys (fields o)).Nodup ∧ (Dict.keys (v12 (number o)).fields).Nodup ∧
    ∀ n ∈ c!"description" :: (Dict.keys (fields o) ++ Dict.keys (v12 (number o)).fields ++
      Dict.keys (v12 (number o)).child), Agree o n := by
  cases o <;> decide +kernel

theorem agree (o : Ob) (n : Str) : Agree o n := by
  by_cases h : n ∈ c!"description" :: (Dict.keys (fields o) ++ Dict.keys (v12 (number o)).fields ++
      Dict.keys (v12 (number o)).child)
  · exact (tables o).2.2 n h
  · simp only [List.mem_cons, List.mem_append, not_or] at h
    have h1 := (Dict.get?_eq_none_iff _ _).2 h.2.1.1
    have h2 := (Dict.get?_eq_none_iff _ _).2 h.2.1.2
    have h3 := (Dict.get?_eq_none_iff _ _).2 h.2.2
    unfold Agree
    rw [h1, h2, h3]
    refine ⟨?_, trivial, by split <;> rfl⟩
    have : ¬ Extra o n := fun hx => h.1 hx.2
    simp [this]

/-- The library knows the fields of the standard, for every object; the one further field is the
`description` of an API declaration. -/
theorem C85_fields (o : Ob) (n : Str) :
    n ∈ Dict.keys (v12 (number o)).fields ↔ n ∈ Dict.keys (fields o) ∨ Extra o n := by
  rw [← Dict.get?_isSome_iff, ← Dict.get?_isSome_iff, (agree o n).1, Bool.or_eq_true, decide_eq_true_iff]

/-- no two objects of the standard share a class -/
theorem C85_classes (o o' : Ob) (h : number o = number o') : o = o' := by
  cases o <;> cases o' <;> first | rfl | (exact absurd h (by decide))

/-- reading what stands in a field, before the constructor -/
theorem parseField_iff {o : Ob} {n : Str} {h : Holds} (hn : Dict.get? (fields o) n = some h)
    (hu : ¬ Unread o n) (hh : ∀ o', h ≠ .filled o') (v x : Tree) :
    parseField (v12 (number o)) n v = some x ↔ ReadAs Reads h (some v) x := by
  have hc := (agree o n).2.2
  rw [if_neg hu, hn] at hc
  unfold parseField
  rw [hc]
  have hnull : ∀ v, Doc.isNull v = true ↔ v = null := by
    intro v
    cases v with
    | atom a => cases a <;> simp [Doc.isNull, null]
    | _ => simp [Doc.isNull, null]
  cases h with
  | value a =>
    simp only [Option.bind_some, kind]
    constructor
    · intro h; cases h; exact .value
    · intro h; cases h; rfl
  | one o' =>
    simp only [Option.bind_some, kind]
    by_cases hv : Doc.isNull v = true
    · rw [if_pos hv]
      rw [hnull] at hv
      subst hv
      constructor
      · intro h; cases h; exact .nullObject
      · intro h; cases h; rfl
    · rw [if_neg hv]
      rw [hnull] at hv
      cases v with
      | atom a =>
        cases a with
        | none => exact absurd rfl hv
        | _ =>
          rw [parseAs, parseAtom]
          · exact ⟨nofun, nofun⟩
          all_goals simp
      | dict d =>
        constructor
        · intro h; exact .object h
        · intro h; cases h; assumption
      | list l => exact ⟨nofun, nofun⟩
      | obj c fs => exact ⟨nofun, nofun⟩
  | many o' =>
    simp only [Option.bind_some, kind]
    by_cases hv : Doc.isNull v = true
    · rw [if_pos hv]
      rw [hnull] at hv
      subst hv
      constructor
      · intro h; cases h; exact .nullList
      · intro h
        cases h with
        | nullList => rfl
        | list h => cases h
    · rw [if_neg hv]
      rw [hnull] at hv
      rw [parse_list]
      constructor
      · intro h; exact .list h
      · intro h
        cases h with
        | nullList => exact absurd rfl hv
        | list h => exact h
  | byName o' =>
    simp only [Option.bind_some, kind]
    cases v with
    | atom a =>
      cases a with
      | none =>
        constructor
        · intro h; cases h; exact .nullNames
        · intro h; cases h; rfl
      | _ => exact ⟨nofun, nofun⟩
    | dict d =>
      simp only [Doc.isNull, parseAs]
      constructor
      · intro h
        cases hl : parseDict (.one (number o')) d with
        | none => rw [hl] at h; cases h
        | some xs =>
          rw [hl] at h; cases h
          exact .names ((parseDict_iff _ _ _).1 hl)
      · intro h
        cases h with
        | names h => rw [(parseDict_iff _ _ _).2 h]; rfl
    | list l => exact ⟨nofun, nofun⟩
    | obj c fs => exact ⟨nofun, nofun⟩
  | manyByName o' =>
    simp only [Option.bind_some, kind]
    cases v with
    | atom a =>
      cases a with
      | none =>
        constructor
        · intro h; cases h; exact .nullLists
        · intro h; cases h; rfl
      | _ => exact ⟨nofun, nofun⟩
    | dict d =>
      simp only [Doc.isNull, parseAs]
      constructor
      · intro h
        cases hl : parseDict (.list (number o')) d with
        | none => rw [hl] at h; cases h
        | some xs =>
          rw [hl] at h; cases h
          refine .lists (((parseDict_iff _ _ _).1 hl).imp fun a b h => ⟨h.1, (parse_list _ _ _).1 h.2⟩)
      · intro h
        cases h with
        | lists h =>
          rw [(parseDict_iff _ _ _).2 (h.imp fun a b h => ⟨h.1, (parse_list _ _ _).2 h.2⟩)]; rfl
    | list l => exact ⟨nofun, nofun⟩
    | obj c fs => exact ⟨nofun, nofun⟩
  | filled o' => exact absurd rfl (hh o')

/-- a field that no constructor touches -/
theorem field_reads {o : Ob} {d e e' : Dict Str Tree} {n : Str} {h : Holds}
    (he : parseEntries (v12 (number o)) d = some e) (hn : Dict.get? (fields o) n = some h)
    (hu : ¬ Unread o n) (hh : ∀ o', h ≠ .filled o') (he' : Dict.get? e' n = Dict.get? e n) :
    ∃ y, Dict.get? (assemble (v12 (number o)) e') n = some y ∧ ReadAs Reads h (Dict.get? d n) y := by
  obtain ⟨ha1, ha2, ha3⟩ := agree o n
  rw [if_neg hu, hn] at ha3
  rw [hn] at ha1 ha2
  obtain ⟨dflt, hf⟩ := Option.isSome_iff_exists.1 (ha1.trans rfl)
  rw [get_assemble (tables o).2.1, hf, he', ha3]
  refine ⟨_, rfl, ?_⟩
  cases hv : Dict.get? d n with
  | some v =>
    obtain ⟨w, hw⟩ := parseEntries_some.1 ⟨e, he⟩ n v (Dict.mem_of_get? hv)
    rw [parseEntries_get he, hv, Option.bind_some, hw]
    exact (parseField_iff hn hu hh v w).1 hw
  | none =>
    rw [parseEntries_get he, hv]
    cases h with
    | value a => rw [Fits, hf] at ha2; cases ha2; exact .absent
    | one o' => rw [Fits, hf] at ha2; cases ha2; exact .noObject
    | many o' => exact .noList
    | byName o' => exact .noNames
    | manyByName o' => exact .noLists
    | filled o' => exact absurd rfl (hh o')

theorem keys_reads (o : Ob) (e : Dict Str Tree) (n : Str) :
    n ∈ Dict.keys (assemble (v12 (number o)) e) ↔ n ∈ Dict.keys (fields o) ∨ Extra o n := by
  rw [keys_assemble, C85_fields]

theorem items_reads (v x : Dict Str Tree) : Reads .items (.dict v) (.obj Validate12.items x) ↔
    x = assemble itemsCls v := by
  unfold Reads parse
  rw [parseAs]
  have : ∀ v : List (Str × Tree), parseEntries (v12 Validate12.items) v = some v := by
    intro v
    induction v with
    | nil => rw [parseEntries]
    | cons p v ih =>
      obtain ⟨n, w⟩ := p
      rw [parseEntries_cons, ih]
      rfl
  show (parseEntries (v12 Validate12.items) v).bind _ = _ ↔ _
  rw [this]
  show some (Tree.obj Validate12.items (assemble itemsCls v)) = some (.obj Validate12.items x) ↔ _
  simp [eq_comm]

/-- A dict read as an object gives an object of the class with exactly the fields of the standard (and
`description` for an API declaration), each read as the standard says. `authorizations` of an API
declaration and its `description` stay plain values; its `apis` are replaced (`C85_operations`). -/
theorem C85_reads (o : Ob) (d : Dict Str Tree) (x : Tree) (hx : Reads o (.dict d) x) :
    ∃ fs, x = .obj (number o) fs ∧ (Dict.keys fs).Nodup ∧
      (∀ n, n ∈ Dict.keys fs ↔ n ∈ Dict.keys (fields o) ∨ Extra o n) ∧
      (∀ n h, (n, h) ∈ fields o → ¬ Unread o n → ¬ (o = .declaration ∧ n = c!"apis") →
        ∃ y, Dict.get? fs n = some y ∧ ReadAs Reads h (Dict.get? d n) y) ∧
      ∀ n, Unread o n ∨ Extra o n → Dict.get? fs n = some ((Dict.get? d n).getD null) := by
  unfold Reads parse at hx
  rw [parseAs] at hx
  change (parseEntries (v12 (number o)) d).bind (produce (number o)) = some x at hx
  cases he : parseEntries (v12 (number o)) d with
  | none => rw [he] at hx; cases hx
  | some e =>
    rw [he, Option.bind_some] at hx
    have hnd : ∀ e, (Dict.keys (assemble (v12 (number o)) e)).Nodup := fun e => by
      rw [keys_assemble]; exact (tables o).2.1
    by_cases ht : Typed o
    · have hp : produce (number o) e = (withItems e).map fun e => .obj (number o) (assemble (v12 (number o)) e) := by
        rcases ht with rfl | rfl | rfl <;> rfl
      rw [hp] at hx
      cases hi : withItems e with
      | none => rw [hi] at hx; cases hx
      | some e' =>
        rw [hi] at hx
        cases hx
        have hchild : Dict.get? (v12 (number o)).child c!"items" = none := by
          rcases ht with rfl | rfl | rfl <;> decide +kernel
        have hitem : Dict.get? e c!"items" = Dict.get? d c!"items" := by
          rw [parseEntries_get he]
          unfold parseField
          rw [hchild]
          cases Dict.get? d c!"items" <;> rfl
        unfold withItems at hi
        rw [hitem] at hi
        have hother : ∀ n, n ≠ c!"items" → Dict.get? e' n = Dict.get? e n := by
          intro n hn
          cases hd : Dict.get? d c!"items" with
          | none => rw [hd] at hi; cases hi; rfl
          | some v =>
            rw [hd] at hi
            dsimp only at hi
            by_cases hv : Validate.truth v = true
            · rw [if_pos hv] at hi
              cases v with
              | dict w => cases hi; exact Dict.get?_set_ne _ _ hn
              | _ => cases hi
            · rw [if_neg hv] at hi; cases hi; rfl
        refine ⟨_, rfl, hnd e', fun n => keys_reads o e' n, fun n h hm hu _ => ?_, fun n hn => ?_⟩
        rotate_left
        · rcases ht with rfl | rfl | rfl <;> rcases hn with ⟨h, _⟩ | ⟨h, _⟩ <;> cases h
        have hn := Dict.get?_of_mem (tables o).1 hm
        by_cases hf : ∃ o', h = .filled o'
        · obtain ⟨o', rfl⟩ := hf
          obtain ⟨_, ha2, _⟩ := agree o n
          rw [hn] at ha2
          obtain ⟨hf, _, rfl, rfl⟩ := ha2
          rw [get_assemble (tables o).2.1, hf, hchild]
          refine ⟨_, rfl, ?_⟩
          cases hd : Dict.get? d c!"items" with
          | none =>
            rw [hd] at hi; cases hi
            rw [hitem, hd]
            exact .unfilled
          | some v =>
            rw [hd] at hi
            dsimp only at hi
            by_cases hv : Validate.truth v = true
            · rw [if_pos hv] at hi
              cases v with
              | dict w =>
                cases hi
                rw [Dict.get?_set, if_pos rfl]
                refine .filled ?_ ?_
                · rintro rfl; simp [Validate.truth] at hv
                · exact (items_reads w _).2 rfl
              | _ => cases hi
            · rw [if_neg hv] at hi; cases hi
              rw [hitem, hd]
              exact .blank ((truth_blank v).1 (by simpa using hv))
        · have hh : ∀ o', h ≠ .filled o' := fun o' e => hf ⟨o', e⟩
          have hne : n ≠ c!"items" := by
            rintro rfl
            have : ∃ o', Dict.get? (fields o) c!"items" = some (.filled o') := by
              rcases ht with rfl | rfl | rfl <;> exact ⟨.items, rfl⟩
            obtain ⟨o', ho'⟩ := this
            rw [hn] at ho'
            exact hh o' (Option.some.inj ho')
          exact field_reads he hn hu hh (hother n hne)
    · have hne : ∀ n h, Dict.get? (fields o) n = some h → ∀ o', h ≠ .filled o' := by
        rintro n h hn o' rfl
        have := (agree o n).2.1
        rw [hn] at this
        exact ht this.2.1
      by_cases hr : o = .declaration
      · subst hr
        have hp : produce (number .declaration) e =
            (flatten (assemble (v12 (number .declaration)) e)).map (.obj (number .declaration)) := rfl
        rw [hp] at hx
        unfold flatten at hx
        split at hx
        · rename_i l hl
          cases ha : addApis l [] with
          | none => rw [ha] at hx; cases hx
          | some ops =>
            rw [ha] at hx
            cases hx
            refine ⟨_, rfl, Dict.WF_set (hnd e) _ _, fun n => ?_, fun n h hm hu hnap => ?_, fun n hn => ?_⟩
            rotate_left 2
            · have hn' : n = c!"authorizations" ∨ n = c!"description" := by
                rcases hn with ⟨_, h⟩ | ⟨_, h⟩ <;> simp [h]
              rw [Dict.get?_set_ne _ _ (by rcases hn' with rfl | rfl <;> decide), get_assemble (tables _).2.1,
                parseEntries_get he]
              unfold parseField
              rcases hn' with rfl | rfl
              · rw [show Dict.get? (v12 (number .declaration)).child c!"authorizations" = none by decide +kernel,
                  show Dict.get? (v12 (number .declaration)).fields c!"authorizations" = some null by rfl]
                cases Dict.get? d c!"authorizations" <;> rfl
              · rw [show Dict.get? (v12 (number .declaration)).child c!"description" = none by decide +kernel,
                  show Dict.get? (v12 (number .declaration)).fields c!"description" = some null by rfl]
                cases Dict.get? d c!"description" <;> rfl
            · rw [← keys_reads _ e, ← Dict.get?_isSome_iff, Dict.get?_set]
              split
              · rename_i heq
                subst heq
                simp only [Option.isSome_some, true_iff]
                exact (Dict.get?_isSome_iff _ _).1 (by rw [hl]; rfl)
              · exact Dict.get?_isSome_iff _ _
            · rw [Dict.get?_set_ne _ _ (fun h => hnap ⟨rfl, h⟩)]
              have hn := Dict.get?_of_mem (tables .declaration).1 hm
              exact field_reads he hn hu (hne n h hn) rfl
        · cases hx
      · have hp : produce (number o) e = some (.obj (number o) (assemble (v12 (number o)) e)) := by
          cases o <;> first | rfl | exact absurd rfl hr | exact absurd (by decide) ht
        rw [hp] at hx
        cases hx
        refine ⟨_, rfl, hnd e, fun n => keys_reads o e n, fun n h hm hu _ => ?_,
          fun n hn => by rcases hn with ⟨h, _⟩ | ⟨h, _⟩ <;> exact absurd h hr⟩
        have hn := Dict.get?_of_mem (tables o).1 hm
        exact field_reads he hn hu (hne n h hn) rfl

/-- An API declaration has the operations of its apis by nickname, in order, each with the path of its
api; it is read only if no nickname occurs twice. -/
theorem C85_operations (d : Dict Str Tree) (x : Tree) (hx : Reads .declaration (.dict d) x) :
    ∃ fs apis ops, x = .obj Validate12.resource fs ∧
      ReadAs Reads (.many .api) (Dict.get? d c!"apis") (.list apis) ∧ Operations apis ops ∧
      Dict.get? fs c!"apis" = some (.dict ops) := by
  unfold Reads parse at hx
  rw [parseAs] at hx
  change (parseEntries (v12 (number .declaration)) d).bind (produce (number .declaration)) = some x at hx
  cases he : parseEntries (v12 (number .declaration)) d with
  | none => rw [he] at hx; cases hx
  | some e =>
    rw [he, Option.bind_some] at hx
    have hp : produce (number .declaration) e =
        (flatten (assemble (v12 (number .declaration)) e)).map (.obj (number .declaration)) := rfl
    rw [hp] at hx
    unfold flatten at hx
    split at hx
    · rename_i l hl
      cases ha : addApis l [] with
      | none => rw [ha] at hx; cases hx
      | some ops =>
        rw [ha] at hx
        cases hx
        obtain ⟨es, h1, h2, h3⟩ := (addApis_iff l [] ops List.nodup_nil).1 ha
        refine ⟨_, l, ops, rfl, ?_, ⟨h3, es, h1, by simpa using h2⟩, by rw [Dict.get?_set, if_pos rfl]⟩
        obtain ⟨y, hy, hr⟩ := field_reads (o := .declaration) (n := c!"apis") (h := .many .api) he
          (by rfl) (by decide) (by simp) rfl
        rw [hl] at hy
        cases hy
        exact hr
    · cases hx

/-- what makes a field readable -/
def CanRead (h : Holds) (v : Tree) : Prop := ∃ y, ReadAs Reads h (some v) y

/-- A dict can be read as an object other than an API declaration exactly when each of its fields can;
unknown keys do not matter. -/
theorem C85_readable (o : Ob) (ho : o ≠ .declaration) (d : Dict Str Tree) (hd : (Dict.keys d).Nodup) :
    (∃ x, Reads o (.dict d) x) ↔
      ∀ n v h, (n, v) ∈ d → (n, h) ∈ fields o → CanRead h v := by
  have hu : ∀ n, ¬ Unread o n := fun n h => ho h.1
  constructor
  · rintro ⟨x, hx⟩ n v h hm hf
    obtain ⟨fs, _, _, _, hr, _⟩ := C85_reads o d x hx
    obtain ⟨y, _, hy⟩ := hr n h hf (hu n) (fun h => ho h.1)
    rw [Dict.get?_of_mem hd hm] at hy
    exact ⟨y, hy⟩
  · intro hall
    have he : ∃ e, parseEntries (v12 (number o)) d = some e := by
      refine parseEntries_some.2 fun n v hm => ?_
      have ha := (agree o n).2.2
      rw [if_neg (hu n)] at ha
      cases hn : Dict.get? (fields o) n with
      | none =>
        rw [hn] at ha
        exact ⟨v, by unfold parseField; rw [ha]; rfl⟩
      | some h =>
        by_cases hf : ∃ o', h = .filled o'
        · obtain ⟨o', rfl⟩ := hf
          rw [hn] at ha
          exact ⟨v, by unfold parseField; rw [ha]; rfl⟩
        · obtain ⟨y, hy⟩ := hall n v h hm (Dict.mem_of_get? hn)
          exact ⟨y, (parseField_iff hn (hu n) (fun o' e => hf ⟨o', e⟩) v y).2 hy⟩
    obtain ⟨e, he⟩ := he
    unfold Reads parse
    rw [parseAs]
    change ∃ x, (parseEntries (v12 (number o)) d).bind (produce (number o)) = some x
    rw [he, Option.bind_some]
    by_cases ht : Typed o
    · have hp : produce (number o) e = (withItems e).map fun e => .obj (number o) (assemble (v12 (number o)) e) := by
        rcases ht with rfl | rfl | rfl <;> rfl
      have hchild : Dict.get? (v12 (number o)).child c!"items" = none := by
        rcases ht with rfl | rfl | rfl <;> decide +kernel
      have hitem : Dict.get? e c!"items" = Dict.get? d c!"items" := by
        rw [parseEntries_get he]
        unfold parseField
        rw [hchild]
        cases Dict.get? d c!"items" <;> rfl
      rw [hp]
      unfold withItems
      rw [hitem]
      cases hd : Dict.get? d c!"items" with
      | none => exact ⟨_, rfl⟩
      | some v =>
        have hf : (c!"items", Holds.filled .items) ∈ fields o := by
          rcases ht with rfl | rfl | rfl <;> simp [fields, Spec.Swagger12.dataType]
        obtain ⟨y, hy⟩ := hall _ v _ (Dict.mem_of_get? hd) hf
        dsimp only
        by_cases hv : Validate.truth v = true
        · rw [if_pos hv]
          cases hy with
          | blank hb => rw [(truth_blank v).2 hb] at hv; cases hv
          | filled _ _ => exact ⟨_, rfl⟩
        · rw [if_neg hv]; exact ⟨_, rfl⟩
    · have hp : produce (number o) e = some (.obj (number o) (assemble (v12 (number o)) e)) := by
        cases o <;> first | rfl | exact absurd rfl ho | exact absurd (by decide) ht
      exact ⟨_, hp⟩

/-- An API declaration can be read exactly when its models and apis can, every operation has a text as
its nickname and no nickname occurs twice. -/
theorem C85_readable_declaration (d : Dict Str Tree) (hd : (Dict.keys d).Nodup) :
    (∃ x, Reads .declaration (.dict d) x) ↔
      (∀ n v h, (n, v) ∈ d → (n, h) ∈ fields .declaration → ¬ Unread .declaration n → CanRead h v) ∧
      ∃ apis ops, ReadAs Reads (.many .api) (Dict.get? d c!"apis") (.list apis) ∧ Operations apis ops := by
  constructor
  · rintro ⟨x, hx⟩
    obtain ⟨_, apis, ops, _, h1, h2, _⟩ := C85_operations d x hx
    obtain ⟨fs, _, _, _, hr, _⟩ := C85_reads .declaration d x hx
    refine ⟨fun n v h hm hf hu => ?_, apis, ops, h1, h2⟩
    by_cases hn : n = c!"apis"
    · subst hn
      rw [Dict.get?_of_mem hd hm] at h1
      have : h = .many .api := by
        have h3 : Dict.get? (fields .declaration) c!"apis" = some h := Dict.get?_of_mem (tables .declaration).1 hf
        have h4 : Dict.get? (fields .declaration) c!"apis" = some (.many .api) := rfl
        rw [h3] at h4
        exact Option.some.inj h4
      subst this
      exact ⟨_, h1⟩
    · obtain ⟨y, _, hy⟩ := hr n h hf hu (fun h => hn h.2)
      rw [Dict.get?_of_mem hd hm] at hy
      exact ⟨y, hy⟩
  · rintro ⟨hall, apis, ops, h1, hnd, es, h2, h3⟩
    have hne : ∀ n h, Dict.get? (fields .declaration) n = some h → ∀ o', h ≠ .filled o' := by
      rintro n h hn o' rfl
      have := (agree .declaration n).2.1
      rw [hn] at this
      exact absurd this.2.1 (by decide)
    have he : ∃ e, parseEntries (v12 (number .declaration)) d = some e := by
      refine parseEntries_some.2 fun n v hm => ?_
      have ha := (agree .declaration n).2.2
      by_cases hu : Unread .declaration n
      · rw [if_pos hu] at ha
        exact ⟨v, by unfold parseField; rw [ha]⟩
      · rw [if_neg hu] at ha
        cases hn : Dict.get? (fields .declaration) n with
        | none =>
          rw [hn] at ha
          exact ⟨v, by unfold parseField; rw [ha]; rfl⟩
        | some h =>
          obtain ⟨y, hy⟩ := hall n v h hm (Dict.mem_of_get? hn) hu
          exact ⟨y, (parseField_iff hn hu (hne n h hn) v y).2 hy⟩
    obtain ⟨e, he⟩ := he
    obtain ⟨y, hy, hr⟩ := field_reads (o := .declaration) (n := c!"apis") (h := .many .api) he
      (by rfl) (by decide) (by simp) rfl
    have hyl : y = .list apis := by
      cases hdv : Dict.get? d c!"apis" with
      | none =>
        rw [hdv] at h1 hr
        cases h1
        cases hr; rfl
      | some v =>
        rw [hdv] at h1 hr
        have e1 := (parseField_iff (o := .declaration) (n := c!"apis") (h := .many .api) rfl (by decide) (by simp) v _).2 h1
        have e2 := (parseField_iff (o := .declaration) (n := c!"apis") (h := .many .api) rfl (by decide) (by simp) v _).2 hr
        rw [e1] at e2
        exact (Option.some.inj e2).symm
    subst hyl
    have ha : addApis apis [] = some ops :=
      (addApis_iff apis [] ops List.nodup_nil).2 ⟨es, h2, by simpa using h3, hnd⟩
    unfold Reads parse
    rw [parseAs]
    change ∃ x, (parseEntries (v12 (number .declaration)) d).bind (produce (number .declaration)) = some x
    rw [he, Option.bind_some]
    have hp : produce (number .declaration) e =
        (flatten (assemble (v12 (number .declaration)) e)).map (.obj (number .declaration)) := rfl
    rw [hp]
    unfold flatten
    rw [hy]
    dsimp only
    rw [ha]
    exact ⟨_, rfl⟩

/-- The resource listing is read as the standard says, with the resources in the place of its apis. -/
theorem C85_listing (d : Dict Str Tree) (rs : Dict Str Tree) (x : Tree) (hx : readList (.dict d) rs = some x) :
    ∃ fs, x = .obj Validate12.resourceList fs ∧ (Dict.keys fs).Nodup ∧
      (∀ n, n ∈ Dict.keys fs ↔ n ∈ Dict.keys (fields .listing)) ∧
      Dict.get? fs c!"apis" = some (.dict rs) ∧
      ∀ n h, (n, h) ∈ fields .listing → n ≠ c!"apis" →
        ∃ y, Dict.get? fs n = some y ∧ ReadAs Reads h (Dict.get? d n) y := by
  unfold readList at hx
  dsimp only at hx
  change (parseEntries (v12 (number .listing)) d).map _ = _ at hx
  cases he : parseEntries (v12 (number .listing)) d with
  | none => rw [he] at hx; cases hx
  | some e =>
    rw [he, Option.map_some] at hx
    cases hx
    have hnd : ∀ e, (Dict.keys (assemble (v12 (number .listing)) e)).Nodup := fun e => by
      rw [keys_assemble]; exact (tables .listing).2.1
    refine ⟨_, rfl, hnd _, fun n => ?_, ?_, fun n h hm hne => ?_⟩
    · rw [show Validate12.resourceList = number .listing from rfl, keys_reads]
      simp [Extra]
    · rw [show Validate12.resourceList = number .listing from rfl, get_assemble (tables .listing).2.1,
        Dict.get?_set, if_pos rfl]
      rfl
    · have hn := Dict.get?_of_mem (tables .listing).1 hm
      refine field_reads (o := .listing) he hn (by rintro ⟨h, _⟩; cases h) ?_ (Dict.get?_set_ne _ _ hne)
      rintro o' rfl
      have := (agree .listing n).2.1
      rw [hn] at this
      exact absurd this.2.1 (by decide)

/-- a null in the place of an object is an object with all its fields at their defaults -/
theorem C85_null (o : Ob) (ho : o ≠ .declaration) :
    Reads o null (.obj (number o) (v12 (number o)).fields) := by
  unfold Reads parse
  unfold null
  rw [parseAs, parseAtom, if_neg]
  cases o <;> first | decide | exact absurd rfl ho

/-- The authorisations of an API declaration are no objects: the plain value is in the field, although
the standard has Scope Objects there and those of an operation are read as such. -/
theorem C85_declaration_false : ∃ x fs, Reads .declaration
      (.dict [(c!"authorizations", .dict [(c!"oauth2", .list [.dict [(c!"scope", .atom (.str c!"a"))]])])]) x ∧
    x = .obj Validate12.resource fs ∧
    Dict.get? fs c!"authorizations" = some (.dict [(c!"oauth2", .list [.dict [(c!"scope", .atom (.str c!"a"))]])]) ∧
    (c!"authorizations", Holds.manyByName .scopeOf) ∈ fields .declaration :=
  ⟨_, _, rfl, rfl, rfl, by simp [fields]⟩

/-- An array whose items are empty (any elements) is kept as the empty dict, not as an Items Object. -/
theorem C85_items_false : ∃ x fs, Reads .parameter
      (.dict [(c!"type", .atom (.str c!"array")), (c!"items", .dict [])]) x ∧
    x = .obj Validate12.parameter fs ∧ Dict.get? fs c!"items" = some (.dict []) :=
  ⟨_, _, rfl, rfl, rfl⟩

/-- a declaration with one operation -/
def sample : Tree :=
  .dict [(c!"basePath", .atom (.str c!"http://h")),
    (c!"apis", .list [.dict [(c!"path", .atom (.str c!"/pet")),
      (c!"operations", .list [.dict [(c!"nickname", .atom (.str c!"getPet")), (c!"method", .atom (.str c!"GET")),
        (c!"parameters", .list [.dict [(c!"name", .atom (.str c!"id")), (c!"type", .atom (.str c!"array")),
          (c!"items", .dict [(c!"type", .atom (.str c!"integer"))])]])]])]])]

example : ∃ x fs ops op, Reads .declaration sample x ∧ x = .obj Validate12.resource fs ∧
    Dict.get? fs c!"apis" = some (.dict ops) ∧ Dict.keys ops = [c!"getPet"] ∧
    Dict.get? ops c!"getPet" = some (.obj Validate12.operation op) ∧
    Dict.get? op c!"path" = some (.atom (.str c!"/pet")) :=
  ⟨_, _, _, _, rfl, rfl, rfl, rfl, rfl, rfl⟩

/-- the same nickname twice -/
example : ¬ ∃ x, Reads .declaration (.dict [(c!"apis", .list [.dict [(c!"operations", .list
    [.dict [(c!"nickname", .atom (.str c!"a"))], .dict [(c!"nickname", .atom (.str c!"a"))]])]])]) x := by
  rintro ⟨x, h⟩; cases h

end Props.C85
