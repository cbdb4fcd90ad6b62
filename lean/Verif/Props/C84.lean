import Verif.Spec.Swagger20
import Verif.Proofs.TreeEq
import Verif.Props.C42
/-!
# C84: A document is read with exactly the objects of the Swagger 2.0 standard

The tables of the library are compared with those of the standard (`Spec/Swagger20.lean`), for every
object and every name of a field. Reading then follows the standard at every level: the statement
about an object mentions the reading of the objects in its fields, to which it applies again. The one
difference is `externalDocs` of an operation, which stays a plain value.
-/

namespace Props.C84
open Py Tree _root_.Doc Spec.Swagger20

/-- the class of the library for an object of the standard -/
def number : Ob → Nat
  | .xml => cXML | .externalDocs => cExternalDocs | .items => cItems | .schema => cSchema
  | .parameter => cParameter | .header => cHeader | .response => cResponse | .operation => cOperation
  | .pathItem => cPathItem | .securityScheme => cSecurityScheme | .tag => cTag | .contact => cContact
  | .license => cLicense | .info => cInfo | .swagger => cSwagger

/-- what the parser is told about a field -/
def kind : Holds → Option Kind
  | .value _ => none
  | .one o => some (.one (number o))
  | .many o => some (.list (number o))
  | .byName o => some (.dict (number o))
  | .flagOr o => some (.boolOr (number o))

/-- how a document is read as an object of the standard -/
def Reads (o : Ob) (j x : Tree) : Prop := parse v20 (number o) j = some x

/-- the tables agree about one name -/
def Agree (o : Ob) (n : Str) : Prop :=
  (Dict.get? (v20 (number o)).fields n).isSome = (Dict.get? (fields o) n).isSome ∧
  (match Dict.get? (fields o) n with
    | some (.value a) => Dict.get? (v20 (number o)).fields n = some a
    | some (.flagOr _) => Dict.get? (v20 (number o)).fields n = some (.atom (.bool true))
    | _ => True) ∧
  (if Unread o n then Dict.get? (v20 (number o)).child n = none
    else Dict.get? (v20 (number o)).child n = (Dict.get? (fields o) n).bind kind)

instance (o : Ob) (n : Str) : Decidable (Agree o n) := by
  unfold Agree
  have : Decidable (match Dict.get? (fields o) n with
    | some (.value a) => Dict.get? (v20 (number o)).fields n = some a
    | some (.flagOr _) => Dict.get? (v20 (number o)).fields n = some (.atom (.bool true))
    | _ => True) := by split <;> infer_instance
  infer_instance

theorem tables (o : Ob) : (Dict.keys (fields o)).Nodup ∧
    ∀ n ∈ Dict.keys (fields o) ++ Dict.keys (v20 (number o)).fields ++ Dict.keys (v20 (number o)).child,
      Agree o n := by
  cases o <;> decide +kernel

theorem agree (o : Ob) (n : Str) : Agree o n := by
  by_cases h : n ∈ Dict.keys (fields o) ++ Dict.keys (v20 (number o)).fields ++
      Dict.keys (v20 (number o)).child
  · exact (tables o).2 n h
  · simp only [List.mem_append, not_or] at h
    have h1 := (Dict.get?_eq_none_iff _ _).2 h.1.1
    have h2 := (Dict.get?_eq_none_iff _ _).2 h.1.2
    have h3 := (Dict.get?_eq_none_iff _ _).2 h.2
    unfold Agree
    rw [h1, h2, h3]
    simp

/-- The library knows exactly the fields of the standard, for every object. -/
theorem C84_fields (o : Ob) (n : Str) :
    n ∈ Dict.keys (v20 (number o)).fields ↔ n ∈ Dict.keys (fields o) := by
  rw [← Dict.get?_isSome_iff, ← Dict.get?_isSome_iff, (agree o n).1]

/-- every class of the library is one of the standard, and no two objects share a class -/
theorem C84_classes : (∀ c, c < classes.length ↔ ∃ o, number o = c) ∧
    ∀ o o', number o = number o' → o = o' := by
  refine ⟨fun c => ⟨fun h => ?_, fun ⟨o, ho⟩ => ?_⟩, fun o o' h => ?_⟩
  · have h : c < 15 := h
    have : ∀ c : Fin 15, ∃ o, number o = c.1 := by
      intro c
      match c with
      | 0 => exact ⟨.xml, rfl⟩ | 1 => exact ⟨.externalDocs, rfl⟩ | 2 => exact ⟨.items, rfl⟩
      | 3 => exact ⟨.schema, rfl⟩ | 4 => exact ⟨.parameter, rfl⟩ | 5 => exact ⟨.header, rfl⟩
      | 6 => exact ⟨.response, rfl⟩ | 7 => exact ⟨.operation, rfl⟩ | 8 => exact ⟨.pathItem, rfl⟩
      | 9 => exact ⟨.securityScheme, rfl⟩ | 10 => exact ⟨.tag, rfl⟩ | 11 => exact ⟨.contact, rfl⟩
      | 12 => exact ⟨.license, rfl⟩ | 13 => exact ⟨.info, rfl⟩ | 14 => exact ⟨.swagger, rfl⟩
    exact this ⟨c, h⟩
  · subst ho; cases o <;> decide
  · cases o <;> cases o' <;> first | rfl | (exact absurd h (by decide))

theorem parseList_iff (c : Nat) (l xs : List Tree) :
    parseList v20 c l = some xs ↔ List.Forall₂ (fun a b => parse v20 c a = some b) l xs := by
  induction l generalizing xs with
  | nil => cases xs <;> simp [parseList]
  | cons v l ih =>
    rw [parseList]
    cases xs with
    | nil => split <;> simp
    | cons x xs =>
      rw [List.forall₂_cons, ← ih]
      unfold parse
      split
      · rename_i h1 h2; rw [h1, h2]; simp
      · rename_i hne
        refine ⟨nofun, fun ⟨h1, h2⟩ => absurd h2 (hne _ _ h1)⟩

theorem parseDict_iff (c : Nat) (l xs : List (Str × Tree)) :
    parseDict v20 c l = some xs ↔
      List.Forall₂ (fun a b => b.1 = a.1 ∧ parse v20 c a.2 = some b.2) l xs := by
  induction l generalizing xs with
  | nil => cases xs <;> simp [parseDict]
  | cons p l ih =>
    obtain ⟨n, v⟩ := p
    rw [parseDict]
    cases xs with
    | nil => split <;> simp
    | cons x xs =>
      obtain ⟨m, x⟩ := x
      rw [List.forall₂_cons, ← ih]
      unfold parse
      split
      · rename_i h1 h2; rw [h1, h2]; simp; grind
      · rename_i hne
        refine ⟨nofun, fun ⟨h1, h2⟩ => absurd h2 (hne _ _ h1.2)⟩

/-- reading what stands in a field -/
theorem parseField_iff {o : Ob} {n : Str} {h : Holds} (hn : Dict.get? (fields o) n = some h)
    (hu : ¬ Unread o n) (v x : Tree) :
    Proofs.Doc.parseField v20 (v20 (number o)) n v = some x ↔ ReadAs Reads h (some v) x := by
  have hc := (agree o n).2.2
  rw [if_neg hu, hn] at hc
  unfold Proofs.Doc.parseField
  rw [hc]
  cases h with
  | value a =>
    simp only [Option.bind_some, kind]
    constructor
    · intro h; cases h; exact .value
    · intro h; cases h; rfl
  | one o' =>
    simp only [Option.bind_some, kind]
    cases v with
    | atom a =>
      cases a with
      | none =>
        simp only [isNull, if_true, emptyOf, Option.getD_none, Option.some.injEq]
        constructor
        · rintro rfl; exact .nullObject
        · intro h; cases h; rfl
      | _ =>
        simp only [isNull, parseAs, parseAtom]
        constructor
        · intro h; cases h
        · intro h; cases h
    | dict d =>
      simp only [isNull]
      constructor
      · intro h; exact .object h
      · intro h; cases h; assumption
    | list l => exact ⟨nofun, nofun⟩
    | obj c fs => exact ⟨nofun, nofun⟩
  | many o' =>
    simp only [Option.bind_some, kind]
    cases v with
    | atom a =>
      cases a with
      | none =>
        simp only [isNull, if_true, emptyOf, Option.getD_some, Option.some.injEq]
        constructor
        · rintro rfl; exact .nullList
        · intro h; cases h; rfl
      | str s =>
        cases s with
        | nil =>
          simp only [isNull, parseAs, parseAtom]
          constructor
          · intro h; cases h; exact .emptyText
          · intro h; cases h; rfl
        | cons a s => exact ⟨nofun, nofun⟩
      | _ => exact ⟨nofun, nofun⟩
    | dict d =>
      cases d with
      | nil =>
        simp only [isNull, parseAs]
        constructor
        · intro h; cases h; exact .emptyDict
        · intro h; cases h; rfl
      | cons p d =>
        constructor
        · intro h; simp [isNull, parseAs] at h
        · intro h; cases h
    | list l =>
      simp only [isNull, parseAs]
      constructor
      · intro h
        cases hl : parseList v20 (number o') l with
        | none => rw [hl] at h; cases h
        | some xs =>
          rw [hl] at h; cases h
          exact .list ((parseList_iff _ _ _).1 hl)
      · intro h
        cases h with
        | list h => rw [(parseList_iff _ _ _).2 h]; rfl
    | obj c fs => exact ⟨nofun, nofun⟩
  | byName o' =>
    simp only [Option.bind_some, kind]
    cases v with
    | atom a =>
      cases a with
      | none =>
        simp only [isNull, if_true, emptyOf, Option.getD_some, Option.some.injEq]
        constructor
        · rintro rfl; exact .nullNames
        · intro h; cases h; rfl
      | _ => exact ⟨nofun, nofun⟩
    | dict d =>
      simp only [isNull, parseAs]
      constructor
      · intro h
        cases hl : parseDict v20 (number o') d with
        | none => rw [hl] at h; cases h
        | some xs =>
          rw [hl] at h; cases h
          exact .names ((parseDict_iff _ _ _).1 hl)
      · intro h
        cases h with
        | names h => rw [(parseDict_iff _ _ _).2 h]; rfl
    | list l => exact ⟨nofun, nofun⟩
    | obj c fs => exact ⟨nofun, nofun⟩
  | flagOr o' =>
    simp only [Option.bind_some, kind]
    cases v with
    | atom a =>
      cases a with
      | none =>
        simp only [isNull, if_true, emptyOf, Option.getD_none, Option.some.injEq]
        constructor
        · rintro rfl; exact .nullFlag
        · intro h; cases h; rfl
      | bool b =>
        simp only [isNull, parseAs, parseAtom]
        constructor
        · intro h; cases h; exact .flag
        · intro h; cases h; rfl
      | _ => exact ⟨nofun, nofun⟩
    | dict d =>
      have : parseAs v20 (.boolOr (number o')) (.dict d) = parse v20 (number o') (.dict d) := by
        unfold parse; rw [parseAs, parseAs]
      simp only [isNull, this]
      constructor
      · intro h; exact .either h
      · intro h; cases h; assumption
    | list l => exact ⟨nofun, nofun⟩
    | obj c fs => exact ⟨nofun, nofun⟩

/-- Reading a document as any object of the standard gives an object with exactly the fields of the
standard, and each is read as the standard says. -/
theorem C84_reads (o : Ob) (d : Dict Str Tree) (x : Tree) (hx : Reads o (.dict d) x) :
    ∃ fs, x = .obj (number o) fs ∧ (Dict.keys fs).Nodup ∧
      (∀ n, n ∈ Dict.keys fs ↔ n ∈ Dict.keys (fields o)) ∧
      ∀ n h, (n, h) ∈ fields o → ¬ Unread o n →
        ∃ y, Dict.get? fs n = some y ∧ ReadAs Reads h (Dict.get? d n) y := by
  obtain ⟨fs, rfl, hk, hplain⟩ := C42.C42_fields (number o) d x hx
  refine ⟨fs, rfl, by rw [hk]; exact (C42.C42_grammar _).1, fun n => by rw [hk, C84_fields],
    fun n h hm hu => ?_⟩
  have hn : Dict.get? (fields o) n = some h := Dict.get?_of_mem (tables o).1 hm
  obtain ⟨ha1, ha2, ha3⟩ := agree o n
  rw [if_neg hu, hn] at ha3
  rw [hn] at ha1 ha2
  have hx' := hx
  unfold Reads parse at hx
  rw [parseAs] at hx
  cases he : parseEntries v20 (v20 (number o)) d with
  | none => rw [he] at hx; cases hx
  | some e =>
    rw [he, Option.map_some, Proofs.Doc.assemble_eq he] at hx
    injection hx with hx
    injection hx with _ hx
    obtain ⟨dflt, hf⟩ := Option.isSome_iff_exists.1 ha1
    have hget : Dict.get? fs n = some (Proofs.Doc.fieldOf v20 (v20 (number o)) d (n, dflt)) := by
      refine Dict.get?_of_mem (by show (Dict.keys fs).Nodup; rw [hk]; exact (C42.C42_grammar _).1) ?_
      rw [← hx]
      exact List.mem_map.2 ⟨(n, dflt), Dict.mem_of_get? hf, rfl⟩
    refine ⟨_, hget, ?_⟩
    cases hv : Dict.get? d n with
    | some v =>
      have := Proofs.Doc.parseEntries_some.1 ⟨e, he⟩ n v (Dict.mem_of_get? hv)
      obtain ⟨w, hw⟩ := this
      have hfo : Proofs.Doc.fieldOf v20 (v20 (number o)) d (n, dflt) = w := by
        unfold Proofs.Doc.fieldOf
        simp only [hv, Option.bind_some, hw]
      rw [hfo]
      exact (parseField_iff hn hu v w).1 hw
    | none =>
      have hfo : Proofs.Doc.fieldOf v20 (v20 (number o)) d (n, dflt) =
          (((kind h).bind emptyOf).getD dflt) := by
        unfold Proofs.Doc.fieldOf
        simp only [hv, Option.bind_none, ha3, Option.bind_some]
      rw [hfo]
      cases h with
      | value a => rw [hf] at ha2; cases ha2; exact .absent
      | one o' =>
        have hnone := (C42.C42_nothing (number o) d fs hx' n (Or.inl hv)).2.2.1 (number o')
          (by rw [ha3]; rfl)
        rw [hget, hfo] at hnone
        cases Option.some.inj hnone
        rw [Option.some.inj hnone]
        exact .noObject
      | many o' => exact .noList
      | byName o' => exact .noNames
      | flagOr o' => rw [hf] at ha2; cases ha2; exact .noFlag

/-- A dict can be read as an object exactly when each of its fields can. Unknown keys do not matter. -/
theorem C84_readable (o : Ob) (d : Dict Str Tree) :
    (∃ x, Reads o (.dict d) x) ↔
      ∀ n v h, (n, v) ∈ d → (n, h) ∈ fields o → ¬ Unread o n → ∃ y, ReadAs Reads h (some v) y := by
  have hp : (∃ x, Reads o (.dict d) x) ↔ ∃ e, parseEntries v20 (v20 (number o)) d = some e := by
    unfold Reads parse
    rw [parseAs]
    constructor
    · rintro ⟨x, hx⟩
      cases he : parseEntries v20 (v20 (number o)) d with
      | none => rw [he] at hx; cases hx
      | some e => exact ⟨e, rfl⟩
    · rintro ⟨e, he⟩
      exact ⟨_, by rw [he]; rfl⟩
  rw [hp, Proofs.Doc.parseEntries_some]
  constructor
  · intro h n v hd hm hmem hu
    obtain ⟨w, hw⟩ := h n v hm
    exact ⟨w, (parseField_iff (Dict.get?_of_mem (tables o).1 hmem) hu v w).1 hw⟩
  · intro h n v hm
    have ha := (agree o n).2.2
    by_cases hu : Unread o n
    · rw [if_pos hu] at ha
      exact ⟨v, by unfold Proofs.Doc.parseField; rw [ha]⟩
    · cases hn : Dict.get? (fields o) n with
      | none =>
        rw [if_neg hu, hn] at ha
        exact ⟨v, by unfold Proofs.Doc.parseField; rw [ha]; rfl⟩
      | some hh =>
        obtain ⟨y, hy⟩ := h n v hh hm (Dict.mem_of_get? hn) hu
        exact ⟨y, (parseField_iff hn hu v y).2 hy⟩

/-- The documentation of an operation is not read as an object: the dict itself is in the field (in
Python, `op.externalDocs['url']` instead of `op.externalDocs.url`), although the standard has an
External Documentation Object there and the one of a tag is read as such. -/
theorem C84_operation_docs_false (v : Tree) (d : Dict Str Tree) (hd : Dict.get? d c!"externalDocs" = some v)
    (x : Tree) (hx : Reads .operation (.dict d) x) :
    ∃ fs, x = .obj cOperation fs ∧ Dict.get? fs c!"externalDocs" = some v ∧
      (c!"externalDocs", Holds.one .externalDocs) ∈ fields .operation := by
  obtain ⟨fs, rfl, _, hplain⟩ := C42.C42_fields (number .operation) d x hx
  refine ⟨fs, rfl, ?_, by simp [fields]⟩
  have := hplain c!"externalDocs" (.atom .none) (by decide +kernel) (by decide +kernel)
  rw [this, hd]; rfl

/-- a path item with a `head` operation is read with this operation -/
example : ∃ x, Reads .pathItem
    (.dict [(c!"head", .dict [(c!"operationId", .atom (.str c!"f"))])]) x ∧
    ∀ fs, x = .obj cPathItem fs → ∃ os, Dict.get? fs c!"head" = some (.obj cOperation os) ∧
      Dict.get? os c!"operationId" = some (.atom (.str c!"f")) ∧
      Dict.get? os c!"deprecated" = some (.atom (.bool false)) := by
  refine ⟨_, rfl, fun fs h => ?_⟩
  cases h
  exact ⟨_, rfl, rfl, rfl⟩

/-- a document whose paths are a list is not read -/
example : ¬ ∃ x, Reads .swagger (.dict [(c!"paths", .list [])]) x := by
  rintro ⟨x, h⟩; cases h

end Props.C84
