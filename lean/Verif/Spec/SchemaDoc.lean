import Verif.Spec.Described
/-!
# What a schema in a JSON document says (C78)

As `Spec/Described.lean`: everything is said about the dicts written in the document.
-/

namespace Spec.SchemaDoc
open Py Tree _root_.Doc Prim Spec.Described

variable {ω : Type}

/-- the reference written in a dict -/
def refAt (q : Dict Str Tree) : Option Str :=
  match Dict.get? q c!"$ref" with
  | some (.atom (.str (c :: s))) => some (c :: s)
  | _ => none

/-- a property declared by a dict -/
def propertyAt (q : Dict Str Tree) (k : Str) : Option Tree :=
  match Dict.get? q c!"properties" with
  | some (.dict ps) => Dict.get? ps k
  | _ => none

/-- the elements of the list written under a key -/
def listAt (q : Dict Str Tree) (n : Str) : List Tree :=
  match Dict.get? q n with
  | some (.list l) => l
  | _ => []

/-- the elements written, all in order; or (a copy of a list of scalars) each once in any order -/
def Elements (l m : List Tree) : Prop := m = l ∨ Spec.Merge.Joined [] l m

/-- the default value: null counts as none -/
def DefaultIs (q : Dict Str Tree) (v : Val) (set : Bool) : Prop :=
  match Dict.get? q c!"default" with
  | none => set = false ∧ v = .none
  | some (.atom .none) => set = false ∧ v = .none
  | some (.list l) => set = true ∧ ∃ m vs, v = .list vs ∧ Values m vs ∧ Elements l m
  | some t => set = true ∧ Value t v

/-- the values allowed -/
def EnumIs (q : Dict Str Tree) (vs : List Val) : Prop := ∃ m, Values m vs ∧ Elements (listAt q c!"enum") m

/-- what a conversion reads from a schema object, other objects aside -/
structure Facts (q : Dict Str Tree) (a : Node) : Prop where
  type : Text q c!"type" a.type
  format : Text q c!"format" a.format
  default : DefaultIs q a.default a.defaultSet
  maximum : Number q c!"maximum" a.maximum
  exclusiveMaximum : Switch q c!"exclusiveMaximum" a.exclusiveMaximum
  minimum : Number q c!"minimum" a.minimum
  exclusiveMinimum : Switch q c!"exclusiveMinimum" a.exclusiveMinimum
  maxLength : Length q c!"maxLength" a.maxLength
  minLength : Length q c!"minLength" a.minLength
  maxItems : Length q c!"maxItems" a.maxItems
  minItems : Length q c!"minItems" a.minItems
  multipleOf : ∃ x, Number q c!"multipleOf" x ∧ a.multipleOf = x.getD 0
  enum : EnumIs q a.enum
  uniqueItems : Switch q c!"uniqueItems" a.uniqueItems
  collectionFormat : a.collectionFormat = none
  isSchema : a.isSchema = true
  required : ∀ s, s ∈ a.required ↔ .atom (.str s) ∈ listAt q c!"required"
  discriminator : Text q c!"discriminator" a.discriminator
  readOnly : Switch q c!"readOnly" a.readOnly

/-- What the object `n` has to be to be what the dict `q` says: `R m d` says that the object `m` belongs to the dict
`d`, `look r` is the dict the reference `r` leads to. Nulls in place of properties and parts are left
open. -/
structure Says (env : Env ω) (look : Str → Option (Dict Str Tree)) (R : Nat → Dict Str Tree → Prop) (n : Nat)
    (q : Dict Str Tree) : Prop where
  facts : Facts q (env.node n)
  named : (env.node n).name ≠ none
  noItems : Dict.get? q c!"items" = none ∨ Dict.get? q c!"items" = some (.atom .none) → (env.node n).items = none
  items : ∀ d, Dict.get? q c!"items" = some (.dict d) → ∃ m, (env.node n).items = some m ∧ R m d
  noProperty : ∀ k, propertyAt q k = none → Dict.get? (env.node n).properties k = none
  property : ∀ k d, propertyAt q k = some (.dict d) → ∃ m, Dict.get? (env.node n).properties k = some m ∧ R m d
  parts : (env.node n).allOf.length = (listAt q c!"allOf").length
  part : ∀ (i : Nat) d, (listAt q c!"allOf")[i]? = some (.dict d) → ∃ m, (env.node n).allOf[i]? = some m ∧ R m d
  anyFurther : Dict.get? q c!"additionalProperties" = none → (env.node n).additional = .yes
  noFurther : Dict.get? q c!"additionalProperties" = some (.atom .none) → (env.node n).additional = .no
  further : ∀ b, Dict.get? q c!"additionalProperties" = some (.atom (.bool b)) →
    (env.node n).additional = if b then .yes else .no
  furtherSchema : ∀ d, Dict.get? q c!"additionalProperties" = some (.dict d) →
    ∃ m, (env.node n).additional = .schema m ∧ R m d
  noRef : refAt q = none → env.deref n = .ok n
  ref : ∀ r, refAt q = some r → ∃ m d, look r = some d ∧ R m d ∧ ∀ i, env.deref n = .ok i ↔ env.deref m = .ok i

/-- from dict to dict along references, to a dict that is none -/
inductive Leads (look : Str → Option (Dict Str Tree)) : Dict Str Tree → Dict Str Tree → Prop
  | stop {q} : refAt q = none → Leads look q q
  | go {q r d e} : refAt q = some r → look r = some d → Leads look d e → Leads look q e

end Spec.SchemaDoc
