import Verif.Spec.SchemaDoc
import Verif.Spec.Range
/-!
# When a JSON value conforms to a schema of a document (C79)

The keywords of Swagger 2.0 as JSON Schema (draft 4) defines them, said about the dicts written in the document:
`$ref`, `type`, `format`, `enum`, limits of numbers, texts and arrays, `items`, `uniqueItems`, `required`, `properties`,
`additionalProperties`, and `allOf` of objects (within reach nothing else has parts). `form f s` says that the text `s` is of the format `f`. Nothing of the library is mentioned.
-/

namespace Spec.Conform
open Py Tree Spec.Described Spec.SchemaDoc

/-- the text written under a key -/
def textAt (q : Dict Str Tree) (n : Str) : Option Str :=
  match Dict.get? q n with
  | some (.atom (.str s)) => some s
  | _ => none

/-- the number written under a key -/
def numberAt (q : Dict Str Tree) (n : Str) : Option Rat :=
  match Dict.get? q n with
  | some (.atom (.int k)) => some k
  | some (.atom (.float (.fin r))) => some r
  | _ => none

/-- the length written under a key -/
def lengthAt (q : Dict Str Tree) (n : Str) : Option Nat :=
  match Dict.get? q n with
  | some (.atom (.int k)) => if 0 ≤ k then some k.toNat else none
  | _ => none

/-- `true` is written under a key -/
def On (q : Dict Str Tree) (n : Str) : Prop := Dict.get? q n = some (.atom (.bool true))

/-- the number lies within the limits -/
structure Fits (q : Dict Str Tree) (r : Rat) : Prop where
  max : ∀ m, numberAt q c!"maximum" = some m → r ≤ m ∧ (On q c!"exclusiveMaximum" → r ≠ m)
  min : ∀ m, numberAt q c!"minimum" = some m → m ≤ r ∧ (On q c!"exclusiveMinimum" → m ≠ r)
  multiple : ∀ m, numberAt q c!"multipleOf" = some m → m ≠ 0 → MultipleOf m r

/-- the value is one of those listed, if any are -/
def Allowed (q : Dict Str Tree) (v : Val) : Prop :=
  listAt q c!"enum" = [] ∨ ∃ t ∈ listAt q c!"enum", (∀ c fs, t ≠ .obj c fs) ∧ Value t v

/-- a length lies within the limits under two keys -/
def Sized (q : Dict Str Tree) (lo hi : Str) (k : Nat) : Prop :=
  (∀ m, lengthAt q lo = some m → m ≤ k) ∧ ∀ m, lengthAt q hi = some m → k ≤ m

/-- the number a value is -/
def Numeral (v : Val) (r : Rat) : Prop := v = .float (.fin r) ∨ ∃ n : Int, v = .int n ∧ r = n

/-- a property must be there -/
def Required (q : Dict Str Tree) (k : Str) : Prop := .atom (.str k) ∈ listAt q c!"required"

/-- The value conforms to the schema. `nullable` decides if null conforms to everything. -/
inductive Conforms (look : Str → Option (Dict Str Tree)) (form : Str → Str → Prop) (nullable : Prop) :
    Dict Str Tree → Val → Prop
  | null {q} : nullable → Conforms look form nullable q .none
  | integer {q d n} : Leads look q d → textAt d c!"type" = some c!"integer" → Fits d (n : Int) → Allowed d (.int n) →
      Conforms look form nullable q (.int n)
  | number {q d v r} : Leads look q d → textAt d c!"type" = some c!"number" → Numeral v r → Fits d r → Allowed d v →
      Conforms look form nullable q v
  | boolean {q d b} : Leads look q d → textAt d c!"type" = some c!"boolean" → Allowed d (.bool b) →
      Conforms look form nullable q (.bool b)
  | string {q d s} : Leads look q d → textAt d c!"type" = some c!"string" → Allowed d (.str s) →
      Sized d c!"minLength" c!"maxLength" s.length → (∀ f, textAt d c!"format" = some f → form f s) →
      Conforms look form nullable q (.str s)
  | array {q d i vs} : Leads look q d → textAt d c!"type" = some c!"array" → Dict.get? d c!"items" = some (.dict i) →
      (∀ v ∈ vs, Conforms look form nullable i v) → Sized d c!"minItems" c!"maxItems" vs.length →
      (On d c!"uniqueItems" → vs.Nodup) → Allowed d (.list vs) → Conforms look form nullable q (.list vs)
  | object {q d es} : Leads look q d → textAt d c!"type" = none ∨ textAt d c!"type" = some c!"object" → Dict.WF es →
      (∀ k, Required d k → ∃ v, Dict.get? es k = some v) →
      (∀ k v s, Dict.get? es k = some v → propertyAt d k = some (.dict s) → Conforms look form nullable s v) →
      (∀ k v s, Dict.get? es k = some v → propertyAt d k = none →
        Dict.get? d c!"additionalProperties" = some (.dict s) → Conforms look form nullable s v) →
      (∀ k v, Dict.get? es k = some v → propertyAt d k = none →
        Dict.get? d c!"additionalProperties" ≠ some (.atom (.bool false))) →
      Allowed d (.dict es) → (∀ s, .dict s ∈ listAt d c!"allOf" → Conforms look form nullable s (.dict es)) →
      Conforms look form nullable q (.dict es)

/-! ## the schemas within reach -/

/-- `false`, null or nothing is written under a key -/
def Off (q : Dict Str Tree) (n : Str) : Prop :=
  Dict.get? q n = none ∨ Dict.get? q n = some (.atom .none) ∨ Dict.get? q n = some (.atom (.bool false))

/-- formats of texts that are built as objects -/
def built (f : Str) : Bool := f = c!"uuid" || f = c!"byte" || f = c!"binary" || f = c!"date" || f = c!"date-time"

/-- what is said about additional properties -/
inductive Further (d : Dict Str Tree) : Prop
  | nothing : Dict.get? d c!"additionalProperties" = none → Further d
  | bool {b} : Dict.get? d c!"additionalProperties" = some (.atom (.bool b)) → Further d
  | schema {s} : Dict.get? d c!"additionalProperties" = some (.dict s) → Further d

/-- a type, without the keywords the library does not look at for the type, or treats differently (the refutations
beside C33-C36 show why) -/
inductive Plainly (d : Dict Str Tree) : Prop
  | integer : textAt d c!"type" = some c!"integer" → listAt d c!"enum" = [] → numberAt d c!"multipleOf" = none →
      Plainly d
  | number : textAt d c!"type" = some c!"number" → listAt d c!"enum" = [] →
      (textAt d c!"format" = some c!"int32" ∨ textAt d c!"format" = some c!"int64" →
        numberAt d c!"multipleOf" = none) → Plainly d
  | boolean : textAt d c!"type" = some c!"boolean" → listAt d c!"enum" = [] → Plainly d
  | string : textAt d c!"type" = some c!"string" → (∀ f, textAt d c!"format" = some f → built f = false) →
      lengthAt d c!"maxLength" ≠ some 0 → Plainly d
  | built {f} : textAt d c!"type" = some c!"string" → textAt d c!"format" = some f → built f = true →
      listAt d c!"enum" = [] → lengthAt d c!"maxLength" = none → lengthAt d c!"minLength" = none → Plainly d
  | array {i} : textAt d c!"type" = some c!"array" → Dict.get? d c!"items" = some (.dict i) →
      listAt d c!"enum" = [] → Off d c!"uniqueItems" → lengthAt d c!"maxItems" ≠ some 0 → Plainly d
  | object : textAt d c!"type" = some c!"object" ∨ textAt d c!"type" = none ∧
        (Dict.get? d c!"additionalProperties" ≠ some (.atom (.bool false)) ∨ ∃ k s, propertyAt d k = some (.dict s)) →
      (∀ k t, propertyAt d k = some t → ∃ s, t = .dict s) → Further d → listAt d c!"enum" = [] → Plainly d

/-- a schema for objects -/
def Objectlike (d : Dict Str Tree) : Prop := textAt d c!"type" = none ∨ textAt d c!"type" = some c!"object"

/-- the schema and the parts of its `allOf` -/
inductive Member (look : Str → Option (Dict Str Tree)) (d : Dict Str Tree) : Dict Str Tree → Prop
  | self : Member look d d
  | part {s e} : .dict s ∈ listAt d c!"allOf" → Leads look s e → Member look d e

/-- An object schema with parts, within reach: no parts of parts (they are not looked at), any additional property is
welcome, a property two of them declare is declared alike. A model that stays empty before the parts are applied is
treated differently, so either a property of its own is required, or there is one part. -/
structure Composed (look : Str → Option (Dict Str Tree)) (d : Dict Str Tree) : Prop where
  dicts : ∀ t ∈ listAt d c!"allOf", ∃ s, t = .dict s
  flat : ∀ s e, .dict s ∈ listAt d c!"allOf" → Leads look s e → listAt e c!"allOf" = [] ∧ Objectlike e
  further : ∀ e, Member look d e → Dict.get? e c!"additionalProperties" = none ∨ On e c!"additionalProperties"
  alike : ∀ e e' k t t', Member look d e → Member look d e' → propertyAt e k = some t → propertyAt e' k = some t' → t = t'
  kept : (∃ k s, Required d k ∧ propertyAt d k = some (.dict s)) ∨ ∃ t, listAt d c!"allOf" = [t]

/-- a schema every text conforms to -/
structure AnyText (d : Dict Str Tree) : Prop where
  type : textAt d c!"type" = some c!"string"
  format : textAt d c!"format" = none
  enum : listAt d c!"enum" = []
  lengths : lengthAt d c!"minLength" = none ∧ lengthAt d c!"maxLength" = none

/-- a schema within reach -/
structure Simple (d : Dict Str Tree) : Prop where
  parts : listAt d c!"allOf" = [] ∨ Objectlike d
  exclusive : (On d c!"exclusiveMaximum" ∨ Off d c!"exclusiveMaximum") ∧
    (On d c!"exclusiveMinimum" ∨ Off d c!"exclusiveMinimum")
  plainly : Plainly d

/-- a set of schemas closed under everything a schema mentions -/
structure Closed (look : Str → Option (Dict Str Tree)) (S : Dict Str Tree → Prop) : Prop where
  simple : ∀ q, S q → refAt q = none → Simple q
  ref : ∀ q r d, S q → refAt q = some r → look r = some d → S d
  items : ∀ q d, S q → refAt q = none → Dict.get? q c!"items" = some (.dict d) → S d
  property : ∀ q k d, S q → refAt q = none → propertyAt q k = some (.dict d) → S d
  further : ∀ q d, S q → refAt q = none → Dict.get? q c!"additionalProperties" = some (.dict d) → S d
  part : ∀ q d, S q → refAt q = none → .dict d ∈ listAt q c!"allOf" → S d
  composed : ∀ q, S q → refAt q = none → listAt q c!"allOf" ≠ [] → Composed look q
  tag : ∀ q k, S q → refAt q = none → textAt q c!"discriminator" = some k →
    ∃ s e, propertyAt q k = some (.dict s) ∧ Leads look s e ∧ AnyText e

mutual
/-- a Python value as it can be: the keys of a dict are distinct; without `None` unless `nullable` -/
def Proper (nullable : Prop) : Val → Prop
  | .none => nullable
  | .list l => Propers nullable l
  | .dict d => (d.map Prod.fst).Nodup ∧ ProperPairs nullable d
  | _ => True
def Propers (nullable : Prop) : List Val → Prop
  | [] => True
  | v :: l => Proper nullable v ∧ Propers nullable l
def ProperPairs (nullable : Prop) : List (Str × Val) → Prop
  | [] => True
  | (_, v) :: d => Proper nullable v ∧ ProperPairs nullable d
end

mutual
/-- the same of a default value written in a document -/
def ProperTree (nullable : Prop) : Tree → Prop
  | .atom .none => nullable
  | .atom _ => True
  | .list l => ProperTrees nullable l
  | .dict d => (d.map Prod.fst).Nodup ∧ ProperFields nullable d
  | .obj _ _ => False
def ProperTrees (nullable : Prop) : List Tree → Prop
  | [] => True
  | t :: l => ProperTree nullable t ∧ ProperTrees nullable l
def ProperFields (nullable : Prop) : List (Str × Tree) → Prop
  | [] => True
  | (_, t) :: d => ProperTree nullable t ∧ ProperFields nullable d
end

/-- defaults are null or proper -/
def Defaults (nullable : Prop) (q : Dict Str Tree) : Prop :=
  ∀ t, Dict.get? q c!"default" = some t → t = .atom .none ∨ ProperTree nullable t

/-- the same JSON value: the order of the entries of an object and the spelling of a number do not matter -/
inductive Same : Val → Val → Prop
  | refl (v) : Same v v
  | number {v w r} : Numeral v r → Numeral w r → Same v w
  | list {l m : List Val} : l.length = m.length →
      (∀ (i : Nat) v w, l[i]? = some v → m[i]? = some w → Same v w) → Same (.list l) (.list m)
  | dict {d e : List (Str × Val)} : Dict.WF d → Dict.WF e → (∀ k, Dict.get? d k = none ↔ Dict.get? e k = none) →
      (∀ k v w, Dict.get? d k = some v → Dict.get? e k = some w → Same v w) → Same (.dict d) (.dict e)

end Spec.Conform
