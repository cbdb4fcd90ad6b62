import Verif.Spec.Pointed
import Verif.Spec.Aggregate
/-!
# What a schema of a document is composed of (C94)

Said about the dicts written in the document and their places.
-/

namespace Spec.Composed
open Py Tree _root_.Doc Spec.Pointed

/-- following references from the schema at `ts` ends at the one at `us` -/
inductive Leads (D : Tree) (url : Str) : List Str → List Str → Prop
  | here {ts q} : Written D ts cSchema q → Dict.get? q c!"$ref" = none → Leads D url ts ts
  | step {ts q r us vs} : Written D ts cSchema q → Dict.get? q c!"$ref" = some (.atom (.str r)) → Names url r us →
      Leads D url us vs → Leads D url ts vs

/-- the schema at `us` is listed in `allOf` of the one at `ts`, itself or by reference -/
def Lists (D : Tree) (url : Str) (ts us : List Str) : Prop := ∃ q l i, Written D ts cSchema q ∧
  Dict.get? q c!"allOf" = some (.list l) ∧ i < l.length ∧ Leads D url (ts ++ [c!"allOf", natStr i]) us

/-- the schema at `us` is one of the parts of the one at `ts`, directly or through other parts -/
inductive Part (D : Tree) (url : Str) (ts : List Str) : List Str → Prop
  | direct {us} : Lists D url ts us → Part D url ts us
  | next {us vs} : Part D url ts us → Lists D url us vs → Part D url ts vs

/-- the schema itself or one of its parts -/
def Within (D : Tree) (url : Str) (ts us : List Str) : Prop := us = ts ∨ Part D url ts us

/-- the schema at `ts` has a property `n` -/
def Defines (D : Tree) (ts : List Str) (n : Str) : Prop := ∃ q d, Written D ts cSchema q ∧
  Dict.get? q c!"properties" = some (.dict d) ∧ n ∈ Dict.keys d

/-- the schema at `ts` has items -/
def HasItems (D : Tree) (ts : List Str) : Prop := ∃ q, Written D (ts ++ [c!"items"]) cSchema q

/-- the fields of a schema with a plain value -/
def plainFields : List Str := [c!"maxProperties", c!"minProperties", c!"required", c!"title", c!"description",
  c!"discriminator", c!"readOnly", c!"example", c!"type", c!"format", c!"default", c!"maximum", c!"exclusiveMaximum", c!"minimum",
  c!"exclusiveMinimum", c!"maxLength", c!"minLength", c!"maxItems", c!"minItems", c!"multipleOf", c!"enum", c!"pattern",
  c!"uniqueItems"]

/-- the schema at `ts` says `t` in the field `n`; a null says nothing, nor does an empty list of required properties -/
def Says (D : Tree) (ts : List Str) (n : Str) (t : Tree) : Prop := ∃ q, Written D ts cSchema q ∧ n ∈ plainFields ∧
  Dict.get? q n = some t ∧ ¬ (n ≠ c!"required" ∧ t = .atom .none) ∧ ¬ (n = c!"required" ∧ t = .list [])

/-- what a schema and its parts say in a field is of one kind: scalars, lists or dicts -/
def Matching (D : Tree) (url : Str) : Prop := ∀ ts us vs n t u, Within D url ts us → Within D url ts vs → Says D us n t → Says D vs n u →
  Aggregate.Alike t u

end Spec.Composed
