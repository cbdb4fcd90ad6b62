import Verif.Model.Tree
import Mathlib.Data.List.Forall2
/-!
# The objects of the Swagger 2.0 standard (C84)

Written after the standard ("Swagger RESTful API Documentation Specification", version 2.0, section
"Schema"), in its order, not after the library. For every object of the standard: its fixed fields,
and what each of them holds. Vendor extensions (`x-…`) are not fixed fields. The wrappers that only
consist of named entries (Paths, Responses, Headers, Definitions, …) are given by what the entries
hold. Security requirements, scopes and examples are plain values.
-/

namespace Spec.Swagger20
open Py Tree

/-- the objects of the standard -/
inductive Ob
  | swagger | info | contact | license | pathItem | operation | externalDocs | parameter | items
  | response | header | tag | schema | xml | securityScheme
  deriving DecidableEq

/-- What a field holds: a plain value, with the value an absent one is read as; an object; a list of
objects; objects by name; a bool or an object. -/
inductive Holds
  | value (absent : Tree)
  | one (o : Ob)
  | many (o : Ob)
  | byName (o : Ob)
  | flagOr (o : Ob)

def null : Tree := .atom .none

/-- plain values without a default in the standard -/
def plain (l : List String) : List (Str × Holds) := l.map fun n => (n.toList, .value null)

/-- the validation keywords shared by the Parameter, Items, Header and Schema Objects -/
def restrictions : List (Str × Holds) :=
  plain ["default", "maximum", "exclusiveMaximum", "minimum", "exclusiveMinimum", "maxLength",
    "minLength", "pattern", "maxItems", "minItems", "uniqueItems", "enum", "multipleOf"]

/-- `collectionFormat`, "default value is csv" -/
def listed : List (Str × Holds) := [(c!"collectionFormat", .value (.atom (.str c!"csv")))]

/-- The fixed fields of an object. Absent lists of texts (`consumes`, `produces`, `schemes`, and
`required` of a schema) are read as empty lists. -/
def fields : Ob → List (Str × Holds)
  | .swagger =>
    plain ["swagger", "host", "basePath", "security"]
      ++ [(c!"info", .one .info), (c!"schemes", .value (.list [])), (c!"consumes", .value (.list [])),
        (c!"produces", .value (.list [])), (c!"paths", .byName .pathItem),
        (c!"definitions", .byName .schema), (c!"parameters", .byName .parameter),
        (c!"responses", .byName .response), (c!"securityDefinitions", .byName .securityScheme),
        (c!"tags", .many .tag), (c!"externalDocs", .one .externalDocs)]
  | .info =>
    plain ["title", "description", "termsOfService", "version"]
      ++ [(c!"contact", .one .contact), (c!"license", .one .license)]
  | .contact => plain ["name", "url", "email"]
  | .license => plain ["name", "url"]
  | .pathItem =>
    plain ["$ref"]
      ++ [(c!"get", .one .operation), (c!"put", .one .operation), (c!"post", .one .operation),
        (c!"delete", .one .operation), (c!"options", .one .operation), (c!"head", .one .operation),
        (c!"patch", .one .operation), (c!"parameters", .many .parameter)]
  | .operation =>
    plain ["tags", "summary", "description", "operationId", "security"]
      ++ [(c!"externalDocs", .one .externalDocs), (c!"consumes", .value (.list [])),
        (c!"produces", .value (.list [])), (c!"parameters", .many .parameter),
        (c!"responses", .byName .response), (c!"schemes", .value (.list [])),
        (c!"deprecated", .value (.atom (.bool false)))]
  | .externalDocs => plain ["description", "url"]
  | .parameter =>
    plain ["$ref", "name", "in", "description", "required", "type", "format"]
      ++ [(c!"schema", .one .schema), (c!"allowEmptyValue", .value (.atom (.bool false))),
        (c!"items", .one .items)] ++ listed ++ restrictions
  | .items => plain ["type", "format"] ++ [(c!"items", .one .items)] ++ listed ++ restrictions
  | .response =>
    plain ["$ref", "description", "examples"]
      ++ [(c!"schema", .one .schema), (c!"headers", .byName .header)]
  | .header =>
    plain ["description", "type", "format"] ++ [(c!"items", .one .items)] ++ listed ++ restrictions
  | .tag => plain ["name", "description"] ++ [(c!"externalDocs", .one .externalDocs)]
  | .schema =>
    plain ["$ref", "format", "title", "description", "maxProperties", "minProperties", "type"]
      ++ restrictions
      ++ [(c!"required", .value (.list [])), (c!"items", .one .schema), (c!"allOf", .many .schema),
        (c!"properties", .byName .schema), (c!"additionalProperties", .flagOr .schema)]
      ++ plain ["discriminator", "readOnly", "example"]
      ++ [(c!"xml", .one .xml), (c!"externalDocs", .one .externalDocs)]
  | .xml => plain ["name", "namespace", "prefix", "attribute", "wrapped"]
  | .securityScheme =>
    plain ["type", "description", "name", "in", "flow", "authorizationUrl", "tokenUrl", "scopes"]

/-- The field of an object of the standard that the library keeps as a plain value. -/
def Unread (o : Ob) (n : Str) : Prop := o = .operation ∧ n = c!"externalDocs"

instance (o : Ob) (n : Str) : Decidable (Unread o n) := inferInstanceAs (Decidable (_ ∧ _))

/-- What a field is read as, given what the document has there (`none` if nothing) and how objects
are read (`rd`). A plain value is read as it stands. No object is `None`, no list and no named
objects are empty, and so is a null. An object is read from a dict, a list of objects from a list
(or from an empty text or dict), named objects from a dict. -/
inductive ReadAs (rd : Ob → Tree → Tree → Prop) : Holds → Option Tree → Tree → Prop
  | absent {a} : ReadAs rd (.value a) none a
  | value {a v} : ReadAs rd (.value a) (some v) v
  | noObject {o} : ReadAs rd (.one o) none null
  | nullObject {o} : ReadAs rd (.one o) (some null) null
  | object {o d x} : rd o (.dict d) x → ReadAs rd (.one o) (some (.dict d)) x
  | noList {o} : ReadAs rd (.many o) none (.list [])
  | nullList {o} : ReadAs rd (.many o) (some null) (.list [])
  | emptyText {o} : ReadAs rd (.many o) (some (.atom (.str []))) (.list [])
  | emptyDict {o} : ReadAs rd (.many o) (some (.dict [])) (.list [])
  | list {o l xs} : List.Forall₂ (rd o) l xs → ReadAs rd (.many o) (some (.list l)) (.list xs)
  | noNames {o} : ReadAs rd (.byName o) none (.dict [])
  | nullNames {o} : ReadAs rd (.byName o) (some null) (.dict [])
  | names {o d xs} : List.Forall₂ (fun a b => b.1 = a.1 ∧ rd o a.2 b.2) d xs →
      ReadAs rd (.byName o) (some (.dict d)) (.dict xs)
  | noFlag {o} : ReadAs rd (.flagOr o) none (.atom (.bool true))
  | nullFlag {o} : ReadAs rd (.flagOr o) (some null) null
  | flag {o b} : ReadAs rd (.flagOr o) (some (.atom (.bool b))) (.atom (.bool b))
  | either {o d x} : rd o (.dict d) x → ReadAs rd (.flagOr o) (some (.dict d)) x

end Spec.Swagger20
