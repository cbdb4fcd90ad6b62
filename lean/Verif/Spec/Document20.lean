import Verif.Spec.Listing12
import Mathlib.Data.List.Forall2
/-!
# What a 2.0 document says (C87)

Relations between the dicts of JSON, written after the Swagger 2.0 standard, and the records that an upgraded document
is given by. Shared with the models: these records.
-/

namespace Spec.Document20
open Py Tree Upgrade Spec.Service Spec.Swagger12 Spec.Listing12

/-- nothing but these keys is written -/
def Only (q : Dict Str Tree) (ns : List Str) : Prop := ∀ n, Dict.get? q n ≠ none → n ∈ ns

/-- one object under the key, or nothing -/
def One {α : Type} (R : Dict Str Tree → α → Prop) (q : Dict Str Tree) (n : Str) : Option α → Prop
  | some a => ∃ d, Dict.get? q n = some (.dict d) ∧ R d a
  | none => Dict.get? q n = none

/-- the objects of a list; nothing is the empty list -/
def Each {α : Type} (R : Dict Str Tree → α → Prop) (q : Dict Str Tree) (n : Str) (l : List α) : Prop :=
  ∃ ts, (Dict.get? q n).getD (.list []) = .list ts ∧ List.Forall₂ (fun t a => ∃ d, t = .dict d ∧ R d a) ts l

/-- the objects of a dict; nothing is the empty dict -/
def Under {α : Type} (R : Dict Str Tree → α → Prop) (q : Dict Str Tree) (n : Str) (d : Dict Str α) : Prop :=
  ∃ ts, (Dict.get? q n).getD (.dict []) = .dict ts ∧
    List.Forall₂ (fun t e => t.1 = e.1 ∧ ∃ d, t.2 = .dict d ∧ R d e.2) ts d

/-- the items of an array: a Schema Object -/
structure SchemaItemsIn (q : Dict Str Tree) (i : SchemaItems) : Prop where
  type : Maybe q c!"type" i.type
  ref : Maybe q c!"$ref" i.ref
  format : Maybe q c!"format" i.format
  only : Only q [c!"type", c!"$ref", c!"format"]

/-- Schema Object of a data type -/
structure SchemaIn (q : Dict Str Tree) (s : Schema) : Prop where
  type : Maybe q c!"type" s.type
  ref : Maybe q c!"$ref" s.ref
  format : Maybe q c!"format" s.format
  default : Value q c!"default" s.default
  minimum : Value q c!"minimum" s.minimum
  maximum : Value q c!"maximum" s.maximum
  unique : Value q c!"uniqueItems" s.uniqueItems
  enum : Value q c!"enum" s.enum
  items : One SchemaItemsIn q c!"items" s.items
  description : Value q c!"description" s.description
  only : Only q [c!"type", c!"$ref", c!"format", c!"default", c!"minimum", c!"maximum", c!"uniqueItems", c!"enum", c!"items",
    c!"description"]

/-- Schema Object of a reference -/
def RefIn (q : Dict Str Tree) (r : Str) : Prop := Dict.get? q c!"$ref" = some (text r) ∧ Only q [c!"$ref"]

/-- Schema Object of a model -/
structure DefinitionIn (q : Dict Str Tree) (d : Definition) : Prop where
  properties : Under SchemaIn q c!"properties" d.properties
  required : Spec.Described.Value ((Dict.get? q c!"required").getD (.list [])) d.required
  discriminator : Value q c!"discriminator" d.discriminator
  description : Value q c!"description" d.description
  allOf : Each RefIn q c!"allOf" d.allOf
  only : Only q [c!"properties", c!"required", c!"discriminator", c!"description", c!"allOf"]

/-- Items Object -/
structure Items20In (q : Dict Str Tree) (i : Items20) : Prop where
  type : Maybe q c!"type" i.type
  format : Maybe q c!"format" i.format
  enum : Value q c!"enum" i.enum
  only : Only q [c!"type", c!"format", c!"enum"]

/-- Parameter Object; the format of collections is `csv` if there is none -/
structure Param20In (q : Dict Str Tree) (p : Param20) : Prop where
  name : Maybe q c!"name" p.name
  required : Value q c!"required" p.required
  description : Value q c!"description" p.description
  «in» : Maybe q c!"in" p.in
  schema : One SchemaIn q c!"schema" p.schema
  type : Maybe q c!"type" p.type
  format : Maybe q c!"format" p.format
  default : Value q c!"default" p.default
  minimum : Value q c!"minimum" p.minimum
  maximum : Value q c!"maximum" p.maximum
  enum : Value q c!"enum" p.enum
  unique : Value q c!"uniqueItems" p.uniqueItems
  collectionFormat : (Dict.get? q c!"collectionFormat").getD (text c!"csv") = text p.collectionFormat
  items : One Items20In q c!"items" p.items
  only : Only q [c!"name", c!"required", c!"description", c!"in", c!"schema", c!"type", c!"format", c!"default", c!"minimum",
    c!"maximum", c!"enum", c!"uniqueItems", c!"collectionFormat", c!"items"]

/-- Operation Object -/
structure OperationIn (q : Dict Str Tree) (o : Op20) : Prop where
  tags : Texts q c!"tags" o.tags
  id : Maybe q c!"operationId" (some o.operationId)
  summary : Value q c!"summary" o.summary
  description : Value q c!"description" o.description
  deprecated : (Dict.get? q c!"deprecated").getD (.atom (.bool false)) = .atom (.bool o.deprecated)
  consumes : Texts q c!"consumes" o.consumes
  produces : Texts q c!"produces" o.produces
  parameters : Each Param20In q c!"parameters" o.parameters
  security : ∃ ts, Dict.get? q c!"security" = some (.list ts) ∧
    List.Forall₂ (fun t e => ∃ vs, t = .dict [(e.1, .list vs)] ∧ Spec.Described.Values vs e.2) ts o.security
  responses : ∃ rq, Dict.get? q c!"responses" = some (.dict [(c!"default", .dict rq)]) ∧ One SchemaIn rq c!"schema" o.response ∧
    Only rq [c!"schema"]
  only : Only q [c!"tags", c!"operationId", c!"summary", c!"description", c!"deprecated", c!"consumes", c!"produces", c!"parameters",
    c!"security", c!"responses"]

/-- Path Item Object: operations by method -/
def PathIn (q : Dict Str Tree) (ops : Dict Str Op20) : Prop := ∀ m, One OperationIn q m (Dict.get? ops m)

/-- Security Scheme Object -/
structure SchemeIn (q : Dict Str Tree) (s : Scheme20) : Prop where
  type : Maybe q c!"type" s.type
  scopes : ∃ ts, Dict.get? q c!"scopes" = some (.dict ts) ∧ Spec.Described.Pairs ts s.scopes
  authorizationUrl : Value q c!"authorizationUrl" s.authorizationUrl
  tokenUrl : Value q c!"tokenUrl" s.tokenUrl
  flow : Maybe q c!"flow" s.flow
  name : Value q c!"name" s.name
  «in» : Value q c!"in" s.in
  only : Only q [c!"type", c!"scopes", c!"authorizationUrl", c!"tokenUrl", c!"flow", c!"name", c!"in"]

/-- Info Object -/
structure Info20In (q : Dict Str Tree) (i : Info20) : Prop where
  version : Value q c!"version" i.version
  title : Value q c!"title" i.title
  description : Value q c!"description" i.description
  terms : Value q c!"termsOfService" i.termsOfService
  contact : One (fun d v => Value d c!"email" v ∧ Only d [c!"email"]) q c!"contact" i.contact
  license : One (fun d v => Value d c!"name" v.1 ∧ Value d c!"url" v.2 ∧ Only d [c!"name", c!"url"]) q c!"license" i.license
  only : Only q [c!"version", c!"title", c!"description", c!"termsOfService", c!"contact", c!"license"]

/-- Swagger Object -/
structure DocumentIn (q : Dict Str Tree) (s : Swagger) : Prop where
  version : Maybe q c!"swagger" (some c!"2.0")
  info : One Info20In q c!"info" (some s.info)
  host : Maybe q c!"host" (some s.host)
  basePath : Maybe q c!"basePath" (some [])
  schemes : Texts q c!"schemes" s.schemes
  tags : Each (fun d t => Dict.get? d c!"name" = some (text t) ∧ Only d [c!"name"]) q c!"tags" s.tags
  definitions : Under DefinitionIn q c!"definitions" s.definitions
  paths : Under PathIn q c!"paths" s.paths
  securityDefinitions : Under SchemeIn q c!"securityDefinitions" s.securityDefinitions
  security : Dict.get? q c!"security" = some (.list [])
  parameters : Dict.get? q c!"parameters" = some (.dict [])
  responses : Dict.get? q c!"responses" = some (.dict [])
  only : Only q [c!"info", c!"swagger", c!"schemes", c!"host", c!"basePath", c!"tags", c!"definitions", c!"parameters",
    c!"responses", c!"paths", c!"security", c!"securityDefinitions"]

end Spec.Document20
