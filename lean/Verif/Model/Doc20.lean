import Verif.Model.Doc
/-!
# The classes of Swagger 2.0

`pyswagger/spec/v2_0/objects.py` (fields and defaults; the fields of `BaseSchema`, 31-48, are added
to the classes derived from it by `FieldMeta`, `pyswagger/spec/base.py`:484-525) and
`pyswagger/spec/v2_0/parser.py` (`__swagger_child__`). `FieldMeta` appends inherited fields in set
order; they are listed in the order of the source here. Fields of the library itself
(`__internal_fields__`) are not part of a document.
-/

namespace Doc
open Py Tree

def nul : Tree := .atom .none
/-- fields whose default is `None` -/
def nulls (l : List String) : List (Str × Tree) := l.map fun n => (n.toList, nul)

/-- class numbers -/
def cXML : Nat := 0
def cExternalDocs : Nat := 1
def cItems : Nat := 2
def cSchema : Nat := 3
def cParameter : Nat := 4
def cHeader : Nat := 5
def cResponse : Nat := 6
def cOperation : Nat := 7
def cPathItem : Nat := 8
def cSecurityScheme : Nat := 9
def cTag : Nat := 10
def cContact : Nat := 11
def cLicense : Nat := 12
def cInfo : Nat := 13
def cSwagger : Nat := 14

/-- `pyswagger/spec/v2_0/objects.py`:31-48 -/
def baseSchema : List (Str × Tree) :=
  nulls ["type", "format", "items", "default", "maximum", "exclusiveMaximum", "minimum",
    "exclusiveMinimum", "maxLength", "minLength", "maxItems", "minItems", "multipleOf", "enum",
    "pattern", "uniqueItems"]

/-- the default of `collectionFormat` -/
def csv : List (Str × Tree) := [(c!"collectionFormat", .atom (.str c!"csv"))]

/-- `pyswagger/spec/v2_0/objects.py`:18-24 -/
def xmlCls : Cls := ⟨nulls ["name", "namespace", "prefix", "attribute", "wrapped"], []⟩
/-- `pyswagger/spec/v2_0/objects.py`:344-347 -/
def externalDocsCls : Cls := ⟨nulls ["description", "url"], []⟩
/-- `pyswagger/spec/v2_0/objects.py`:55-57, `parser.py`:47-49 -/
def itemsCls : Cls := ⟨csv ++ baseSchema, [(c!"items", .one cItems)]⟩
/-- `pyswagger/spec/v2_0/objects.py`:67-82, `parser.py`:103-114 -/
def schemaCls : Cls :=
  ⟨nulls ["$ref", "maxProperties", "minProperties"]
      ++ [(c!"required", .list []), (c!"allOf", .list []), (c!"properties", .dict []),
        (c!"additionalProperties", .atom (.bool true))]
      ++ nulls ["title", "description", "discriminator", "readOnly", "xml", "externalDocs", "example"]
      ++ baseSchema,
    [(c!"items", .one cSchema), (c!"properties", .dict cSchema),
      (c!"additionalProperties", .boolOr cSchema), (c!"allOf", .list cSchema),
      (c!"xml", .one cXML), (c!"externalDocs", .one cExternalDocs)]⟩
/-- `pyswagger/spec/v2_0/objects.py`:157-176, `parser.py`:123-129 -/
def parameterCls : Cls :=
  ⟨nulls ["$ref", "name", "in", "required", "schema"] ++ csv ++ nulls ["description"]
      ++ [(c!"allowEmptyValue", .atom (.bool false))] ++ baseSchema,
    [(c!"schema", .one cSchema), (c!"items", .one cItems)]⟩
/-- `pyswagger/spec/v2_0/objects.py`:191-194, `parser.py`:137-139 -/
def headerCls : Cls := ⟨csv ++ nulls ["description"] ++ baseSchema, [(c!"items", .one cItems)]⟩
/-- `pyswagger/spec/v2_0/objects.py`:204-213, `parser.py`:147-150 -/
def responseCls : Cls :=
  ⟨nulls ["$ref", "schema"] ++ [(c!"headers", .dict [])] ++ nulls ["description", "examples"],
    [(c!"schema", .one cSchema), (c!"headers", .dict cHeader)]⟩
/-- `pyswagger/spec/v2_0/objects.py`:224-237, `parser.py`:158-161 -/
def operationCls : Cls :=
  ⟨nulls ["tags", "operationId"]
      ++ [(c!"consumes", .list []), (c!"produces", .list []), (c!"schemes", .list [])]
      ++ nulls ["parameters", "responses"] ++ [(c!"deprecated", .atom (.bool false))]
      ++ nulls ["security", "description", "summary", "externalDocs"],
    [(c!"parameters", .list cParameter), (c!"responses", .dict cResponse)]⟩
/-- `pyswagger/spec/v2_0/objects.py`:298-310, `parser.py`:169-178 -/
def pathItemCls : Cls :=
  ⟨nulls ["$ref", "get", "put", "post", "delete", "options", "head", "patch"]
      ++ [(c!"parameters", .list [])],
    [(c!"get", .one cOperation), (c!"put", .one cOperation), (c!"post", .one cOperation),
      (c!"delete", .one cOperation), (c!"options", .one cOperation), (c!"head", .one cOperation),
      (c!"patch", .one cOperation), (c!"parameters", .list cParameter)]⟩
/-- `pyswagger/spec/v2_0/objects.py`:317-326 -/
def securitySchemeCls : Cls :=
  ⟨nulls ["type", "name", "in", "flow", "authorizationUrl", "tokenUrl", "scopes", "description"], []⟩
/-- `pyswagger/spec/v2_0/objects.py`:333-337, `parser.py`:195-197 -/
def tagCls : Cls :=
  ⟨nulls ["name", "description", "externalDocs"], [(c!"externalDocs", .one cExternalDocs)]⟩
/-- `pyswagger/spec/v2_0/objects.py`:122-126 -/
def contactCls : Cls := ⟨nulls ["name", "url", "email"], []⟩
/-- `pyswagger/spec/v2_0/objects.py`:133-136 -/
def licenseCls : Cls := ⟨nulls ["name", "url"], []⟩
/-- `pyswagger/spec/v2_0/objects.py`:143-150, `parser.py`:219-222 -/
def infoCls : Cls :=
  ⟨nulls ["version", "title", "description", "termsOfService", "contact", "license"],
    [(c!"contact", .one cContact), (c!"license", .one cLicense)]⟩
/-- `pyswagger/spec/v2_0/objects.py`:99-115, `parser.py`:229-238 -/
def swaggerCls : Cls :=
  ⟨nulls ["swagger", "info", "host", "basePath"]
      ++ [(c!"schemes", .list []), (c!"consumes", .list []), (c!"produces", .list [])]
      ++ nulls ["paths", "definitions", "parameters", "responses", "securityDefinitions", "security",
        "tags", "externalDocs"],
    [(c!"info", .one cInfo), (c!"paths", .dict cPathItem), (c!"definitions", .dict cSchema),
      (c!"parameters", .dict cParameter), (c!"responses", .dict cResponse),
      (c!"securityDefinitions", .dict cSecurityScheme), (c!"tags", .list cTag),
      (c!"externalDocs", .one cExternalDocs)]⟩

/-- the classes in the order of their numbers -/
def classes : List Cls :=
  [xmlCls, externalDocsCls, itemsCls, schemaCls, parameterCls, headerCls, responseCls, operationCls,
    pathItemCls, securitySchemeCls, tagCls, contactCls, licenseCls, infoCls, swaggerCls]

/-- the grammar of Swagger 2.0 -/
def v20 : Grammar := fun c => classes.getD c ⟨[], []⟩

end Doc
