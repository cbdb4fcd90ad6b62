import Verif.Model.Doc20
import Verif.Model.Validate12
/-!
# Reading Swagger 1.2 documents: `pyswagger/spec/v1_2`

The fields and defaults of `pyswagger/spec/v1_2/objects.py`, the tables `__swagger_child__` of
`pyswagger/spec/v1_2/parser.py` (with `ContainerType.dict_of_list_`), and the constructors
`DataTypeObj.__init__` and `Resource.__init__`, which change what has been read. The classes have
the numbers of `Model/Validate12.lean`. `none` stands for any exception. A document is a tree without
objects, as in `Model/Doc.lean`.
-/

namespace Doc12
open Py Tree _root_.Doc Validate Validate12

/-- What a field with objects holds (`pyswagger/spec/base.py`:14-20): one object, a list of objects, a
dict of objects, a dict of lists of objects. -/
inductive Kind where
  | one (c : Nat)
  | list (c : Nat)
  | dict (c : Nat)
  | lists (c : Nat)
  deriving DecidableEq, Repr

/-- `__swagger_fields__` with the defaults, and `__swagger_child__` -/
structure Cls where
  fields : List (Str × Tree)
  child : List (Str × Kind)

/-- `pyswagger/spec/v1_2/objects.py`:30-40 -/
def dataTypeFields : List (Str × Tree) :=
  nulls ["type", "$ref", "format", "defaultValue", "enum", "items", "minimum", "maximum", "uniqueItems"]

/-- `pyswagger/spec/v1_2/objects.py`:14-18 -/
def itemsCls : Cls := ⟨nulls ["$ref", "type", "format"], []⟩
/-- `pyswagger/spec/v1_2/objects.py`:58-61 -/
def scopeCls : Cls := ⟨nulls ["scope", "description"], []⟩
/-- `pyswagger/spec/v1_2/objects.py`:68-70 -/
def loginEndpointCls : Cls := ⟨nulls ["url"], []⟩
/-- `pyswagger/spec/v1_2/objects.py`:77-80, `parser.py`:51 -/
def implicitCls : Cls := ⟨nulls ["loginEndpoint", "tokenName"], [(c!"loginEndpoint", .one loginEndpoint)]⟩
/-- `pyswagger/spec/v1_2/objects.py`:87-91 -/
def tokenRequestEndpointCls : Cls := ⟨nulls ["url", "clientIdName", "clientSecretName"], []⟩
/-- `pyswagger/spec/v1_2/objects.py`:98-101 -/
def tokenEndpointCls : Cls := ⟨nulls ["url", "tokenName"], []⟩
/-- `pyswagger/spec/v1_2/objects.py`:108-111, `parser.py`:70-73 -/
def authorizationCodeCls : Cls :=
  ⟨nulls ["tokenRequestEndpoint", "tokenEndpoint"],
    [(c!"tokenRequestEndpoint", .one tokenRequestEndpoint), (c!"tokenEndpoint", .one tokenEndpoint)]⟩
/-- `pyswagger/spec/v1_2/objects.py`:118-121, `parser.py`:80-83 -/
def grantTypeCls : Cls :=
  ⟨nulls ["implicit", "authorization_code"],
    [(c!"implicit", .one implicit), (c!"authorization_code", .one authorizationCode)]⟩
/-- `pyswagger/spec/v1_2/objects.py`:128-131 -/
def authorizationsCls : Cls := ⟨nulls ["scope", "description"], []⟩
/-- `pyswagger/spec/v1_2/objects.py`:138-144, `parser.py`:90-93 -/
def authorizationCls : Cls :=
  ⟨nulls ["type", "passAs", "keyname", "scopes", "grantTypes"],
    [(c!"scopes", .list scope), (c!"grantTypes", .one grantType)]⟩
/-- `pyswagger/spec/v1_2/objects.py`:154-158 -/
def responseMessageCls : Cls := ⟨nulls ["code", "message", "responseModel"], []⟩
/-- `pyswagger/spec/v1_2/objects.py`:165-171, with the fields of the data type -/
def parameterCls : Cls :=
  ⟨nulls ["paramType", "name", "required", "allowMultiple", "description"] ++ dataTypeFields, []⟩
/-- `pyswagger/spec/v1_2/objects.py`:178-189, with the fields of the data type, `parser.py`:110-114 -/
def operationCls : Cls :=
  ⟨nulls ["method", "nickname", "authorizations", "parameters", "responseMessages", "produces", "consumes",
      "deprecated", "summary", "notes"] ++ dataTypeFields,
    [(c!"authorizations", .lists authorizations), (c!"parameters", .list parameter),
      (c!"responseMessages", .list responseMessage)]⟩
/-- `pyswagger/spec/v1_2/objects.py`:204-208, `parser.py`:121 -/
def apiCls : Cls := ⟨nulls ["path", "operations", "description"], [(c!"operations", .list operation)]⟩
/-- `pyswagger/spec/v1_2/objects.py`:215-217, with the fields of the data type -/
def propertyCls : Cls := ⟨nulls ["description"] ++ dataTypeFields, []⟩
/-- `pyswagger/spec/v1_2/objects.py`:224-231, `parser.py`:134 -/
def modelCls : Cls :=
  ⟨nulls ["id"] ++ [(c!"required", .list [])] ++ nulls ["properties", "subTypes", "discriminator", "description"],
    [(c!"properties", .dict property)]⟩
/-- `pyswagger/spec/v1_2/objects.py`:246-257, `parser.py`:140-143 -/
def resourceCls : Cls :=
  ⟨nulls ["swaggerVersion", "apiVersion", "apis", "basePath", "resourcePath", "models", "produces", "consumes",
      "authorizations", "description"],
    [(c!"apis", .list api), (c!"models", .dict model)]⟩
/-- `pyswagger/spec/v1_2/objects.py`:290-297 -/
def infoCls : Cls :=
  ⟨nulls ["title", "termsOfServiceUrl", "contact", "license", "licenseUrl", "description"], []⟩
/-- `pyswagger/spec/v1_2/objects.py`:303-309, `parser.py`:156-159 -/
def resourceListCls : Cls :=
  ⟨nulls ["swaggerVersion", "apis", "apiVersion", "info", "authorizations"],
    [(c!"info", .one info), (c!"authorizations", .dict authorization)]⟩

/-- the classes in the order of their numbers; `DataTypeObj` has no objects of its own -/
def classes12 : List Cls :=
  [⟨dataTypeFields, []⟩, itemsCls, scopeCls, loginEndpointCls, implicitCls, tokenRequestEndpointCls,
    tokenEndpointCls, authorizationCodeCls, grantTypeCls, authorizationsCls, authorizationCls,
    responseMessageCls, parameterCls, operationCls, apiCls, propertyCls, modelCls, resourceCls, infoCls,
    resourceListCls]

def v12 (c : Nat) : Cls := classes12.getD c ⟨[], []⟩

/-- `pyswagger/spec/base.py`:152-155: containers are created even without input -/
def emptyOf : Kind → Option Tree
  | .one _ => none
  | .list _ => some (.list [])
  | .dict _ => some (.dict [])
  | .lists _ => some (.dict [])

/-- `pyswagger/spec/base.py`:192-215 `BaseObj.__init__`, as `Doc.assemble` -/
def assemble (k : Cls) (entries : Dict Str Tree) : List (Str × Tree) :=
  k.fields.map fun f =>
    (f.1, match Dict.get? entries f.1 with
      | some v => v
      | none => ((Dict.get? k.child f.1).bind emptyOf).getD f.2)

/-- `pyswagger/spec/v1_2/objects.py`:42-52 `DataTypeObj.__init__`: a filled `items` is read as an
Items object, which only a dict can be; an empty one stays as it is (line 50 is undone by line 52). -/
def withItems (entries : Dict Str Tree) : Option (Dict Str Tree) :=
  match Dict.get? entries c!"items" with
  | none => some entries
  | some v =>
    if truth v then
      match v with
      | .dict d => some (Dict.set entries c!"items" (.obj items (assemble itemsCls d)))
      | _ => none
    else some entries

/-- `pyswagger/spec/v1_2/objects.py`:268-277: the operations of one Api object. `path` is an internal
field of Operation; it is added to the fields. An operation whose nickname is no text is not read;
the library reads it, if it can be hashed, and has a key that is no text. -/
def addOps (path : Tree) : List Tree → Dict Str Tree → Option (Dict Str Tree)
  | [], d => some d
  | .obj c fs :: l, d =>
    match Dict.get? fs c!"nickname" with
    | some (.atom (.str n)) =>
      if Dict.has d n then none else addOps path l (Dict.set d n (.obj c (fs ++ [(c!"path", path)])))
    | _ => none
  | _ :: _, _ => none

/-- `pyswagger/spec/v1_2/objects.py`:266-277, the loops -/
def addApis : List Tree → Dict Str Tree → Option (Dict Str Tree)
  | [], d => some d
  | .obj _ fs :: l, d =>
    match Dict.get? fs c!"path", Dict.get? fs c!"operations" with
    | some p, some (.list ops) =>
      match addOps p ops d with
      | some d => addApis l d
      | none => none
    | _, _ => none
  | _ :: _, _ => none

/-- `pyswagger/spec/v1_2/objects.py`:259-280 `Resource.__init__`: operations by nickname -/
def flatten (fs : List (Str × Tree)) : Option (List (Str × Tree)) :=
  match Dict.get? fs c!"apis" with
  | some (.list l) => (addApis l []).map fun d => Dict.set fs c!"apis" (.dict d)
  | _ => none

/-- the constructor of a class, given the entries of the context -/
def produce (c : Nat) (entries : Dict Str Tree) : Option Tree :=
  if c = parameter ∨ c = operation ∨ c = property then
    (withItems entries).map fun e => .obj c (assemble (v12 c) e)
  else if c = resource then (flatten (assemble (v12 c) entries)).map (.obj c)
  else some (.obj c (assemble (v12 c) entries))

/-- A scalar where objects are expected, as `Doc.parseAtom`. A Resource cannot be made of nothing
(`pyswagger/spec/v1_2/objects.py`:267). -/
def parseAtom : Kind → Atom → Option Tree
  | .one c, .none => if c = resource then none else some (.obj c (v12 c).fields)
  | .list _, .str [] => some (.list [])
  | _, _ => none

mutual
/-- `pyswagger/spec/base.py`:118-171 `Context.parse` with 102-116 `__exit__`, and `container_apply`
(23-51) for containers -/
def parseAs (k : Kind) : Tree → Option Tree
  | .atom a => parseAtom k a
  | .list l =>
    match k with
    | .list c => (parseList c l).map .list
    | _ => none
  | .dict d =>
    match k with
    | .one c => (parseEntries (v12 c) d).bind (produce c)
    | .dict c => (parseDict (.one c) d).map .dict
    | .lists c => (parseDict (.list c) d).map .dict
    | .list _ => if d.isEmpty then some (.list []) else none
  | .obj _ _ => none
/-- `pyswagger/spec/base.py`:147-169, as `Doc.parseEntries` -/
def parseEntries (cls : Cls) : List (Str × Tree) → Option (List (Str × Tree))
  | [] => some []
  | (n, v) :: d =>
    match parseEntries cls d with
    | none => none
    | some rest =>
      match Dict.get? cls.child n with
      | none => some ((n, v) :: rest)
      | some k =>
        if isNull v then some ((n, (emptyOf k).getD v) :: rest)
        else
          match parseAs k v with
          | none => none
          | some w => some ((n, w) :: rest)
/-- `pyswagger/spec/base.py`:32-35 with 130-134 -/
def parseList (c : Nat) : List Tree → Option (List Tree)
  | [] => some []
  | v :: l =>
    match parseAs (.one c) v, parseList c l with
    | some w, some rest => some (w :: rest)
    | _, _ => none
/-- `pyswagger/spec/base.py`:36-47 with 136-143; the entries of a dict of lists are lists -/
def parseDict (k : Kind) : List (Str × Tree) → Option (List (Str × Tree))
  | [] => some []
  | (n, v) :: d =>
    match parseAs k v, parseDict k d with
    | some w, some rest => some ((n, w) :: rest)
    | _, _ => none
end

/-- `with Context(tmp, key) as ctx: ctx.parse(obj)` -/
def parse (c : Nat) (j : Tree) : Option Tree := parseAs (.one c) j

/-- `pyswagger/spec/v1_2/parser.py`:164-189 `ResourceListContext.parse`, given the resources read
(`Model/Load12.lean`): line 181 replaces `apis`. -/
def readList (j : Tree) (resources : Dict Str Tree) : Option Tree :=
  match j with
  | .dict d =>
    (parseEntries (v12 resourceList) d).map fun e =>
      .obj resourceList (assemble (v12 resourceList) (Dict.set e c!"apis" (.dict resources)))
  | _ => none

end Doc12
