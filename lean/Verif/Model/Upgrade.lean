import Verif.Py.Url
import Verif.Py.Value
import Verif.Model.JsonPointer
import Verif.Model.Resolver
import Verif.Model.Scope
/-!
# `pyswagger/scanner/v1_2/upgrade.py`: from Swagger 1.2 to 2.0

1.2 objects are records holding what the converter reads; fields declared as text are texts or
`None` (a document giving them another type is not modelled), the others are any values. The
objects it creates are records holding the fields it sets, the other fields keep their defaults.
Fields of a created object are written before anybody reads them, so a created object is built at
once. `sep` is the separator of the `App`.
-/

namespace Upgrade
open Py Utils

/-! ## the 1.2 document: `pyswagger/spec/v1_2/objects.py` -/

/-- Items Object, 11-18 -/
structure Items where
  ref : Option Str := none
  type : Option Str := none
  format : Option Str := none
  deriving DecidableEq, Repr

/-- the data type fields, 27-52. `defaultValue` is `none` if the key is not in the document. `items` is
the Items object; `blankItems` says that there is something else that is empty, but not `None` (an empty
dict, say, which stays as it is). -/
structure DataType where
  type : Option Str := none
  ref : Option Str := none
  format : Option Str := none
  defaultValue : Option Val := none
  enum : Val := .none
  items : Option Items := none
  blankItems : Bool := false
  minimum : Val := .none
  maximum : Val := .none
  uniqueItems : Val := .none
  deriving DecidableEq, Repr

/-- Parameter Object, 161-171 -/
structure Param extends DataType where
  name : Option Str := none
  required : Val := .none
  description : Val := .none
  paramType : Option Str := none
  allowMultiple : Val := .none
  deriving DecidableEq, Repr

/-- Operation Object, 174-197. The scopes of an authorisation are those of its Authorizations
objects. -/
structure Operation extends DataType where
  method : Option Str := none
  nickname : Str
  summary : Val := .none
  notes : Val := .none
  deprecated : Val := .none
  consumes : List Str := []
  produces : List Str := []
  authorizations : Dict Str (List Val) := []
  parameters : List Param := []
  deriving DecidableEq, Repr

/-- Api Object, 200-208 -/
structure Api where
  path : Option Str := none
  operations : List Operation := []

/-- Property Object, 211-217 -/
structure Property extends DataType where
  description : Val := .none
  deriving DecidableEq, Repr

/-- Model Object, 220-239 -/
structure Model where
  id : Option Str := none
  required : Val := .list []
  properties : Dict Str Property := []
  subTypes : List Str := []
  discriminator : Val := .none
  description : Val := .none
  deriving DecidableEq, Repr

/-- Resource Object, 242-283, with the Api objects as declared. `authorizations` is not parsed into
objects (`pyswagger/spec/v1_2/parser.py`:136-143): its lists hold plain dicts. -/
structure Declared where
  apis : List Api := []
  basePath : Option Str := none
  models : Dict Str Model := []
  produces : List Str := []
  consumes : List Str := []
  authorizations : Dict Str (List Val) := []

/-- A Resource object as loaded: the operations by nickname, each with its path. -/
structure Resource where
  apis : Dict Str (Option Str × Operation) := []
  basePath : Option Str := none
  models : Dict Str Model := []
  produces : List Str := []
  consumes : List Str := []
  authorizations : Dict Str (List Val) := []

/-- Authorization Object, 134-147. `implicitUrl` is `grantTypes.implicit.loginEndpoint.url` and
`tokenUrl` is `grantTypes.authorization_code.tokenEndpoint.url`, read with `get_or_none`
(`pyswagger/utils.py`:567-573). -/
structure Auth where
  type : Option Str := none
  passAs : Val := .none
  keyname : Val := .none
  scopes : List (Str × Val) := []
  implicitUrl : Val := .none
  tokenUrl : Val := .none
  deriving DecidableEq, Repr

/-- Info Object, 286-297 -/
structure Info where
  title : Val := .none
  description : Val := .none
  termsOfServiceUrl : Val := .none
  contact : Val := .none
  license : Val := .none
  licenseUrl : Val := .none
  deriving DecidableEq, Repr

/-- Resource List Object, 300-310 -/
structure ResourceList where
  apis : Dict Str Resource := []
  apiVersion : Val := .none
  info : Option Info := none
  authorizations : Dict Str Auth := []

/-- `pyswagger/spec/v1_2/objects.py`:268-277, the operations of one Api object -/
def addOps (path : Option Str) : List Operation → Dict Str (Option Str × Operation) →
    Except Exc (Dict Str (Option Str × Operation))
  | [], d => .ok d
  | op :: ops, d =>
    if Dict.has d op.nickname then .error .ValueError
    else addOps path ops (Dict.set d op.nickname (path, op))

/-- `pyswagger/spec/v1_2/objects.py`:266-277, the loops -/
def addApis : List Api → Dict Str (Option Str × Operation) →
    Except Exc (Dict Str (Option Str × Operation))
  | [], d => .ok d
  | a :: as, d =>
    match addOps a.path a.operations d with
    | .error e => .error e
    | .ok d => addApis as d

/-- `pyswagger/spec/v1_2/objects.py`:259-280 `Resource.__init__` -/
def load (d : Declared) : Except Exc Resource :=
  match addApis d.apis [] with
  | .error e => .error e
  | .ok apis => .ok ⟨apis, d.basePath, d.models, d.produces, d.consumes, d.authorizations⟩

/-! ## the 2.0 objects: `pyswagger/spec/v2_0/objects.py` -/

/-- the items of a Schema object -/
structure SchemaItems where
  type : Option Str := none
  ref : Option Str := none
  format : Option Str := none
  deriving DecidableEq, Repr

/-- a Schema object made of a data type -/
structure Schema where
  type : Option Str := none
  ref : Option Str := none
  format : Option Str := none
  default : Val := .none
  minimum : Val := .none
  maximum : Val := .none
  uniqueItems : Val := .none
  enum : Val := .none
  items : Option SchemaItems := none
  description : Val := .none
  deriving DecidableEq, Repr

/-- a Schema object made of a model; `allOf` holds the `$ref`s -/
structure Definition where
  properties : Dict Str Schema := []
  required : Val := .list []
  discriminator : Val := .none
  description : Val := .none
  allOf : List Str := []
  deriving DecidableEq, Repr

/-- an Items object -/
structure Items20 where
  type : Option Str := none
  format : Option Str := none
  enum : Val := .none
  deriving DecidableEq, Repr

/-- a Parameter object -/
structure Param20 where
  name : Option Str := none
  required : Val := .none
  description : Val := .none
  «in» : Option Str := none
  schema : Option Schema := none
  type : Option Str := none
  format : Option Str := none
  default : Val := .none
  minimum : Val := .none
  maximum : Val := .none
  enum : Val := .none
  uniqueItems : Val := .none
  collectionFormat : Str := c!"csv"
  items : Option Items20 := none
  deriving DecidableEq, Repr

/-- an Operation object; `response` is the schema of `responses['default']`, its only entry -/
structure Op20 where
  tags : List Str := []
  operationId : Str
  summary : Val := .none
  description : Val := .none
  deprecated : Bool := false
  consumes : List Str := []
  produces : List Str := []
  parameters : List Param20 := []
  security : List (Str × List Val) := []
  response : Option Schema := none
  deriving DecidableEq, Repr

/-- a Security Scheme object -/
structure Scheme20 where
  type : Option Str := none
  scopes : Dict Str Val := []
  authorizationUrl : Val := .none
  tokenUrl : Val := .none
  flow : Option Str := none
  name : Val := .none
  «in» : Val := .none
  deriving DecidableEq, Repr

/-- an Info object; `contact` is the email of the Contact object and `license` the name and URL of
the License object, if there is one -/
structure Info20 where
  version : Val := .none
  title : Val := .none
  description : Val := .none
  termsOfService : Val := .none
  contact : Option Val := none
  license : Option (Val × Val) := none
  deriving DecidableEq, Repr

/-- the Swagger object being built; a Path Item is given by the fields set. `swagger` is '2.0';
`basePath`, `parameters`, `responses`, `security`, `consumes` and `produces` are set to empty
values. -/
structure Swagger where
  info : Info20 := {}
  schemes : List Str := [c!"http", c!"https"]
  host : Str := []
  tags : List Str := []
  definitions : Dict Str Definition := []
  paths : Dict Str (Dict Str Op20) := []
  securityDefinitions : Dict Str Scheme20 := []
  deriving DecidableEq, Repr

/-! ## conversion of types -/

/-- what the converter uses: `str.lower`, `float(v)`, `int(x)` of a float, the types of the primitive
factory and the separator of scopes -/
structure Env where
  lower : Str → Str
  float : Val → Except Exc PyFloat
  int : PyFloat → Except Exc Int
  prim : Str → Bool
  sep : Str := SCOPE_SEPARATOR

variable (env : Env)

/-- `'#/definitions/' + scope_compose(scope, name, sep=sep)`; the name is a text -/
def defRef (scope name : Str) : Str :=
  c!"#/definitions/" ++ (scope_compose (some scope) (some name) env.sep).getD []

/-- `app.prim_factory.is_primitive(t)`; `None` is no primitive -/
def isPrimitive (t : Option Str) : Bool := t.any env.prim

/-- `pyswagger/scanner/v1_2/upgrade.py`:20-28 `update_type_and_ref`: the new type and `$ref` -/
def typeAndRef (type ref : Option Str) (scope : Str) : Option Str × Option Str :=
  let new := if truthy ref then ref.map (defRef env scope) else none
  if isPrimitive env type then (type.map env.lower, new)
  else if truthy type then (none, type.map (defRef env scope))
  else (none, new)

/-- `pyswagger/scanner/v1_2/upgrade.py`:31-43 `_from_str` -/
def limit (type : Option Str) (v : Val) : Except Exc Val :=
  if Resolver.truthy v then
    if type = some c!"integer" then do
      let x ← env.float v
      let n ← env.int x
      .ok (.int n)
    else if type = some c!"number" then do
      let x ← env.float v
      .ok (.float x)
    else .error .SchemaError
  else .ok .none

/-- `pyswagger/scanner/v1_2/upgrade.py`:61-65 -/
def schemaItems (scope : Str) (i : Items) : SchemaItems :=
  let tr := typeAndRef env i.type i.ref scope
  ⟨tr.1, tr.2, i.format⟩

/-- `pyswagger/scanner/v1_2/upgrade.py`:49-67 `convert_schema_from_datatype` -/
def schemaOf (scope : Str) (d : DataType) : Except Exc Schema := do
  let tr := typeAndRef env d.type d.ref scope
  let mn ← limit env d.type d.minimum
  let mx ← limit env d.type d.maximum
  .ok { type := tr.1, ref := tr.2, format := d.format, default := d.defaultValue.getD .none,
        minimum := mn, maximum := mx, uniqueItems := d.uniqueItems, enum := d.enum,
        items := d.items.map (schemaItems env scope) }

/-- `pyswagger/scanner/v1_2/upgrade.py`:69-78 `convert_items` -/
def convertItems (type ref format : Option Str) : Except Exc Items20 :=
  if truthy ref then .error .SchemaError
  else if !isPrimitive env type then .error .SchemaError
  else .ok { type := type.map env.lower, format := format }

/-! ## handlers -/

/-- `path.split('/', 3)[2]` -/
def getName (path : Str) : Except Exc Str :=
  match (splitChar '/' path)[2]? with
  | some n => .ok n
  | none => .error .IndexError

/-- `a + b` for texts or `None` -/
def concat (a b : Option Str) : Except Exc Str :=
  match a, b with
  | some a, some b => .ok (a ++ b)
  | _, _ => .error .TypeError

/-- `s.lower()` for a text or `None` -/
def lowerOf (s : Option Str) : Except Exc Str :=
  match s with
  | some s => .ok (env.lower s)
  | none => .error .AttributeError

/-- `pyswagger/scanner/v1_2/upgrade.py`:90-131 `_resource_list`; `obj.info` may be `None`. A Contact
object is made if there is a contact, a License object if there is a license or its URL. -/
def resourceList (l : ResourceList) : Except Exc Swagger :=
  match l.info with
  | none => .error .AttributeError
  | some i =>
    .ok { info := {
            version := l.apiVersion, title := i.title, description := i.description,
            termsOfService := i.termsOfServiceUrl,
            contact := if Resolver.truthy i.contact then some i.contact else none,
            license := if Resolver.truthy i.license || Resolver.truthy i.licenseUrl then
              some (i.license, i.licenseUrl) else none } }

/-- `pyswagger/scanner/v1_2/upgrade.py`:133-142 `_resource` -/
def resource (s : Swagger) (path : Str) : Except Exc Swagger := do
  let name ← getName path
  .ok (if name ∈ s.tags then s else { s with tags := s.tags ++ [name] })

/-- `pyswagger/scanner/v1_2/upgrade.py`:165-168, for the authorisations of the operation. -/
def security (auths : Dict Str (List Val)) : List (Str × List Val) := auths

/-- `pyswagger/scanner/v1_2/upgrade.py`:165-168, for the authorisations of the resource: `v.scope` of
a plain dict fails -/
def securityOfResource : Dict Str (List Val) → Except Exc (List (Str × List Val))
  | [] => .ok []
  | (k, l) :: rest =>
    if l.isEmpty then do
      let more ← securityOfResource rest
      .ok ((k, []) :: more)
    else .error .AttributeError

/-- the fields of a Path Item (`pyswagger/spec/v2_0/objects.py`:298-310) -/
def pathItemFields : List Str :=
  [c!"$ref", c!"get", c!"put", c!"post", c!"delete", c!"options", c!"head", c!"patch", c!"parameters"]

/-- `pyswagger/scanner/v1_2/upgrade.py`:162-168: the authorisations of the operation, else those of
the resource -/
def securityOf (r : Resource) (op : Operation) : Except Exc (List (Str × List Val)) :=
  if op.authorizations.isEmpty then securityOfResource r.authorizations
  else .ok (security op.authorizations)

/-- `pyswagger/scanner/v1_2/upgrade.py`:170-175: the schema of the response -/
def responseOf (scope : Str) (op : Operation) : Except Exc (Option Schema) :=
  if op.type = some c!"void" then .ok none else (schemaOf env scope op.toDataType).map some

/-- `pyswagger/scanner/v1_2/upgrade.py`:144-175 `_operation`: the Operation object -/
def op20 (scope : Str) (r : Resource) (op : Operation) : Except Exc Op20 := do
  let sec ← securityOf r op
  let resp ← responseOf env scope op
  .ok { tags := [scope], operationId := op.nickname, summary := op.summary, description := op.notes,
        deprecated := op.deprecated = .str c!"true",
        consumes := if op.consumes.isEmpty then r.consumes else op.consumes,
        produces := if op.produces.isEmpty then r.produces else op.produces,
        security := sec, response := resp }

/-- `pyswagger/scanner/v1_2/upgrade.py`:177-182: the operation is put below its path and method. The
Path Item is created before `update_field` fails; the exception leaves the scan. -/
def place (s : Swagger) (r : Resource) (opPath : Option Str) (method : Option Str) (o : Op20) :
    Except Exc Swagger := do
  let key ← concat r.basePath opPath
  let item := (Dict.get? s.paths key).getD []
  let m ← lowerOf env method
  if m ∈ pathItemFields then .ok { s with paths := Dict.set s.paths key (Dict.set item m o) }
  else .error .AttributeError

/-- `pyswagger/scanner/v1_2/upgrade.py`:144-182 `_operation` -/
def operation (s : Swagger) (path : Str) (r : Resource) (opPath : Option Str) (op : Operation) :
    Except Exc Swagger := do
  let scope ← getName path
  let o ← op20 env scope r op
  place env s r opPath op.method o

/-- `pyswagger/scanner/v1_2/upgrade.py`:188-191: `basic` for `basicAuth` -/
def authType (t : Option Str) : Option Str := if t = some c!"basicAuth" then some c!"basic" else t

/-- `pyswagger/scanner/v1_2/upgrade.py`:184-205, the Security Scheme object -/
def scheme20 (a : Auth) : Scheme20 :=
  let o : Scheme20 :=
    { type := authType a.type, scopes := a.scopes.foldl (fun d sv => Dict.set d sv.1 sv.2) [] }
  if o.type = some c!"oauth2" then
    { o with
      authorizationUrl := a.implicitUrl, tokenUrl := a.tokenUrl,
      flow := if Resolver.truthy a.implicitUrl then some c!"implicit"
        else if Resolver.truthy a.tokenUrl then some c!"access_code" else none }
  else if o.type = some c!"apiKey" then { o with name := a.keyname, «in» := a.passAs }
  else o

/-- `pyswagger/scanner/v1_2/upgrade.py`:184-207 `_authorization` -/
def authorization (s : Swagger) (path : Str) (a : Auth) : Except Exc Swagger := do
  let name ← getName path
  .ok { s with securityDefinitions := Dict.set s.securityDefinitions name (scheme20 a) }

/-- `pyswagger/scanner/v1_2/upgrade.py`:218-221: the location -/
def location (paramType : Option Str) : Option Str :=
  if paramType = some c!"form" then some c!"formData" else paramType

/-- `obj.allowMultiple == True`; a document holds JSON values, where `1 == True` and `1.0 == True` -/
def isTrue : Val → Bool
  | .bool b => b
  | .int n => n = 1
  | .float x => x = .fin 1
  | _ => false

/-- `pyswagger/scanner/v1_2/upgrade.py`:209-248 `_parameter`: the Parameter object -/
def param20 (scope : Str) (p : Param) : Except Exc Param20 := do
  let o : Param20 :=
    { name := p.name, required := p.required, description := p.description, «in» := location p.paramType }
  if o.in = some c!"body" then do
    let sc ← schemaOf env scope p.toDataType
    .ok { o with schema := some sc }
  else if truthy p.ref then .error .SchemaError
  else if isTrue p.allowMultiple && !p.blankItems && p.items.isNone then do
    let its ← convertItems env p.type p.ref p.format
    .ok { o with
          type := some c!"array", collectionFormat := c!"csv", uniqueItems := p.uniqueItems,
          items := some { its with enum := p.enum },
          default := match p.defaultValue with
            | some v => .list [v]
            | none => .none }
  else do
    let t ← lowerOf env p.type
    let mn ← limit env p.type p.minimum
    let mx ← limit env p.type p.maximum
    let o := { o with
      type := some t, format := p.format, default := p.defaultValue.getD .none, minimum := mn, maximum := mx,
      enum := p.enum }
    match p.items with
    | none => .ok o
    | some i => do
      let its ← convertItems env i.type i.ref i.format
      .ok { o with collectionFormat := c!"csv", uniqueItems := p.uniqueItems, items := some its }

/-- `pyswagger/scanner/v1_2/upgrade.py`:250-253: the parameter is appended to its operation, found by
path and method -/
def append (s : Swagger) (key m : Str) (o : Param20) : Except Exc Swagger :=
  match Dict.get? s.paths key with
  | none => .error .KeyError
  | some item =>
    match Dict.get? item m with
    | none => .error .AttributeError
    | some op =>
      .ok { s with paths := Dict.set s.paths key (Dict.set item m { op with parameters := op.parameters ++ [o] }) }

/-- `pyswagger/scanner/v1_2/upgrade.py`:209-253 `_parameter` -/
def parameter (s : Swagger) (path : Str) (r : Resource) (opPath : Option Str) (op : Operation) (p : Param) :
    Except Exc Swagger := do
  let scope ← getName path
  let o ← param20 env scope p
  let key ← concat r.basePath opPath
  let m ← lowerOf env op.method
  append s key m o

/-- `pyswagger/scanner/v1_2/upgrade.py`:265-268: the properties -/
def properties (scope : Str) : List (Str × Property) → Except Exc (Dict Str Schema)
  | [] => .ok []
  | (n, p) :: rest => do
    let sc ← schemaOf env scope p.toDataType
    let more ← properties scope rest
    .ok ((n, { sc with description := p.description }) :: more)

/-- `pyswagger/scanner/v1_2/upgrade.py`:274-285: the model is added to the schemas composing each of
its sub types -/
def subTypes (scope key : Str) (ts : List Str) (defs : Dict Str Definition) : Dict Str Definition :=
  ts.foldl (fun defs t =>
    let sub := (scope_compose (some scope) (some t) env.sep).getD []
    let o := (Dict.get? defs sub).getD {}
    Dict.set defs sub { o with allOf := o.allOf ++ [c!"#/definitions/" ++ key] }) defs

/-- `pyswagger/scanner/v1_2/upgrade.py`:255-285 `_model`. The properties of a parsed model are a dict of
distinct names. A model without id is filed below the name of the resource, as `scope_compose` has
it. -/
def model (s : Swagger) (path : Str) (m : Model) : Except Exc Swagger := do
  let scope ← getName path
  let key := (scope_compose (some scope) m.id env.sep).getD []
  let old := (Dict.get? s.definitions key).getD {}
  let props ← properties env scope m.properties
  let o := { old with
    properties := props, required := m.required, discriminator := m.discriminator, description := m.description }
  .ok { s with definitions := subTypes env scope key m.subTypes (Dict.set s.definitions key o) }

/-! ## the scan -/

/-- a handler called on an object at a path -/
inductive Visit where
  | resource (path : Str)
  | operation (path : Str) (r : Resource) (opPath : Option Str) (op : Operation)
  | parameter (path : Str) (r : Resource) (opPath : Option Str) (op : Operation) (p : Param)
  | model (path : Str) (m : Model)
  | authorization (path : Str) (a : Auth)

/-- the parameters below an operation, the last one first; their paths end in the position -/
def visitParams (path : Str) (r : Resource) (opPath : Option Str) (op : Operation) (str : Nat → Str) : List Visit :=
  (op.parameters.zipIdx.map fun pi => .parameter (path ++ c!"/parameters/" ++ str pi.2) r opPath op pi.1).reverse

/-- an operation and what is below it -/
def visitOp (path : Str) (r : Resource) (str : Nat → Str) (e : Str × (Option Str × Operation)) : List Visit :=
  let path := path ++ c!"/apis/" ++ jp_escape e.1
  .operation path r e.2.1 e.2.2 :: visitParams path r e.2.1 e.2.2 str

/-- a resource and what is below it: the models, then the operations, the last ones first -/
def visitResource (str : Nat → Str) (e : Str × Resource) : List Visit :=
  let path := c!"#/apis/" ++ jp_escape e.1
  .resource path ::
    ((e.2.models.map fun km => .model (path ++ c!"/models/" ++ jp_escape km.1) km.2).reverse ++
     (e.2.apis.reverse.flatMap (visitOp path e.2 str)))

/-- `pyswagger/scan.py`:6-19 and `pyswagger/spec/base.py`:451-474: the objects with a handler below the
resource list, in the order of the scan. Objects are taken from the end of a stack, so the last child
comes first, each followed by all that is below it. The children are in the order of
`__swagger_fields__` (`pyswagger/spec/v1_2/objects.py`). `str` is `str(i)`. -/
def visits (l : ResourceList) (str : Nat → Str) : List Visit :=
  (l.authorizations.reverse.map fun ka => .authorization (c!"#/authorizations/" ++ jp_escape ka.1) ka.2) ++
  l.apis.reverse.flatMap (visitResource str)

/-- the handler of an object -/
def visit (s : Swagger) : Visit → Except Exc Swagger
  | .resource path => resource s path
  | .operation path r opPath op => operation env s path r opPath op
  | .parameter path r opPath op p => parameter env s path r opPath op p
  | .model path m => model env s path m
  | .authorization path a => authorization s path a

/-- the handlers one after the other -/
def visitAll : Swagger → List Visit → Except Exc Swagger
  | s, [] => .ok s
  | s, v :: vs =>
    match visit env s v with
    | .error e => .error e
    | .ok s => visitAll s vs

/-! ## `host` and `paths` -/

/-- `a <= b` for texts: by code points -/
def leStr : Str → Str → Bool
  | [], _ => true
  | _ :: _, [] => false
  | a :: as, b :: bs => if a = b then leStr as bs else a.toNat < b.toNat

/-- `min(m)`, the first least one -/
def minStr (a : Str) (m : List Str) : Str := m.foldl (fun x y => if leStr x y then x else y) a

/-- `max(m)`, the first greatest one -/
def maxStr (a : Str) (m : List Str) : Str := m.foldl (fun x y => if leStr y x then x else y) a

/-- the characters two texts begin with -/
def common : Str → Str → Str
  | a :: as, b :: bs => if a = b then a :: common as bs else []
  | _, _ => []

/-- `os.path.commonprefix(m)` (CPython's `genericpath`): of the least and the greatest -/
def commonprefix : List Str → Str
  | [] => []
  | a :: m => common (minStr a m) (maxStr a m)

/-- `pyswagger/scanner/v1_2/upgrade.py`:298: without a trailing slash; `s[-1]` of an empty text fails -/
def stripSlash (s : Str) : Except Exc Str :=
  match s.getLast? with
  | none => .error .IndexError
  | some c => .ok (if c = '/' then s.dropLast else s)

/-- `pyswagger/scanner/v1_2/upgrade.py`:306-308: the paths without the first `n` characters -/
def cutPaths (n : Nat) (paths : Dict Str (Dict Str Op20)) : Dict Str (Dict Str Op20) :=
  paths.foldl (fun d kv => Dict.set d (kv.1.drop n) kv.2) []

/-- `pyswagger/scanner/v1_2/upgrade.py`:287-311 `swagger` -/
def finish (s : Swagger) : Except Exc Swagger := do
  let c ← stripSlash (commonprefix s.paths.keys)
  if c.length > 0 then
    let p := urlparse c
    let cut := urlunparse ⟨p.scheme, p.netloc, [], [], [], []⟩
    .ok { s with host := p.netloc, paths := cutPaths cut.length s.paths }
  else .ok s

/-- `pyswagger/core.py`:202-206: the scan and its result -/
def upgrade (str : Nat → Str) (l : ResourceList) : Except Exc Swagger := do
  let s ← resourceList l
  let s ← visitAll env s (visits l str)
  finish s

end Upgrade
