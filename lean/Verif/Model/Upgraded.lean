import Verif.Model.Doc12
import Verif.Model.Upgrade
import Verif.Model.Effective
/-!
# The objects before and after the upgrade of a 1.2 document

`Model/Upgrade.lean` converts records. Here the records are taken from the objects that reading a 1.2
document gives (`Model/Doc12.lean`), and the records made are put into objects of Swagger 2.0.
-/

namespace Upgraded
open Py Tree _root_.Doc Effective Upgrade

/-! ## 1.2: `pyswagger/spec/v1_2/objects.py`

`none` stands for a document that `Model/Upgrade.lean` does not treat: a number given for a text, say. -/

/-- a text or `None` -/
def maybe : Tree → Option (Option Str)
  | .atom .none => some none
  | .atom (.str s) => some (some s)
  | _ => none

/-- the elements, if all of them are texts -/
def allTexts : List Tree → Option (List Str)
  | [] => some []
  | .atom (.str s) :: l => (allTexts l).map (s :: ·)
  | _ :: _ => none

/-- a list of texts; `None` counts as none of them (`pyswagger/scanner/v1_2/upgrade.py`:155-159, 274) -/
def textsOf : Tree → Option (List Str)
  | .atom .none => some []
  | .list l => allTexts l
  | _ => none

/-- `f` for every element, if all of them can be done -/
def each {α β : Type} (f : α → Option β) : List α → Option (List β)
  | [] => some []
  | a :: l =>
    match f a, each f l with
    | some b, some bs => some (b :: bs)
    | _, _ => none

/-- the entries of a dict by `f` -/
def eachOf {β : Type} (f : Tree → Option β) (d : List (Str × Tree)) : Option (List (Str × β)) :=
  each (fun e => (f e.2).map fun b => (e.1, b)) d

/-- `f` for the elements of a list; anything else fails where it is iterated -/
def listOf {β : Type} (f : Tree → Option β) : Tree → Option (List β)
  | .list l => each f l
  | _ => none

/-- `f` for the entries of a dict; anything else fails where it is iterated -/
def dictOf {β : Type} (f : Tree → Option β) : Tree → Option (List (Str × β))
  | .dict d => eachOf f d
  | _ => none

/-- Items Object: its fields -/
def items12 (fs : List (Str × Tree)) : Option Items := do
  let ref ← maybe (attr fs c!"$ref")
  let type ← maybe (attr fs c!"type")
  let format ← maybe (attr fs c!"format")
  some ⟨ref, type, format⟩

/-- the Items Object of a data type, if there is one -/
def itemsOf : Tree → Option (Option Items)
  | .obj _ gs => (items12 gs).map some
  | _ => some none

/-- the data type fields. `is_set('defaultValue')` is taken for a value other than `None`: a `null`
written in the document counts as unset (`pyswagger/scanner/v1_2/upgrade.py`:236-237 would make
`[None]` of it). -/
def dataType12 (fs : List (Str × Tree)) : Option DataType := do
  let type ← maybe (attr fs c!"type")
  let ref ← maybe (attr fs c!"$ref")
  let format ← maybe (attr fs c!"format")
  let items ← itemsOf (attr fs c!"items")
  some { type := type, ref := ref, format := format,
         defaultValue := if isNull (attr fs c!"defaultValue") then none else some (toVal (attr fs c!"defaultValue")),
         enum := toVal (attr fs c!"enum"), items := items,
         blankItems := items.isNone && !isNull (attr fs c!"items"),
         minimum := toVal (attr fs c!"minimum"), maximum := toVal (attr fs c!"maximum"),
         uniqueItems := toVal (attr fs c!"uniqueItems") }

/-- Parameter Object -/
def param12 : Tree → Option Param
  | .obj _ fs => do
    let d ← dataType12 fs
    let name ← maybe (attr fs c!"name")
    let paramType ← maybe (attr fs c!"paramType")
    some { d with name := name, required := toVal (attr fs c!"required"),
                  description := toVal (attr fs c!"description"), paramType := paramType,
                  allowMultiple := toVal (attr fs c!"allowMultiple") }
  | _ => none

/-- `v.scope` (`pyswagger/scanner/v1_2/upgrade.py`:168) of an Authorizations object -/
def scopeOf12 : Tree → Option Val
  | .obj _ fs => some (toVal (attr fs c!"scope"))
  | _ => none

/-- the scopes of one authorisation of an operation -/
def scopes12 : Tree → Option (List Val) := listOf scopeOf12

/-- Operation Object, with the path it has been given -/
def operation12 : Tree → Option (Option Str × Operation)
  | .obj _ fs => do
    let d ← dataType12 fs
    let path ← maybe (attr fs c!"path")
    let method ← maybe (attr fs c!"method")
    let nickname ← text? (attr fs c!"nickname")
    let consumes ← textsOf (attr fs c!"consumes")
    let produces ← textsOf (attr fs c!"produces")
    let auths ← dictOf scopes12 (attr fs c!"authorizations")
    let params ← listOf param12 (attr fs c!"parameters")
    some (path, { d with method := method, nickname := nickname, summary := toVal (attr fs c!"summary"),
                         notes := toVal (attr fs c!"notes"), deprecated := toVal (attr fs c!"deprecated"),
                         consumes := consumes, produces := produces, authorizations := auths,
                         parameters := params })
  | _ => none

/-- Property Object -/
def property12 : Tree → Option Property
  | .obj _ fs => do
    let d ← dataType12 fs
    some { d with description := toVal (attr fs c!"description") }
  | _ => none

/-- Model Object -/
def model12 : Tree → Option Model
  | .obj _ fs => do
    let id ← maybe (attr fs c!"id")
    let props ← dictOf property12 (attr fs c!"properties")
    let subTypes ← textsOf (attr fs c!"subTypes")
    some { id := id, required := toVal (attr fs c!"required"), properties := props, subTypes := subTypes,
           discriminator := toVal (attr fs c!"discriminator"), description := toVal (attr fs c!"description") }
  | _ => none

/-- the authorisations of a resource, which are no objects -/
def plainScopes : Tree → Option (List Val)
  | .list l => some (toVals l)
  | _ => none

/-- the authorisations of a resource; without any there is nothing to iterate (`pyswagger/scanner/v1_2/upgrade.py`:161-165) -/
def authsOf : Tree → Option (List (Str × List Val))
  | .atom .none => some []
  | .dict d => eachOf plainScopes d
  | _ => none

/-- Resource Object, as `Doc12.flatten` leaves it -/
def resource12 : Tree → Option Resource
  | .obj _ fs => do
    let apis ← dictOf operation12 (attr fs c!"apis")
    let basePath ← maybe (attr fs c!"basePath")
    let models ← dictOf model12 (attr fs c!"models")
    let produces ← textsOf (attr fs c!"produces")
    let consumes ← textsOf (attr fs c!"consumes")
    let auths ← authsOf (attr fs c!"authorizations")
    some ⟨apis, basePath, models, produces, consumes, auths⟩
  | _ => none

/-- a Scope object: `o.scopes[s.scope] = s.description` (`pyswagger/scanner/v1_2/upgrade.py`:194) -/
def scope12 : Tree → Option (Str × Val)
  | .obj _ fs => (text? (attr fs c!"scope")).map fun s => (s, toVal (attr fs c!"description"))
  | _ => none

/-- `pyswagger/utils.py`:567-573 `get_or_none`: from object to object; `None` has no further ones -/
def inner : List Str → Tree → Tree
  | [], t => t
  | n :: ns, .obj _ fs => inner ns (attr fs n)
  | _ :: _, _ => .atom .none

/-- Authorization Object -/
def auth12 : Tree → Option Auth
  | .obj c fs => do
    let type ← maybe (attr fs c!"type")
    let scopes ← listOf scope12 (attr fs c!"scopes")
    some { type := type, passAs := toVal (attr fs c!"passAs"), keyname := toVal (attr fs c!"keyname"), scopes := scopes,
           implicitUrl := toVal (inner [c!"grantTypes", c!"implicit", c!"loginEndpoint", c!"url"] (.obj c fs)),
           tokenUrl := toVal (inner [c!"grantTypes", c!"authorization_code", c!"tokenEndpoint", c!"url"] (.obj c fs)) }
  | _ => none

/-- Info Object; `None` if there is none -/
def info12 : Tree → Option (Option Info)
  | .atom .none => some none
  | .obj _ fs =>
    some (some ⟨toVal (attr fs c!"title"), toVal (attr fs c!"description"), toVal (attr fs c!"termsOfServiceUrl"),
      toVal (attr fs c!"contact"), toVal (attr fs c!"license"), toVal (attr fs c!"licenseUrl")⟩)
  | _ => none

/-- Resource List Object, as `Doc12.readList` gives it -/
def list12 : Tree → Option ResourceList
  | .obj _ fs => do
    let apis ← dictOf resource12 (attr fs c!"apis")
    let info ← info12 (attr fs c!"info")
    let auths ← dictOf auth12 (attr fs c!"authorizations")
    some ⟨apis, toVal (attr fs c!"apiVersion"), info, auths⟩
  | _ => none

/-! ## 2.0: `pyswagger/spec/v2_0/objects.py` -/

/-- `C(NullContext())`, then `update_field` for the given fields (`pyswagger/spec/base.py`:192-215, 250-262):
the others keep the defaults -/
def made (c : Nat) (set : List (Str × Tree)) : Tree :=
  .obj c ((v20 c).fields.map fun f => (f.1, (Dict.get? set f.1).getD f.2))

mutual
/-- a plain value; others than those of JSON do not occur -/
def ofVal : Val → Tree
  | .none => .atom .none
  | .bool b => .atom (.bool b)
  | .int n => .atom (.int n)
  | .float x => .atom (.float x)
  | .str s => .atom (.str s)
  | .list l => .list (ofVals l)
  | .dict d => .dict (ofPairs d)
  | .other _ => .atom .none
def ofVals : List Val → List Tree
  | [] => []
  | v :: l => ofVal v :: ofVals l
def ofPairs : List (Str × Val) → List (Str × Tree)
  | [] => []
  | (n, v) :: d => (n, ofVal v) :: ofPairs d
end

/-- a text or `None` -/
def orNone : Option Str → Tree
  | some s => .atom (.str s)
  | none => .atom .none

/-- texts -/
def strs (l : List Str) : Tree := .list (l.map fun s => .atom (.str s))

/-- `pyswagger/scanner/v1_2/upgrade.py`:61-65 -/
def itemsTree (i : SchemaItems) : Tree :=
  made cSchema [(c!"type", orNone i.type), (c!"$ref", orNone i.ref), (c!"format", orNone i.format)]

/-- `pyswagger/scanner/v1_2/upgrade.py`:49-67, 268 -/
def schemaTree (s : Schema) : Tree :=
  made cSchema [(c!"type", orNone s.type), (c!"$ref", orNone s.ref), (c!"format", orNone s.format),
    (c!"default", ofVal s.default), (c!"minimum", ofVal s.minimum), (c!"maximum", ofVal s.maximum),
    (c!"uniqueItems", ofVal s.uniqueItems), (c!"enum", ofVal s.enum),
    (c!"items", (s.items.map itemsTree).getD (.atom .none)), (c!"description", ofVal s.description)]

/-- `pyswagger/scanner/v1_2/upgrade.py`:259-285 -/
def definitionTree (d : Definition) : Tree :=
  made cSchema [(c!"properties", .dict (d.properties.map fun e => (e.1, schemaTree e.2))), (c!"required", ofVal d.required),
    (c!"discriminator", ofVal d.discriminator), (c!"description", ofVal d.description),
    (c!"allOf", .list (d.allOf.map fun r => made cSchema [(c!"$ref", .atom (.str r))]))]

/-- `pyswagger/scanner/v1_2/upgrade.py`:69-78, 238 -/
def items20Tree (i : Items20) : Tree :=
  made cItems [(c!"type", orNone i.type), (c!"format", orNone i.format), (c!"enum", ofVal i.enum)]

/-- `pyswagger/scanner/v1_2/upgrade.py`:209-248 -/
def paramTree (p : Param20) : Tree :=
  made cParameter [(c!"name", orNone p.name), (c!"required", ofVal p.required), (c!"description", ofVal p.description),
    (c!"in", orNone p.in), (c!"schema", (p.schema.map schemaTree).getD (.atom .none)), (c!"type", orNone p.type),
    (c!"format", orNone p.format), (c!"default", ofVal p.default), (c!"minimum", ofVal p.minimum),
    (c!"maximum", ofVal p.maximum), (c!"enum", ofVal p.enum), (c!"uniqueItems", ofVal p.uniqueItems),
    (c!"collectionFormat", .atom (.str p.collectionFormat)), (c!"items", (p.items.map items20Tree).getD (.atom .none))]

/-- `pyswagger/scanner/v1_2/upgrade.py`:144-175 -/
def opTree (o : Op20) : Tree :=
  made cOperation [(c!"tags", strs o.tags), (c!"operationId", .atom (.str o.operationId)), (c!"summary", ofVal o.summary),
    (c!"description", ofVal o.description), (c!"deprecated", .atom (.bool o.deprecated)), (c!"consumes", strs o.consumes),
    (c!"produces", strs o.produces), (c!"parameters", .list (o.parameters.map paramTree)),
    (c!"security", .list (o.security.map fun e => .dict [(e.1, .list (ofVals e.2))])),
    (c!"responses", .dict [(c!"default", made cResponse [(c!"schema", (o.response.map schemaTree).getD (.atom .none))])])]

/-- `pyswagger/scanner/v1_2/upgrade.py`:178-182 -/
def pathTree (d : Dict Str Op20) : Tree := made cPathItem (d.map fun e => (e.1, opTree e.2))

/-- `pyswagger/scanner/v1_2/upgrade.py`:184-207. Fields left out have the default `None`. -/
def schemeTree (s : Scheme20) : Tree :=
  made cSecurityScheme [(c!"type", orNone s.type), (c!"scopes", .dict (ofPairs s.scopes)),
    (c!"authorizationUrl", ofVal s.authorizationUrl), (c!"tokenUrl", ofVal s.tokenUrl), (c!"flow", orNone s.flow),
    (c!"name", ofVal s.name), (c!"in", ofVal s.in)]

/-- `pyswagger/scanner/v1_2/upgrade.py`:94-112 -/
def infoTree (i : Info20) : Tree :=
  made cInfo [(c!"version", ofVal i.version), (c!"title", ofVal i.title), (c!"description", ofVal i.description),
    (c!"termsOfService", ofVal i.termsOfService),
    (c!"contact", (i.contact.map fun e => made cContact [(c!"email", ofVal e)]).getD (.atom .none)),
    (c!"license", (i.license.map fun l => made cLicense [(c!"name", ofVal l.1), (c!"url", ofVal l.2)]).getD (.atom .none))]

/-- `pyswagger/scanner/v1_2/upgrade.py`:92-131, 137-142, 287-311 -/
def tree (s : Swagger) : Tree :=
  made cSwagger [(c!"info", infoTree s.info), (c!"swagger", .atom (.str c!"2.0")), (c!"schemes", strs s.schemes),
    (c!"host", .atom (.str s.host)), (c!"basePath", .atom (.str [])),
    (c!"tags", .list (s.tags.map fun t => made cTag [(c!"name", .atom (.str t))])),
    (c!"definitions", .dict (s.definitions.map fun e => (e.1, definitionTree e.2))),
    (c!"parameters", .dict []), (c!"responses", .dict []),
    (c!"paths", .dict (s.paths.map fun e => (e.1, pathTree e.2))), (c!"security", .list []),
    (c!"securityDefinitions", .dict (s.securityDefinitions.map fun e => (e.1, schemeTree e.2))),
    (c!"consumes", .list []), (c!"produces", .list [])]

/-! ## from one document to the other -/

/-- `pyswagger/spec/v1_2/parser.py`:164-189: the resource listing and the API declarations, given by name in the order
of loading (`Model/Load12.lean`), become the objects of 1.2; `none` stands for any exception. -/
def read (listing : Dict Str Tree) (declarations : List (Str × Tree)) : Option ResourceList := do
  let rs ← eachOf (Doc12.parse Validate12.resource) declarations
  let t ← Doc12.readList (.dict listing) rs
  list12 t

/-- `pyswagger/core.py`:202-206: they become a Swagger object; `none` stands for any exception. -/
def load (env : Env) (str : Nat → Str) (listing : Dict Str Tree) (declarations : List (Str × Tree)) : Option Tree := do
  let l ← read listing declarations
  match upgrade env str l with
  | .ok s => some (tree s)
  | .error _ => none

end Upgraded
