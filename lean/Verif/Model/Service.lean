import Verif.Model.Objects
import Verif.Model.Client
/-!
# The operations of a prepared document

`Model/Patch.lean` takes the fields of the Swagger object and of the operations as given; here they are the ones of the
document, after reading it (`Model/Doc.lean`) and making its references absolute (`Model/Loaded.lean`). Fields of a type not
foreseen by Swagger 2.0 are taken for missing (the library would raise an exception, or use them as they are).
-/

namespace Service
open Py Utils Tree Doc Effective Schemas

/-- a security requirement: a dict from names to lists of scopes -/
def requirement (t : Tree) : Dict Str (List Str) := (entries t).map fun x => (x.1, texts (listed x.2))

/-- the field `security`: `None`, or a list -/
def requirements (t : Tree) : Option (List (Dict Str (List Str))) :=
  if isNull t then none else some ((listed t).map requirement)

/-- the fields of the Swagger object that `PatchObject` reads (`pyswagger/scanner/v2_0/patch_obj.py`:23-26, 40-50, 60-67,
`pyswagger/core.py`:321-326) -/
def rootOf (fs : List (Str × Tree)) : Patch.Root (Dict Str (List Str)) where
  host := text? (attr fs c!"host")
  basePath := text? (attr fs c!"basePath")
  schemes := texts (listed (attr fs c!"schemes"))
  consumes := texts (listed (attr fs c!"consumes"))
  produces := texts (listed (attr fs c!"produces"))
  security := requirements (attr fs c!"security")

/-- the fields of an Operation object that `PatchObject` reads, but for its parameters
(`pyswagger/scanner/v2_0/patch_obj.py`:19-50); those are in `Objects.decls` -/
def opOf (fs : List (Str × Tree)) : Patch.Op Unit (Dict Str (List Str)) where
  consumes := texts (listed (attr fs c!"consumes"))
  produces := texts (listed (attr fs c!"produces"))
  schemes := texts (listed (attr fs c!"schemes"))
  security := requirements (attr fs c!"security")

/-- `App.root`, if it is a Swagger object -/
def root? : Tree → Option (Patch.Root (Dict Str (List Str)))
  | .obj c fs => if c = cSwagger then some (rootOf fs) else none
  | _ => none

/-- the `App` that loaded the document from `url`, when `PatchObject` runs (`pyswagger/core.py`:312-331) -/
def app (url : Str) (root : Tree) : Patch.App (Dict Str (List Str)) :=
  ⟨root? root, url, Patch.schemesOf (root? root) url⟩

/-- the path of an object for a scanner (`pyswagger/scan.py`:6-20, 104-127): a JSON pointer with the tokens of its place -/
def pathOf (place : List Str) : Str := (jp_compose (.list place) (some c!"#")).getD []

/-- the operation in the field `method` of the path item at `place`, after `PatchObject`
(`pyswagger/scanner/v2_0/patch_obj.py`:19-83) -/
def patched (url : Str) (root : Tree) (place : List Str) (method : Str) : Option (Patch.Op Unit (Dict Str (List Str))) :=
  match Tree.resolve (place ++ [method]) root with
  | .ok (.obj c fs) =>
    if c = cOperation then
      Dict.get? (Patch.pathItem (app url root) (pathOf place)
        [(method, Patch.operation (fun _ => none) (app url root) (opOf fs))]) method
    else none
  | _ => none

/-- a parameter as `Request._prepare_body` sees it (`pyswagger/io.py`:76-85): `deref(parameter.schema)` fails for `None`
with the attributes asked for -/
def paramDecl (deref : Nat → Except Exc Nat) (d : Call.Decl) : Io.ParamDecl Nat where
  name := d.name
  in_ := d.in_
  schema :=
    match d.schema with
    | some m => deref m
    | none => .error .AttributeError

/-- the parts of an operation that a request uses (`pyswagger/io.py`:26-40, 236-300), with its parameters -/
def operation (url : Str) (root : Tree) (place : List Str) (method : Str) (deref : Nat → Except Exc Nat)
    (ps : List Call.Decl) : Option (Io.Op Nat) :=
  (patched url root place method).map fun o =>
    { url := o.url.getD [], path := o.path.getD [], method := o.method.getD [], consumes := o.consumes,
      produces := o.produces, schemes := o.cached_schemes, security := o.security, parameters := ps.map (paramDecl deref) }

/-- a Security Scheme object, as far as `Security.update_with` reads it (`pyswagger/core.py`:474-490) -/
def schemeOf (fs : List (Str × Tree)) : Core.SecurityScheme where
  type := text? (attr fs c!"type")
  name := (text? (attr fs c!"name")).getD []
  in_ := text? (attr fs c!"in")

/-- `app.root.securityDefinitions` (`pyswagger/core.py`:474); the parser gives a document without them an empty dict
(`pyswagger/spec/base.py`:152-155) -/
def defs (root : Tree) : Dict Str Core.SecurityScheme :=
  match root with
  | .obj _ fs => (entries (attr fs c!"securityDefinitions")).filterMap fun x =>
      match x.2 with
      | .obj _ gs => some (x.1, schemeOf gs)
      | _ => none
  | _ => []

end Service
