import Verif.Py.Url
import Verif.Model.JsonPointer
import Verif.Model.Scope
/-!
# `pyswagger/scanner/v2_0/patch_obj.py` and the schemes of an `App`

Only the fields read or written here are modelled; `_prim_factory` and `_mime_codec` are passed
on unchanged. `ρ` is the type of parameters as they stand in the document, `σ` the type of a
security requirement. Lists inherited from the document or the path item are never changed
afterwards by the library, so they are values here.
-/

namespace Patch
open Py Utils

variable {ρ σ : Type}

/-- A Swagger object (`pyswagger/spec/v2_0/objects.py`:95-115). -/
structure Root (σ : Type) where
  host : Option Str := none
  basePath : Option Str := none
  schemes : List Str := []
  consumes : List Str := []
  produces : List Str := []
  security : Option (List σ) := none

/-- An `App` while documents are prepared: `root` is `none` if the loaded object is not a Swagger
object. -/
structure App (σ : Type) where
  root : Option (Root σ)
  url : Str
  schemes : List Str

/-- An Operation object (`pyswagger/spec/v2_0/objects.py`:220-245). `parent` is the list of
parameters of the enclosing Path Item, if there is one. -/
structure Op (ρ σ : Type) where
  consumes : List Str := []
  produces : List Str := []
  schemes : List Str := []
  parameters : List ρ := []
  security : Option (List σ) := none
  parent : Option (List ρ) := none
  method : Option Str := none
  url : Option Str := none
  path : Option Str := none
  base_path : Option Str := none
  cached_schemes : List Str := []

/-- `pyswagger/scanner/v2_0/patch_obj.py`:31-37: the parameters of the path item are appended one
by one, unless the name is there already. `name p` is `final(p).name`. -/
def appendMissing (name : ρ → Option Str) (own : List ρ) (path : List ρ) : List ρ :=
  path.foldl (fun ps p => if ps.any (fun pp => name p = name pp) then ps else ps ++ [p]) own

/-- `pyswagger/scanner/v2_0/patch_obj.py`:28-39 -/
def parameters (name : ρ → Option Str) (o : Op ρ σ) : List ρ :=
  match o.parent with
  | none => o.parameters
  | some path => if o.parameters.isEmpty then path else appendMissing name o.parameters path

/-- `pyswagger/scanner/v2_0/patch_obj.py`:19-52 `PatchObject._operation` -/
def operation (name : ρ → Option Str) (app : App σ) (o : Op ρ σ) : Op ρ σ :=
  { o with
    produces := match app.root with
      | some r => if o.produces.length = 0 then r.produces else o.produces
      | none => o.produces
    consumes := match app.root with
      | some r => if o.consumes.length = 0 then r.consumes else o.consumes
      | none => o.consumes
    parameters := parameters name o
    cached_schemes := if o.schemes.length = 0 then app.schemes else o.schemes
    security := match o.security, app.root with
      | none, some r => r.security
      | s, _ => s }

/-- `if x` for a text or None -/
def truthyStr : Option Str → Bool
  | some s => s ≠ []
  | none => false

/-- `pyswagger/scanner/v2_0/patch_obj.py`:60-61 -/
def hostOf (r : Root σ) (url : Str) : Str :=
  let host := if truthyStr r.host then r.host.getD [] else (urlparse url).netloc
  if host.length > 0 then host else c!"localhost"

/-- `pyswagger/scanner/v2_0/patch_obj.py`:62-67 -/
def urlOf (r : Root σ) (url : Str) (k : Str) : Str :=
  urlunparse { scheme := [], netloc := hostOf r url, path := r.basePath.getD [] ++ k, params := [], query := [], fragment := [] }

/-- the last token of a path: `jp_split(path)[-1]` -/
def lastToken (path : Str) : Str := (jp_split (some path)).getLast?.getD []

/-- the fields of a path item holding operations (`pyswagger/spec/v2_0/parser.py`:169-178) -/
def methods : List Str :=
  [c!"get", c!"put", c!"post", c!"delete", c!"options", c!"head", c!"patch"]

/-- `pyswagger/scanner/v2_0/patch_obj.py`:68-83, for the operation in field `n`. -/
def locate (app : App σ) (k n : Str) (o : Op ρ σ) : Op ρ σ :=
  { o with
    base_path := match app.root with
      | some r => r.basePath
      | none => none
    path := some k
    url := match app.root with
      | some r => some (urlOf r app.url k)
      | none => none
    method := some n }

/-- `pyswagger/scanner/v2_0/patch_obj.py`:54-83 `PatchObject._path_item` on the operations of the path
item at `path`. -/
def pathItem (app : App σ) (path : Str) (ops : Dict Str (Op ρ σ)) : Dict Str (Op ρ σ) :=
  ops.map fun e => if e.1 ∈ methods then (e.1, locate app (lastToken path) e.1 e.2) else e

/-- `pyswagger/scanner/v2_0/patch_obj.py`:85-95 `PatchObject._schema`: the new name, if one is
given. -/
def schemaName (version12 : Bool) (path : Str) : Option Str :=
  if startsWith path c!"#/definitions" then
    if version12 then ((scope_split (some (lastToken path))).getLast?).join
    else some (lastToken path)
  else none

/-- `pyswagger/core.py`:290-292 (`load`) and 321-326 (`prepare`): `App.schemes` when `PatchObject`
runs. The branch in line 326 is never taken: a list that is true is not empty. -/
def schemesOf (root : Option (Root σ)) (url : Str) : List Str :=
  let loaded := if (urlparse url).scheme ≠ [] then [(urlparse url).scheme] else []
  match root with
  | some r => if r.schemes.isEmpty then loaded else r.schemes
  | none => loaded

end Patch
