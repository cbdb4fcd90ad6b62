import Verif.Model.Tree
import Verif.Py.Dict
/-!
# What a JSON document says about a service and its operations (C86)

Everything is said about the dicts written in the document, after the Swagger 2.0 standard (sections "Swagger Object",
"Operation Object", "Security Requirement Object", "Security Scheme Object").
-/

namespace Spec.Service
open Py Tree

/-- a text of JSON -/
def text (s : Str) : Tree := .atom (.str s)

/-- what a document holds for security requirements: dicts from the names of schemes to scopes -/
def requirements (l : List (Dict Str (List Str))) : Tree :=
  .list (l.map fun d => .dict (d.map fun x => (x.1, .list (x.2.map text))))

/-- the list of texts under a key; nothing is the empty list -/
def Texts (q : Dict Str Tree) (n : Str) (l : List Str) : Prop :=
  Dict.get? q n = some (.list (l.map text)) ∨ Dict.get? q n = none ∧ l = []

/-- the text under a key; nothing and null are none -/
def Maybe (q : Dict Str Tree) (n : Str) : Option Str → Prop
  | some s => Dict.get? q n = some (text s)
  | none => Dict.get? q n = none ∨ Dict.get? q n = some (.atom .none)

/-- the security requirements under the key `security`; nothing and null are none -/
def Requires (q : Dict Str Tree) : Option (List (Dict Str (List Str))) → Prop
  | some l => Dict.get? q c!"security" = some (requirements l)
  | none => Dict.get? q c!"security" = none ∨ Dict.get? q c!"security" = some (.atom .none)

/-- what a document says about the service as a whole -/
structure Common where
  host : Option Str := none
  basePath : Option Str := none
  schemes : List Str := []
  consumes : List Str := []
  produces : List Str := []
  security : Option (List (Dict Str (List Str))) := none

/-- what an operation says for itself -/
structure Own where
  schemes : List Str := []
  consumes : List Str := []
  produces : List Str := []
  security : Option (List (Dict Str (List Str))) := none

/-- the dict of the document says this about the service -/
structure Common.In (s : Common) (q : Dict Str Tree) : Prop where
  host : Maybe q c!"host" s.host
  basePath : Maybe q c!"basePath" s.basePath
  schemes : Texts q c!"schemes" s.schemes
  consumes : Texts q c!"consumes" s.consumes
  produces : Texts q c!"produces" s.produces
  security : Requires q s.security

/-- the dict of the operation says this -/
structure Own.In (s : Own) (q : Dict Str Tree) : Prop where
  schemes : Texts q c!"schemes" s.schemes
  consumes : Texts q c!"consumes" s.consumes
  produces : Texts q c!"produces" s.produces
  security : Requires q s.security

/-- the requirements in force: those of the operation, even if there are none of them, else those of the service -/
def inForce (own common : Option (List (Dict Str (List Str)))) : Option (List (Dict Str (List Str))) :=
  match own with
  | some l => some l
  | none => common

/-- the names of the schemes required -/
def required : Option (List (Dict Str (List Str))) → List Str
  | none => []
  | some l => l.flatMap fun d => d.map Prod.fst

/-- the kinds of credentials -/
inductive Kind
  | basic
  | key (inHeader : Bool) (name : Str)
  | oauth2

/-- the dict written for a security scheme says this -/
def Defines (q : Dict Str Tree) : Kind → Prop
  | .basic => Dict.get? q c!"type" = some (text c!"basic")
  | .key h n => Dict.get? q c!"type" = some (text c!"apiKey") ∧ Dict.get? q c!"name" = some (text n) ∧
      Dict.get? q c!"in" = some (text (if h then c!"header" else c!"query"))
  | .oauth2 => Dict.get? q c!"type" = some (text c!"oauth2")

end Spec.Service
