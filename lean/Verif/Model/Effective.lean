import Verif.Model.MergeRefs
import Verif.Model.Patch
import Verif.Model.Call
/-!
# From parameter objects of a document to the parameters of a call

`Merge` (`pyswagger/scanner/v2_0/merge.py`:49-51) gives every Parameter object its field `final`, inline ones
too. `PatchObject` (`pyswagger/scanner/v2_0/patch_obj.py`:28-39) completes the list of an operation by names of
`final`, and `Operation.__call__` (`pyswagger/spec/v2_0/objects.py`:282-283) reads `final` only. This module joins
the models of these steps. `shows` and `declares` say which attribute of an object is which field of `Prim.Node`
and `Call.Decl`; attributes of a type not foreseen by Swagger 2.0 (a number as `type`, an infinity as `maximum`,
a negative `maxLength`) are taken for missing there, which the code does not do.
-/

namespace Effective
open Py Tree Doc Prim Call

variable {ω : Type}

/-- `getattr(obj, n)` -/
def attr (fs : List (Str × Tree)) (n : Str) : Tree := (Dict.get? fs n).getD (.atom .none)

/-- a text -/
def text? : Tree → Option Str
  | .atom (.str s) => some s
  | _ => none

/-- a number -/
def number? : Tree → Option Rat
  | .atom (.int n) => some n
  | .atom (.float (.fin q)) => some q
  | _ => none

/-- a length -/
def length? : Tree → Option Nat
  | .atom (.int (.ofNat n)) => some n
  | _ => none

/-- a scalar as a Python value -/
def atomVal : Atom → Val
  | .none => .none
  | .bool b => .bool b
  | .int n => .int n
  | .float x => .float x
  | .str s => .str s

mutual
/-- what `json.loads` gave, as a Python value; objects of the library do not occur in plain fields -/
def toVal : Tree → Val
  | .atom a => atomVal a
  | .list l => .list (toVals l)
  | .dict d => .dict (toPairs d)
  | .obj _ _ => .none
def toVals : List Tree → List Val
  | [] => []
  | t :: l => toVal t :: toVals l
def toPairs : List (Str × Tree) → List (Str × Val)
  | [] => []
  | (n, t) :: d => (n, toVal t) :: toPairs d
end

/-- the elements of a list, nothing else has any -/
def listed : Tree → List Tree
  | .list l => l
  | _ => []

/-- The attributes of a Parameter, Header or Items object that conversion reads
(`pyswagger/spec/v2_0/objects.py`:31-57, 157-176, 191-194). `is_set("default")` holds exactly if the field is not
`None`: `merge` updates a field of a new object only with a value other than the default
(`pyswagger/spec/base.py`:291-328, 336-343). Only a Parameter has a name. -/
def nodeOf (c : Nat) (fs : List (Str × Tree)) (items : Option Nat) : Node where
  type := text? (attr fs c!"type")
  format := text? (attr fs c!"format")
  items := items
  default := toVal (attr fs c!"default")
  defaultSet := !isNull (attr fs c!"default")
  maximum := number? (attr fs c!"maximum")
  exclusiveMaximum := !falsy (attr fs c!"exclusiveMaximum")
  minimum := number? (attr fs c!"minimum")
  exclusiveMinimum := !falsy (attr fs c!"exclusiveMinimum")
  maxLength := length? (attr fs c!"maxLength")
  minLength := length? (attr fs c!"minLength")
  maxItems := length? (attr fs c!"maxItems")
  minItems := length? (attr fs c!"minItems")
  multipleOf := (number? (attr fs c!"multipleOf")).getD 0
  enum := toVals (listed (attr fs c!"enum"))
  uniqueItems := !falsy (attr fs c!"uniqueItems")
  collectionFormat := text? (attr fs c!"collectionFormat")
  isSchema := false
  name := if c = cParameter then some (text? (attr fs c!"name")) else none

/-- The object `n` of `env` is the given Parameter, Header or Items object. -/
inductive Shows (env : Env ω) : Nat → Tree → Prop
  | plain {n c fs} : isNull (attr fs c!"items") = true → env.node n = nodeOf c fs none → Shows env n (.obj c fs)
  | array {n c fs m} : Shows env m (attr fs c!"items") → env.node n = nodeOf c fs (some m) →
      Shows env n (.obj c fs)

/-- `p` is the parameter whose `final` is the given object: the attributes read by `Operation.__call__`
(`pyswagger/spec/v2_0/objects.py`:251-281) -/
def Declares (env : Env ω) (p : Decl) : Tree → Prop
  | .obj c fs => attr fs c!"name" = .atom (.str p.name) ∧ attr fs c!"in" = .atom (.str p.in_) ∧
      p.required = !falsy (attr fs c!"required") ∧ Shows env p.obj (.obj c fs) ∧
      p.schema.isSome = !isNull (attr fs c!"schema")
  | _ => False

/-- `pyswagger/scanner/v2_0/merge.py`:49-51: the parameters with their `final`; `none` if one raises -/
def finals (W : MergeRefs.World) (order : List Atom → List Atom) (fuel : Nat) : List Nat → Option (List (Nat × Tree))
  | [] => some []
  | i :: l =>
    match MergeRefs.effective W order cParameter fuel i with
    | some (.value t) => (finals W order fuel l).map ((i, t) :: ·)
    | _ => none

/-- `final(p).name` -/
def nameOf (p : Nat × Tree) : Option Str :=
  match p.2 with
  | .obj _ fs => text? (attr fs c!"name")
  | _ => none

/-- `Merge`, then `PatchObject` (`pyswagger/core.py`:333-342): the objects `final(p)` of the parameters of an
operation, where `own` are its parameters and `up` those of its path item. -/
def parameters (W : MergeRefs.World) (order : List Atom → List Atom) (fuel : Nat) (own up : List Nat) :
    Option (List Tree) :=
  match finals W order fuel own, finals W order fuel up with
  | some o, some u =>
    some ((Patch.parameters nameOf ({ parameters := o, parent := some u } : Patch.Op (Nat × Tree) Unit)).map Prod.snd)
  | _, _ => none

end Effective
