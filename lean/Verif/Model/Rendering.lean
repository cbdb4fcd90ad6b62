import Verif.Model.Composed
import Verif.Model.Schemas
import Verif.Model.Render
/-!
# The schemas of a document, as `Renderer` finds them

`Model/Render.lean` takes schemas by numbers; here these are the positions in the heap that `Aggregate` leaves behind
(`Model/Composed.lean`).
-/

namespace Create
open Py Tree Prim Effective

/-- the plain fields of an object that were not lost -/
def fieldsOf (o : Aggregate.Obj) : List (Str × Tree) := o.values.filterMap fun e => e.2.map fun t => (e.1, t)

/-- `isinstance(x, six.integer_types)` of a number (`pyswagger/primitives/render.py`:38) -/
def isWhole : Tree → Bool
  | .atom (.int _) => true
  | _ => false

/-- The attributes that `Renderer` reads (`pyswagger/primitives/render.py`:25-65, 173-228). `additionalProperties` are not
followed by `Model/Aggregate.lean`: here they are taken for a flag, which `Renderer` ignores. So this is about documents without
schemas for additional properties. -/
def renderNode (h : Aggregate.Heap) (x : Nat) : Render.Node :=
  let o := Aggregate.look h x
  { Schemas.nodeOf (fieldsOf o) none o.items o.allOf o.props .yes with
    maxProperties := length? (attr (fieldsOf o) c!"maxProperties")
    minProperties := length? (attr (fieldsOf o) c!"minProperties")
    multipleInt := isWhole (attr (fieldsOf o) c!"multipleOf") }

/-- `final(deref(obj))` (`pyswagger/utils.py`:265-276; `pyswagger/primitives/render.py`:174) -/
def renderTarget (h : Aggregate.Heap) (x : Nat) : Except Exc Nat :=
  match Aggregate.deref h x [] with
  | some (some z, _) => .ok (Aggregate.finalOr h z)
  | _ => .error .CycleDetectionError

/-- the schemas for `Renderer` -/
def renderEnv (special : Render.Special → Nat → Val → Gen Val) (h : Aggregate.Heap) : Render.Env where
  node := renderNode h
  target := renderTarget h
  special := special

end Create
