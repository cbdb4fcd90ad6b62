import Verif.Model.Service
import Verif.Model.Scan
import Verif.Model.Scope
/-!
# `app.op`, `app.m` and the operations behind them

`Model/Scope.lean` takes the operations of a document as a list; here they are those the walk of `Model/Scan.lean` finds in
the prepared document. An object is known by its number, which stands for its place (`Model/Loaded.lean`).
-/

namespace Index
open Py Utils Tree Doc Effective Schemas

variable (o : Objects.Outside) (url : Str) (root : Tree)

/-- the fields of an Operation object that `TypeReduce` reads (`pyswagger/scanner/type_reducer.py`:21-22) -/
def infoOf (n : Nat) (fs : List (Str × Tree)) : OpInfo where
  id := n
  tags :=
    match attr fs c!"tags" with
    | .list l => some (texts l)
    | _ => none
  operationId := text? (attr fs c!"operationId")

/-- the object shown to a scanner under the path `v.1` (`pyswagger/scan.py`:6-20), if it is an Operation; the tokens of the path
are those of its place (C02) -/
def visit (v : Str × Tree) : Option OpInfo :=
  match v.2 with
  | .obj c fs => if c = cOperation then some (infoOf (o.num (jp_split (some v.1)).tail) fs) else none
  | _ => none

/-- The operations in the order of `s.scan(root=self.__root, route=[tr, cy])` (`pyswagger/core.py`:334-336). `Merge`, `PatchObject`
and `Aggregate` have run before: what they change is inside of operations, but for path items with a reference (see
`index`), and neither tags nor operation ids. -/
def ops : List OpInfo := (Scan.traversal root []).filterMap (visit o)

/-- does a path item have a reference? -/
def referring : Tree → Bool
  | .obj _ fs => !falsy (attr fs c!"$ref")
  | _ => false

/-- no path item has a reference -/
def inPlace : Tree → Bool
  | .obj _ fs => (entries (attr fs c!"paths")).all fun x => !referring x.2
  | _ => true

/-- `app.op` (`pyswagger/core.py`:334-339, `pyswagger/scanner/type_reducer.py`:19-34), or the exception that preparing raises. `none`:
documents that have path items with references are not modelled (`Merge` copies operations into them,
`pyswagger/scanner/v2_0/merge.py`:57-59). -/
def index (sep : Str) : Option (Except Exc (Dict Str Nat)) :=
  if inPlace root then some (TypeReduce.run sep (ops o root)) else none

/-- `app.m` (`pyswagger/core.py`:340-345) -/
def models : Dict Str Nat :=
  match root with
  | .obj _ fs => (entries (attr fs c!"definitions")).map fun x => (x.1, o.num [c!"definitions", x.1])
  | _ => []

/-- the numbers of the parameters of the object `n`, in its document -/
def parameters (n : Nat) : List Nat :=
  match Tree.resolve (o.pos n) root with
  | .ok (.obj _ fs) => (List.range (listed (attr fs c!"parameters")).length).map fun i => o.num (o.pos n ++ [c!"parameters", natStr i])
  | _ => []

/-- the object `obj._parent_` of the Operation object `n` (C76) -/
def parent (n : Nat) : Nat := o.num (o.pos n).dropLast

/-- what a call of the Operation object `n` works with: its parameters and what a request needs of it
(`pyswagger/scanner/v2_0/patch_obj.py`:19-83, `pyswagger/spec/v2_0/objects.py`:240-300) -/
def operation (order : List Atom → List Atom) (fuel : Nat) (deref : Nat → Except Exc Nat) (n : Nat) :
    Option (Io.Op Nat × List Call.Decl) :=
  match Objects.decls o url root order fuel (parameters o root n) (parameters o root (parent o n)) with
  | none => none
  | some ps =>
    (Service.operation url root (o.pos n).dropLast ((o.pos n).getLastD []) deref ps).map fun op => (op, ps)

end Index
