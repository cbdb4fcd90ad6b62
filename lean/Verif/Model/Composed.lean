import Verif.Model.Aggregate
import Verif.Model.Loaded
import Verif.Model.Effective
import Verif.Model.Scan
/-!
# The schemas of a document, composed

`Model/Aggregate.lean` takes schemas by their positions in a heap; here they are the Schema objects of a prepared document, in the
order in which a walk shows them.
-/

namespace Create
open Py Utils Tree Doc Effective

/-- the objects of a class that a walk shows to a scanner, with their paths (`pyswagger/scan.py`:6-20, 104-125) -/
def visited (root : Tree) (c : Nat) : List (Str × Tree) := (Scan.traversal root []).filter fun v => cls? v.2 = some c

/-- the place of the object under a path of a walk (C02) -/
def placeOf (path : Str) : List Str := (jp_split (some path)).tail

/-- the places of the Schema objects -/
def schemaPlaces (root : Tree) : List (List Str) := (visited root cSchema).map fun v => placeOf v.1

/-- the position of the Schema object at a place -/
def schemaIndex (root : Tree) (ts : List Str) : Nat := (schemaPlaces root).idxOf ts

/-- `ref_obj` of a Schema object (`pyswagger/scanner/v2_0/resolve.py`:13-29); references to other documents are left out -/
def refTo (o : Loaded.Outside) (url : Str) (root t : Tree) : Option Nat :=
  match MergeRefs.refText t with
  | none => none
  | some r =>
    match (Loaded.world o url root).resolve r with
    | .error _ => none
    | .ok j => some (schemaIndex root (o.pos j))

/-- the fields of a Schema object that hold no objects, other than `$ref`, if they are not the default (`pyswagger/spec/base.py`:297-304,
`pyswagger/spec/v2_0/objects.py`:67-82); the internal `name` is left out -/
def plainValues (fs : List (Str × Tree)) : Dict Str Aggregate.Value :=
  (fs.filter fun e => (Dict.get? (v20 cSchema).child e.1).isNone && e.1 != c!"$ref" &&
    !isDefault (defaultOf (v20 cSchema) e.1) e.2).map fun e => (e.1, some e.2)

/-- what `_compose` (`pyswagger/scanner/v2_0/aggt.py`:10-44) finds at the place `ts` -/
def schemaObj (o : Loaded.Outside) (url : Str) (root : Tree) (ts : List Str) (t : Tree) : Aggregate.Obj :=
  match t with
  | .obj _ fs => {
      ref := refTo o url root t
      final := none
      items :=
        match attr fs c!"items" with
        | .obj _ _ => some (schemaIndex root (ts ++ [c!"items"]))
        | _ => none
      props :=
        match attr fs c!"properties" with
        | .dict d => d.map fun e => (e.1, schemaIndex root (ts ++ [c!"properties", e.1]))
        | _ => []
      allOf :=
        match attr fs c!"allOf" with
        | .list l => (List.range l.length).map fun i => schemaIndex root (ts ++ [c!"allOf", natStr i])
        | _ => []
      values := plainValues fs
      origin := schemaIndex root ts
      composed := false }
  | _ => Aggregate.nothing

/-- the Schema objects of a document -/
def schemaHeap (o : Loaded.Outside) (url : Str) (root : Tree) : Aggregate.Heap :=
  (visited root cSchema).map fun v => schemaObj o url root (placeOf v.1) v.2

/-- `pyswagger/core.py`:331: the Schema objects after `Aggregate` -/
def composeSchemas (o : Loaded.Outside) (url : Str) (root : Tree) : Option Aggregate.Heap :=
  Aggregate.aggregate (schemaHeap o url root) (List.range (visited root cSchema).length)

end Create
