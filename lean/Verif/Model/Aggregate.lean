import Verif.Py.Dict
import Verif.Model.Merge
/-!
# `pyswagger/scanner/v2_0/aggt.py`: `allOf` composition

Schemas live in a heap and are known by their position (identity matters: the guards compare by
it). A function gives `none` when it runs forever (`partial_fixpoint`).

Of a schema, the references, `items`, `properties`, `allOf` and the fields with a plain value (a scalar,
a list, a dict: `type`, `default`, `required`, `enum`, ...) are modelled. `additionalProperties`, `xml`
and `externalDocs` are not; `_compose` does not look at them. An exception of `merge` when two values
cannot be joined is not an end of the run here: the value is lost (`none`), stays so in everything
made from it, and whoever looks at the heap afterwards finds it. The elements of a joined list are in
the order of their first appearance; in Python the order of a set is arbitrary, and no theorem speaks
of it.
-/

namespace Aggregate
open Py Tree

/-- a plain value; `none`: the exception of a `merge` that was to make it -/
abbrev Value := Option Tree

/-- A schema object: `ref_obj`, `final`, `items`, `properties`, `allOf`, the fields with a plain value
other than the default (with `name`). `origin` and `composed` are not in the code and nothing reads them: the schema of
the document that this one was copied from, and whether it is a `final`. -/
structure Obj where
  ref : Option Nat
  final : Option Nat
  items : Option Nat
  props : Dict Str Nat
  allOf : List Nat
  values : Dict Str Value
  origin : Nat
  composed : Bool

/-- the objects, by position -/
abbrev Heap := List Obj

/-- an object without anything -/
def nothing : Obj := ⟨none, none, none, [], [], [], 0, false⟩

/-- the object at a position -/
def look (h : Heap) (x : Nat) : Obj := (h[x]?).getD nothing

/-- `pyswagger/spec/base.py`:297-328: a plain value merged into a field that has its default -/
def fresh : Value → Value
  | some (.list l) => Doc.joinLists id (.atom .none) l
  | v => v

/-- `pyswagger/spec/base.py`:297-328: a plain value merged into a field that is set -/
def joinValue : Value → Value → Value
  | some own, some (.list l) => Doc.joinLists id own l
  | some own, some (.dict d) => Doc.joinDicts own d
  | some own, some _ => some own
  | _, _ => none

/-- an `own` value of the field `n` after merging the plain values of `d` -/
def joinField (d : Dict Str Value) (n : Str) (own : Value) : Value :=
  match Dict.get? d n with
  | none => own
  | some v => joinValue own v

/-- `pyswagger/spec/base.py`:297-328: the plain values of `d` merged into the `own` ones -/
def joinValues (own d : Dict Str Value) : Dict Str Value :=
  own.map (fun e => (e.1, joinField d e.1 e.2)) ++
  (d.filter fun e => e.1 ∉ Dict.keys own).map fun e => (e.1, fresh e.2)

mutual
/-- `Schema(NullContext()).merge(v, SchemaContext)` (`pyswagger/spec/base.py`:280-334, 288-289): a new
object with copies of the objects in it; `ref_obj`, `final` and `name` are shared. -/
def copyObj (h : Heap) (x : Nat) : Option (Heap × Nat) := do
  let o := look h x
  let (h, items) ← copyOpt h o.items
  let (h, props) ← copyDict h o.props
  let (h, allOf) ← copyList h o.allOf
  some (h ++ [{ o with
    items := items, props := props, allOf := allOf, values := joinValues [] o.values }], h.length)
partial_fixpoint
/-- `container_apply` (`pyswagger/spec/base.py`:23-51) for one object -/
def copyOpt (h : Heap) (x : Option Nat) : Option (Heap × Option Nat) :=
  match x with
  | none => some (h, none)
  | some x => do
    let (h, y) ← copyObj h x
    some (h, some y)
partial_fixpoint
/-- `container_apply` for a list -/
def copyList (h : Heap) (l : List Nat) : Option (Heap × List Nat) :=
  match l with
  | [] => some (h, [])
  | x :: l => do
    let (h, y) ← copyObj h x
    let (h, m) ← copyList h l
    some (h, y :: m)
partial_fixpoint
/-- `container_apply` for a dict -/
def copyDict (h : Heap) (d : List (Str × Nat)) : Option (Heap × List (Str × Nat)) :=
  match d with
  | [] => some (h, [])
  | (n, x) :: d => do
    let (h, y) ← copyObj h x
    let (h, e) ← copyDict h d
    some (h, (n, y) :: e)
partial_fixpoint
end

/-- `pyswagger/utils.py`:265-273 `deref(obj, guard)` with 96-106 `CycleGuard`: the object (`none`: a
`CycleDetectionError`) and what the guard has seen afterwards. -/
def deref (h : Heap) (x : Nat) (guard : List Nat) : Option (Option Nat × List Nat) :=
  if x ∈ guard then some (none, guard)
  else
    match (look h x).ref with
    | none => some (some x, guard ++ [x])
    | some r => deref h r (guard ++ [x])
partial_fixpoint

/-- `o.final if o.final else o` (`aggt.py`:37) -/
def finalOr (h : Heap) (z : Nat) : Nat := ((look h z).final).getD z

/-- `items` after merging `o` into `f` -/
def mergeItems (h : Heap) (f o : Nat) : Option (Heap × Option Nat) :=
  if (look h f).items.isNone then copyOpt h (look h o).items else some (h, (look h f).items)

/-- `properties` after merging `o` into `f` -/
def mergeProps (h : Heap) (f o : Nat) : Option (Heap × Dict Str Nat) :=
  if (look h f).props.isEmpty then copyDict h (look h o).props else some (h, (look h f).props)

/-- `final.merge(o, SchemaContext, exclude=['$ref', 'allOf'])` (`aggt.py`:38) -/
def mergeInto (h : Heap) (f o : Nat) : Option Heap :=
  match mergeItems h f o with
  | none => none
  | some (h, items) =>
    match mergeProps h f o with
    | none => none
    | some (h, props) =>
      some (h.set f { look h f with
        items := items, props := props, values := joinValues (look h f).values (look h o).values })

/-- `pyswagger/scanner/v2_0/aggt.py`:39-42: the properties of a part, but for those of the schema
itself -/
def addProps (own : Dict Str Nat) : Dict Str Nat → List (Str × Nat) → Dict Str Nat
  | d, [] => d
  | d, (n, p) :: ps => addProps own (if n ∈ Dict.keys own then d else Dict.set d n p) ps

/-- `pyswagger/scanner/v2_0/aggt.py`:32-43: the loop over the parts of `obj`, whose composition `f` is
under way; the stack with its top first. -/
def gather (h : Heap) (obj f : Nat) (guard stk : List Nat) : Option Heap :=
  match stk with
  | [] => some h
  | x :: stk =>
    match deref h x guard with
    | none => none
    | some (none, guard) => gather h obj f guard stk
    | some (some z, guard) =>
      match mergeInto h f (finalOr h z) with
      | none => none
      | some h' =>
        let o := look h' (finalOr h z)
        gather (h'.set f { look h' f with props := addProps (look h' obj).props (look h' f).props o.props })
          obj f guard (o.allOf.reverse ++ stk)
partial_fixpoint

/-- `pyswagger/scanner/v2_0/aggt.py`:26-44 for a schema whose parts have been composed -/
def finish (h : Heap) (y : Nat) : Option Heap := do
  let (h, f) ← copyObj h y
  let h := h.set f { look h f with composed := true }
  let h ← gather h y f [] (look h y).allOf.reverse
  some (h.set y { look h y with final := some f })

mutual
/-- `pyswagger/scanner/v2_0/aggt.py`:10-44 `_compose(obj, guard)`: the objects and the guard
afterwards -/
def compose (h : Heap) (x : Nat) (guard : List Nat) : Option (Heap × List Nat) :=
  match deref h x guard with
  | none => none
  | some (none, guard) => some (h, guard)
  | some (some y, guard) =>
    if (look h y).final.isSome then some (h, guard)
    else
      composeAll h ((look h y).items.toList ++ (look h y).props.map (·.2) ++ (look h y).allOf) guard >>=
        fun r => finish r.1 y >>= fun h => some (h, r.2)
partial_fixpoint
/-- `pyswagger/scanner/v2_0/aggt.py`:21-26 -/
def composeAll (h : Heap) (l : List Nat) (guard : List Nat) : Option (Heap × List Nat) :=
  match l with
  | [] => some (h, guard)
  | x :: l => do
    let (h, guard) ← compose h x guard
    composeAll h l guard
partial_fixpoint
end

/-- `pyswagger/scanner/v2_0/aggt.py`:47-58: the scanner, for the schemas in the order visited -/
def aggregate (h : Heap) : List Nat → Option Heap
  | [] => some h
  | x :: xs => do
    let (h, _) ← compose h x []
    aggregate h xs

end Aggregate
