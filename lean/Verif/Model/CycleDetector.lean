import Verif.Model.Walk
/-! # `pyswagger/scanner/cycle_detector.py` and the strict check in `pyswagger/core.py` -/

namespace CycleDetector
open Py Utils

/-- The parts of a 2.0 `Schema` object that `_schema_out_obj` reads: `$ref` (after
normalisation; `None` and `''` are both "no reference"), `properties`, `allOf`,
`additionalProperties` when it is a schema, `items`. -/
inductive Schema where
  | mk (ref : Option Str) (properties : List (Str × Schema)) (allOf : List Schema)
      (additionalProperties : Option Schema) (items : Option Schema)

mutual
/-- `pyswagger/scanner/cycle_detector.py`:24-43 `_schema_out_obj(obj, out)`. -/
def schemaOutObj : Schema → List Str → List Str
  | .mk ref properties allOf additionalProperties items, out =>
    let out := outProps properties out
    let out := outList allOf out
    let out := outOpt additionalProperties out
    let out := outOpt items out
    match ref with
    | some (c :: r) => out ++ [c :: r]
    | _ => out
/-- lines 27-28 -/
def outProps : List (Str × Schema) → List Str → List Str
  | [], out => out
  | (_, o) :: ps, out => outProps ps (schemaOutObj o out)
/-- lines 30-31 -/
def outList : List Schema → List Str → List Str
  | [], out => out
  | o :: os, out => outList os (schemaOutObj o out)
/-- lines 33-37 -/
def outOpt : Option Schema → List Str → List Str
  | none, out => out
  | some o, out => schemaOutObj o out
end

/-- `pyswagger/scanner/cycle_detector.py`:45-47 `_schema_out(app, path)`; `resolve` is
`app.resolve(path, parser=SchemaContext)`, assumed not to raise (`none` is `None`). -/
def schemaOut (resolve : Str → Option Schema) (path : Str) : List Str :=
  match resolve path with
  | none => []
  | some s => schemaOutObj s []

/-- `pyswagger/scanner/cycle_detector.py`:63-69 `CycleDetector._schema`, for the schemas at
`paths` in scanning order, starting from the cycles `cyc`; `fuel` bounds each walk. -/
def scanSchemas [LinearOrder Str] (fuel : Nat) (resolve : Str → Option Schema) :
    List Str → List (List Str) → Option (Except Exc (List (List Str)))
  | [], cyc => some (.ok cyc)
  | p :: ps, cyc =>
    match walk fuel p (schemaOut resolve) (some cyc) with
    | none => none
    | some (.error e) => some (.error e)
    | some (.ok cyc') => scanSchemas fuel resolve ps cyc'

/-- `pyswagger/core.py`:334-336 and 349-351: the last part of `App.prepare`. The schema cycles
start out empty. -/
def prepareCycleCheck [LinearOrder Str] (fuel : Nat) (resolve : Str → Option Schema)
    (paths : List Str) (strict : Bool) : Option (Except Exc Unit) :=
  match scanSchemas fuel resolve paths [] with
  | none => none
  | some (.error e) => some (.error e)
  | some (.ok cyc) =>
    if cyc.length > 0 && strict then some (.error .CycleDetectionError) else some (.ok ())

end CycleDetector
