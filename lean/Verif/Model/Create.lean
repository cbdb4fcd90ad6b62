import Verif.Model.Index
import Verif.Model.Composed
import Verif.Model.CycleDetector
import Verif.Model.Validate
import Verif.Model.Validate12
import Verif.Model.Upgraded
/-!
# `App.create`: from a document to an application, or to an exception

`pyswagger/core.py`:163-231, 261-372: the document is read, its references are made absolute, and the scanners run one after
another. Each scanner has its own model; here they are put in their order, with the exceptions they raise. What `PatchObject` and
`Aggregate` change is not read by the scanners after them (C50, C51, C53, C68). `create` is for documents of Swagger 2.0, `create12`
for those of 1.2.
-/

namespace Create
open Py Utils Tree Doc Effective

/-- the number of the object at a path -/
def numAt (o : Objects.Outside) (path : Str) : Nat := o.num (jp_split (some path)).tail

/-- `pyswagger/scanner/v2_0/resolve.py`:13-29 on the Schema objects, one after another -/
def resolveAll (W : MergeRefs.World) : List (Str × Tree) → Except Exc Unit
  | [] => .ok ()
  | v :: vs =>
    match MergeRefs.refText v.2 with
    | none => resolveAll W vs
    | some r =>
      match W.resolve r with
      | .error e => .error e
      | .ok j => if cls? (W.content j) = some cSchema then resolveAll W vs else .error .TypeError

/-- what becomes of a merge; `none`: an exception inside of it, or no end -/
def ended : Option MergeRefs.Outcome → Option (Except Exc Unit)
  | some (.value _) => some (.ok ())
  | some (.raised e) => some (.error e)
  | some .failed => none
  | none => none

/-- `pyswagger/scanner/v2_0/merge.py`:44-59 on one object -/
def mergeOne (W : MergeRefs.World) (order : List Atom → List Atom) (fuel i : Nat) (t : Tree) : Option (Except Exc Unit) :=
  if cls? t = some cPathItem then ended (MergeRefs.pathItem W order fuel i)
  else if cls? t = some cParameter then ended (MergeRefs.effective W order cParameter fuel i)
  else if cls? t = some cResponse then ended (MergeRefs.effective W order cResponse fuel i)
  else some (.ok ())

/-- `pyswagger/scanner/v2_0/merge.py` on the objects, one after another (`pyswagger/core.py`:329) -/
def mergeAll (o : Objects.Outside) (W : MergeRefs.World) (order : List Atom → List Atom) (fuel : Nat) :
    List (Str × Tree) → Option (Except Exc Unit)
  | [] => some (.ok ())
  | v :: vs =>
    match mergeOne W order fuel (numAt o v.1) v.2 with
    | some (.ok _) => mergeAll o W order fuel vs
    | r => r

/-- the root with another path item under a name -/
def putItem (root : Tree) (k : Str) (t : Tree) : Tree :=
  match root with
  | .obj c fs =>
    match attr fs c!"paths" with
    | .dict d => .obj c (Dict.set fs c!"paths" (.dict (Dict.set d k t)))
    | _ => root
  | _ => root

/-- the names of the path items in the order of the walk; they stand under `paths` only (`pyswagger/spec/v2_0/parser.py`:231) -/
def itemNames (root : Tree) : List Str := (visited root cPathItem).map fun v => (jp_split (some v.1)).tail.getLastD []

/-- `pyswagger/scanner/v2_0/merge.py`:57-59 on the path items, one after another: each is merged in place, so that the ones after it
find it merged. `none`: an exception, or no end (`mergeAll` tells which). -/
def mergeItems (o : Objects.Outside) (url : Str) (order : List Atom → List Atom) (fuel : Nat) : List Str → Tree → Option Tree
  | [], root => some root
  | k :: ks, root =>
    match MergeRefs.pathItem (Loaded.world o.toOutside url root) order fuel (o.num [c!"paths", k]) with
    | some (.value t) => mergeItems o url order fuel ks (putItem root k t)
    | _ => none

/-- the document as the scanners after `Merge` find it. Path items without references are not changed by it: they are merged with
copies of themselves, and every field that is set is kept (C43, C52). -/
def spread (o : Objects.Outside) (url : Str) (root : Tree) (order : List Atom → List Atom) (fuel : Nat) : Option Tree :=
  if Index.inPlace root then some root else mergeItems o url order fuel (itemNames root) root

/-- does it have a length? -/
def sized : Tree → Bool
  | .atom (.str _) => true
  | .list _ => true
  | .dict _ => true
  | _ => false

/-- nothing, or a text -/
def textual (t : Tree) : Bool := falsy t || (text? t).isSome

/-- `pyswagger/scanner/v2_0/patch_obj.py`:20-61 on one object, as to exceptions: the lengths taken of fields of an Operation object
(26-27, 42) and the URL made for a PathItem object (57-64); all are of type `TypeError` -/
def patchOne (root t : Tree) : Except Exc Unit :=
  match t with
  | .obj c fs =>
    if c = cOperation then
      if sized (attr fs c!"produces") && sized (attr fs c!"consumes") && sized (attr fs c!"schemes") then .ok () else .error .TypeError
    else if c = cPathItem then
      match root with
      | .obj _ rs => if textual (attr rs c!"host") && textual (attr rs c!"basePath") then .ok () else .error .TypeError
      | _ => .ok ()
    else .ok ()
  | _ => .ok ()

/-- `pyswagger/core.py`:330 -/
def patchAll (root : Tree) : List (Str × Tree) → Except Exc Unit
  | [] => .ok ()
  | v :: vs =>
    match patchOne root v.2 with
    | .error e => .error e
    | .ok _ => patchAll root vs

/-- `pyswagger/core.py`:321-322: the length of `root.schemes`, unless it is nothing -/
def schemesOf (root : Tree) : Except Exc Unit :=
  match root with
  | .obj _ rs => if falsy (attr rs c!"schemes") || sized (attr rs c!"schemes") then .ok () else .error .TypeError
  | _ => .ok ()

/-- `getattr(obj, '$ref')` of fields; a text or nothing -/
def refOf (fs : List (Str × Tree)) : Option Str := text? (attr fs c!"$ref")

mutual
/-- what `_schema_out_obj` reads of a Schema object (`pyswagger/scanner/cycle_detector.py`:24-43) -/
def schemaOf : Tree → CycleDetector.Schema
  | .obj _ fs => .mk (refOf fs) (propertiesIn fs) (allOfIn fs) (oneIn c!"additionalProperties" fs) (oneIn c!"items" fs)
  | _ => .mk none [] [] none none
/-- `obj.properties` -/
def propertiesIn : List (Str × Tree) → List (Str × CycleDetector.Schema)
  | [] => []
  | (n, t) :: fs => if n = c!"properties" then (match t with | .dict d => schemasIn d | _ => []) else propertiesIn fs
/-- `obj.allOf` -/
def allOfIn : List (Str × Tree) → List CycleDetector.Schema
  | [] => []
  | (n, t) :: fs => if n = c!"allOf" then (match t with | .list l => schemaList l | _ => []) else allOfIn fs
/-- `obj.additionalProperties` or `obj.items`, if it is an object -/
def oneIn (m : Str) : List (Str × Tree) → Option CycleDetector.Schema
  | [] => none
  | (n, t) :: fs => if n = m then (match t with | .obj c gs => some (schemaOf (.obj c gs)) | _ => none) else oneIn m fs
def schemasIn : List (Str × Tree) → List (Str × CycleDetector.Schema)
  | [] => []
  | (n, t) :: d => (n, schemaOf t) :: schemasIn d
def schemaList : List Tree → List CycleDetector.Schema
  | [] => []
  | t :: l => schemaOf t :: schemaList l
end

/-- `pyswagger/core.py`:374-426 `App.resolve` of a path of a walk, or of a reference made absolute, once the document is in
the cache and `App.root` is set: a path has no URL and is followed from the root (412-418). `none`: not found; the references
have been resolved before (`resolveAll`). -/
def target (o : Objects.Outside) (url : Str) (root : Tree) (path : Str) : Option Tree :=
  match jr_split o.path2url o.abspath path with
  | .error _ => none
  | .ok (u, jp) => if u = url ∨ u = [] then (Tree.resolve (jp_split (some jp)).tail root).toOption else none

/-- `pyswagger/scanner/cycle_detector.py`:19-22 `_out` -/
def refOut (o : Objects.Outside) (url : Str) (root : Tree) (path : Str) : List Str :=
  match (target o url root path).bind MergeRefs.refText with
  | some r => [r]
  | none => []

/-- `pyswagger/scanner/cycle_detector.py`:71-93: the walks from Parameter, Response and PathItem objects, one class at a
time -/
def scanRefs [LinearOrder Str] (fuel : Nat) (out : Str → List Str) : List Str → List (List Str) →
    Option (Except Exc (List (List Str)))
  | [], cyc => some (.ok cyc)
  | p :: ps, cyc =>
    match walk fuel p out (some cyc) with
    | none => none
    | some (.error e) => some (.error e)
    | some (.ok cyc) => scanRefs fuel out ps cyc

/-- the walks from the objects of the given classes -/
def scanClasses [LinearOrder Str] (fuel : Nat) (o : Objects.Outside) (url : Str) (root : Tree) :
    List Nat → Option (Except Exc Unit)
  | [] => some (.ok ())
  | c :: cs =>
    match scanRefs fuel (refOut o url root) ((visited root c).map Prod.fst) [] with
    | none => none
    | some (.error e) => some (.error e)
    | some (.ok _) => scanClasses fuel o url root cs

/-- the classes of Swagger 2.0 have no other class with handlers among their bases -/
def mro (c : Nat) : List Nat := [c]

/-- `pyswagger/core.py`:333-351: the last walk. `TypeReduce` and `CycleDetector` share it; the latter raises nothing once the references
have been resolved, so one is run after the other here. -/
def finish [LinearOrder Str] (o : Objects.Outside) (url : Str) (root : Tree) (fuel : Nat) (sep : Str) (strict : Bool) :
    Option (Except Exc (Dict Str Nat × Dict Str Nat)) :=
  match TypeReduce.run sep (Index.ops o root) with
  | .error e => some (.error e)
  | .ok op =>
    match scanClasses fuel o url root [cParameter, cResponse, cPathItem] with
    | none => none
    | some (.error e) => some (.error e)
    | some (.ok _) =>
      match CycleDetector.prepareCycleCheck fuel (fun p => (target o url root p).map schemaOf)
          ((visited root cSchema).map Prod.fst) strict with
      | none => none
      | some (.error e) => some (.error e)
      | some (.ok _) => some (.ok (op, Index.models o root))

/-- `pyswagger/core.py`:331 as to exceptions: `true` if every schema has been composed, `false` if `merge` has raised one
(`pyswagger/spec/base.py`:306-314) for values of a field that do not fit together, or if there is no end -/
def aggregated (o : Objects.Outside) (url : Str) (root : Tree) : Bool :=
  match composeSchemas o.toOutside url root with
  | none => false
  | some h => h.all fun x => x.values.all fun e => e.2.isSome

/-- `pyswagger/core.py`:312-351 `App.prepare(strict)`, from 228 on, for a document whose references have been made absolute:
the tables `app.op` and `app.m`, or the exception. `checked` is the outcome of `validate` (319). `none`: an exception that is
not told apart, or no end after `fuel` rounds. -/
def prepare [LinearOrder Str] (o : Objects.Outside) (url : Str) (root : Tree) (checked : Except Exc Unit) (order : List Atom → List Atom)
    (fuel : Nat) (sep : Str) (strict : Bool) : Option (Except Exc (Dict Str Nat × Dict Str Nat)) :=
  match resolveAll (Loaded.world o.toOutside url root) (visited root cSchema) with
  | .error e => some (.error e)
  | .ok _ =>
    match checked with
    | .error e => some (.error e)
    | .ok _ =>
      match schemesOf root with
      | .error e => some (.error e)
      | .ok _ =>
        match mergeAll o (Loaded.world o.toOutside url root) order fuel (Scan.traversal root []) with
        | none => none
        | some (.error e) => some (.error e)
        | some (.ok _) =>
          match spread o url root order fuel with
          | none => none
          | some root =>
            match patchAll root (Scan.traversal root []) with
            | .error e => some (.error e)
            | .ok _ => if aggregated o url root then finish o url root fuel sep strict else none

/-- `pyswagger/core.py`:353-367 `App.create(url, strict)` with 163-193 and 261-293, for the document found at the URL; `none` as
above, and for documents of version 1.2 (`create12`). `names` gives the names of classes in messages of the validation. -/
def create [LinearOrder Str] (o : Objects.Outside) (url : Str) (doc : Tree) (names : Nat → Str) (order : List Atom → List Atom)
    (fuel : Nat) (sep : Str) (strict : Bool) : Option (Except Exc (Dict Str Nat × Dict Str Nat)) :=
  match AppResolve.get_swagger_version (toVal doc) with
  | .error e => some (.error e)
  | .ok v =>
    if v = .str c!"1.2" then none
    else if v = .str c!"2.0" then
      match parse v20 cSwagger doc with
      | none => none
      | some t =>
        match Loaded.normalizeRefs url t with
        | none => none
        | some root =>
          prepare o url root ((Validate.validate mro names cSchema (some root) strict).map fun _ => ()) order fuel sep strict
    else some (.error .NotImplementedError)

/-- The same for version 1.2, with 202-206: the resource listing and the API declarations, given by name in the order of loading
(`Model/Load12.lean`). They are read, then upgraded to the objects of 2.0, which are prepared; `validate` is for the objects of 1.2
(`pyswagger/core.py`:237-259). -/
def create12 [LinearOrder Str] (env : Upgrade.Env) (str : Nat → Str) (texts : Tree → Str) (o : Objects.Outside) (url : Str)
    (listing : Dict Str Tree) (declarations : List (Str × Tree)) (order : List Atom → List Atom) (fuel : Nat) (strict : Bool) :
    Option (Except Exc (Dict Str Nat × Dict Str Nat)) := do
  let rs ← Upgraded.eachOf (Doc12.parse Validate12.resource) declarations
  let raw ← Doc12.readList (.dict listing) rs
  let l ← Upgraded.list12 raw
  match Upgrade.upgrade env str l with
  | .error e => some (.error e)
  | .ok s =>
    let root ← Loaded.normalizeRefs url (Upgraded.tree s)
    prepare o url root ((Validate12.validate texts raw strict).map fun _ => ()) order fuel env.sep strict

end Create
