import Verif.Model.AppResolve
import Verif.Model.MergeRefs
/-!
# From a document to the objects of a run

`pyswagger/core.py`:195-231 `App.prepare_obj` for a document of Swagger 2.0: the references are made absolute, the
object is put into the cache, and from then on `App.resolve` finds it there. `Model/MergeRefs.lean` takes objects by number; here
the number of an object stands for its place in the document.
-/

namespace Loaded
open Py Utils Tree Doc

/-- the classes of `pyswagger/scanner/v2_0/norm_ref.py`:22 -/
def refClasses : List Nat := [cSchema, cParameter, cResponse, cPathItem]

/-- `pyswagger/scanner/v2_0/norm_ref.py`:24 on the value of `$ref`: `normalize_jr` takes `None` or a text, and raises
for other values (`pyswagger/utils.py`:370-377); `none` stands for any exception -/
def refField (url : Str) : Tree → Option Tree
  | .atom .none => some (.atom .none)
  | .atom (.str r) =>
    match normalize_jr (some r) (some url) with
    | .ok (some s) => some (.atom (.str s))
    | .ok none => some (.atom .none)
    | .error _ => none
  | _ => none

mutual
/-- `pyswagger/scanner/v2_0/norm_ref.py`:14-24 `NormalizeRef(url)` on all objects of a tree (the walk visits each of
them, C02); the order of the visits does not matter. -/
def normalizeRefs (url : Str) : Tree → Option Tree
  | .atom a => some (.atom a)
  | .list l => (normalizeList url l).map .list
  | .dict d => (normalizeDict url d).map .dict
  | .obj c fs => (normalizeFields url (decide (c ∈ refClasses)) fs).map (.obj c)
def normalizeList (url : Str) : List Tree → Option (List Tree)
  | [] => some []
  | t :: l =>
    match normalizeRefs url t, normalizeList url l with
    | some t', some l' => some (t' :: l')
    | _, _ => none
def normalizeDict (url : Str) : List (Str × Tree) → Option (List (Str × Tree))
  | [] => some []
  | (k, t) :: d =>
    match normalizeRefs url t, normalizeDict url d with
    | some t', some d' => some ((k, t') :: d')
    | _, _ => none
def normalizeFields (url : Str) (mine : Bool) : List (Str × Tree) → Option (List (Str × Tree))
  | [] => some []
  | (k, t) :: d =>
    match (if mine && k = c!"$ref" then refField url t else normalizeRefs url t), normalizeFields url mine d with
    | some t', some d' => some ((k, t') :: d')
    | _, _ => none
end

/-- What surrounds the document: numbers for places, the objects of other documents (with any numbers that are no
places here) and what references to other documents lead to, the working directory. -/
structure Outside where
  num : List Str → Nat
  pos : Nat → List Str
  left : ∀ p, pos (num p) = p
  foreign : Nat → Tree
  away : Str → Except Exc Nat
  path2url : Str → Str
  abspath : Str → Str

/-- the place tokens lead to: as `Tree.resolve`, with each index in its usual form -/
def locate : List Str → Tree → List Str
  | [], _ => []
  | t :: ts, .obj _ fs =>
    match Dict.get? fs t with
    | some v => t :: locate ts v
    | none => []
  | t :: ts, .list l =>
    match intOf? t with
    | none => []
    | some i =>
      match pyIndex l i with
      | some v => natStr (if 0 ≤ i then i.toNat else l.length - (-i).toNat) :: locate ts v
      | none => []
  | t :: ts, .dict d =>
    match Dict.get? d t with
    | some v => t :: locate ts v
    | none => []
  | _ :: _, .atom _ => []

/-- `pyswagger/core.py`:374-426 `App.resolve` of a reference into the document at `url`, whose object `root` is in the
cache (221): the number of the object found. What is no object of the library has another class than the ones asked
for (`pyswagger/scanner/v2_0/merge.py`:33-34, `pyswagger/scanner/v2_0/resolve.py`:21-25). Of several kinds of exceptions
for values other than objects, one is given; the code looks a null up once more, which raises another one. -/
def find (o : Outside) (url : Str) (root : Tree) (r : Str) : Except Exc Nat :=
  if r = [] then .error .ValueError
  else
    match jr_split o.path2url o.abspath r with
    | .error e => .error e
    | .ok (u, jp) =>
      if u = url then
        match Tree.resolve (jp_split (some jp)).tail root with
        | .error e => .error e
        | .ok t =>
          match AppResolve.wrap t with
          | .error e => .error e
          | .ok (.obj _ _) => .ok (o.num (locate (jp_split (some jp)).tail root))
          | .ok _ => .error .TypeError
      else o.away r

/-- the objects of a run: those of the document, by their places, and others -/
def world (o : Outside) (url : Str) (root : Tree) : MergeRefs.World where
  content i :=
    match Tree.resolve (o.pos i) root with
    | .ok (.obj c fs) => .obj c fs
    | _ => o.foreign i
  resolve := find o url root

end Loaded
