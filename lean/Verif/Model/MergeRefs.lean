import Verif.Model.Merge
import Verif.Model.Doc20
/-!
# `pyswagger/scanner/v2_0/merge.py`: effective parameters, responses and path items

Objects are known by number (their identity): `content` gives the object, `resolve` what
`App.resolve` makes of a reference. A merge that raises is not told apart from others
(`Outcome.failed`). `CycleGuard` (`pyswagger/utils.py`:96-106) compares objects by identity: they
define no `__eq__`, and weak proxies compare their objects.
-/

namespace MergeRefs
open Py Tree Doc

/-- the objects of a run -/
structure World where
  content : Nat → Tree
  resolve : Str → Except Exc Nat

/-- how a computation ends: a value, an exception, an exception inside `merge` -/
inductive Outcome where
  | value (t : Tree)
  | raised (e : Exc)
  | failed

/-- `getattr(obj, '$ref')` -/
def refOf : Tree → Tree
  | .obj _ fs => (Dict.get? fs c!"$ref").getD (.atom .none)
  | _ => .atom .none

/-- the reference to follow: `r and len(r) > 0` (`merge.py`:29); a reference that is no text is not
followed here -/
def refText (t : Tree) : Option Str :=
  match refOf t with
  | .atom (.str (ch :: s)) => some (ch :: s)
  | _ => none

/-- `pyswagger/scanner/v2_0/merge.py`:29-42, the loop; `none`: still running after so many
rounds. -/
def follow (W : World) (order : List Atom → List Atom) (c : Nat) :
    Nat → List Nat → Nat → Tree → Option Outcome
  | 0, _, _, _ => none
  | n + 1, visited, cur, result =>
    match refText (W.content cur) with
    | none => some (.value result)
    | some r =>
      match W.resolve r with
      | .error e => some (.raised e)
      | .ok j =>
        if cls? (W.content j) ≠ some c then some (.raised .TypeError)
        else if j ∈ visited then some (.value result)
        else
          match merge v20 order [] result (W.content j) with
          | none => some .failed
          | some result' => follow W order c n (j :: visited) j result'

/-- `pyswagger/scanner/v2_0/merge.py`:18-42 `_merge` of an object of class `c` -/
def effective (W : World) (order : List Atom → List Atom) (c : Nat) (fuel : Nat) (i : Nat) : Option Outcome :=
  match merge v20 order [] (fresh v20 c) (W.content i) with
  | none => some .failed
  | some result => follow W order c fuel [i] i result

/-- `pyswagger/scanner/v2_0/merge.py`:57-59: a path item is merged with its effective object -/
def pathItem (W : World) (order : List Atom → List Atom) (fuel : Nat) (i : Nat) : Option Outcome :=
  match effective W order cPathItem fuel i with
  | some (.value r) =>
    match merge v20 order [] (W.content i) r with
    | none => some .failed
    | some t => some (.value t)
  | o => o

end MergeRefs
