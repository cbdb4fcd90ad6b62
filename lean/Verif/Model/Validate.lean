import Verif.Model.Scan
/-!
# `pyswagger/scanner/v2_0/validate.py` and `App.validate`

The handlers of a validator return the path, the class name and a list of messages; `result`
collects the messages. A handler is a function from the object to its messages (path and class
name are passed through unchanged).
-/

namespace Validate
open Py Tree Scan

/-- an entry of `Validate.errs`: `((path, class name), message)` -/
abbrev Err := (Str × Str) × Str

/-- `bool(x)` -/
def truth : Tree → Bool
  | .atom .none => false
  | .atom (.bool b) => b
  | .atom (.int n) => n ≠ 0
  | .atom (.float x) => x ≠ .fin 0
  | .atom (.str s) => s ≠ []
  | .list l => !l.isEmpty
  | .dict d => !d.isEmpty
  | .obj _ _ => true

/-- `getattr(o, name)` for a field -/
def field (o : Tree) (name : Str) : Except Exc Tree :=
  match o with
  | .obj _ fs =>
    match Dict.get? fs name with
    | some v => .ok v
    | none => .error .AttributeError
  | _ => .error .AttributeError

/-- `k in d and d[k].readOnly`: whether a message is added -/
def readOnlyIn (d : Dict Str Tree) (k : Str) : Except Exc Bool :=
  match Dict.get? d k with
  | none => .ok false
  | some p =>
    match field p c!"readOnly" with
    | .error e => .error e
    | .ok r => .ok (truth r)

/-- `v in obj.properties and obj.properties[v].readOnly`; `props` is looked at only when there is a
name to look up. Unhashable names raise `TypeError`; other names that are not texts are no keys. -/
def offends (props : Tree) (v : Tree) : Except Exc Bool :=
  match props with
  | .dict d =>
    match v with
    | .atom (.str k) => readOnlyIn d k
    | .list _ => .error .TypeError
    | .dict _ => .error .TypeError
    | _ => .ok false
  | _ => .error .TypeError

/-- `'ReadOnly property in required list: {0}'.format(v)`; only called for texts -/
def message (v : Tree) : Str :=
  match v with
  | .atom (.str k) => c!"ReadOnly property in required list: " ++ k
  | _ => c!"ReadOnly property in required list: "

/-- `pyswagger/scanner/v2_0/validate.py`:27-29, the loop -/
def messages (props : Tree) : List Tree → Except Exc (List Str)
  | [] => .ok []
  | v :: vs =>
    match offends props v with
    | .error e => .error e
    | .ok b =>
      match messages props vs with
      | .error e => .error e
      | .ok ms => .ok (if b then message v :: ms else ms)

/-- `pyswagger/scanner/v2_0/validate.py`:23-36 `_validate_schema` -/
def validateSchema (o : Tree) : Except Exc (List Str) :=
  match field o c!"required", field o c!"properties" with
  | .ok (.list req), .ok props => messages props req
  | .ok _, .ok _ => .error .TypeError
  | .error e, _ => .error e
  | _, .error e => .error e

/-- the calls made by the scan, with `result` collecting (`validate.py`:17-21) -/
def collect (names : Nat → Str) : List (Called (Tree → Except Exc (List Str))) → Except Exc (List Err)
  | [] => .ok []
  | c :: cs =>
    match c.handler c.obj with
    | .error e => .error e
    | .ok ms =>
      match collect names cs with
      | .error e => .error e
      | .ok es => .ok (ms.map (fun m => ((c.path, ((cls? c.obj).map names).getD []), m)) ++ es)

/-- `pyswagger/core.py`:234-258 `App._validate` for a 2.0 document; `schema` is the number of the
class `Schema`, `names` gives class names. -/
def errors (mro : Nat → List Nat) (names : Nat → Str) (schema : Nat) (root : Option Tree) :
    Except Exc (List Err) :=
  match scan mro [(0, registered [([schema], validateSchema)])] root [] with
  | .error e => .error e
  | .ok calls => collect names calls

/-- `pyswagger/core.py`:296-310 `App.validate` -/
def validate (mro : Nat → List Nat) (names : Nat → Str) (schema : Nat) (root : Option Tree)
    (strict : Bool) : Except Exc (List Err) :=
  match errors mro names schema root with
  | .error e => .error e
  | .ok result => if strict && result.length ≠ 0 then .error .ValidationError else .ok result

end Validate
