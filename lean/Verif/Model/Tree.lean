import Verif.Py.Int
import Verif.Py.Dict
import Verif.Py.Value
import Verif.Model.JsonPointer
/-!
# Document objects: `pyswagger/spec/base.py`

A document object (`BaseObj`) is a class together with its fields, as they stand at the time.
Fields hold scalars, lists, dicts and other objects. Only the fields of the specification
(`__swagger_fields__`) are part of the tree. No class of the library renames fields
(`__swagger_rename__` is empty everywhere), so attribute and field names agree. Weak references
are not part of a tree: the library only stores them in internal fields
(`pyswagger/core.py`:426, `pyswagger/scanner/v2_0/resolve.py`:27). Keys of dicts are texts;
response tables read from YAML have integer keys until `YamlFixer` has run, and are not walked
before (`pyswagger/core.py`:214).
-/

namespace Tree
open Py Utils

/-- A scalar. -/
inductive Atom where
  | none
  | bool (b : Bool)
  | int (n : Int)
  | float (x : PyFloat)
  | str (s : Str)
  deriving DecidableEq, Repr

/-- A field value; objects have a class, given by a number. -/
inductive Tree where
  | atom (a : Atom)
  | list (l : List Tree)
  | dict (d : List (Str × Tree))
  | obj (cls : Nat) (fields : List (Str × Tree))

/-- `jp_compose(s, base)` of a text -/
def compose (s : Str) (base : Option Str) : Str := (jp_compose (.str s) base).getD []

mutual
/-- `pyswagger/spec/base.py`:460-469 `down`, on the dict `ret`. -/
def down (name : Str) : Tree → Dict Str Tree → Dict Str Tree
  | .obj c fs, ret => Dict.set ret name (.obj c fs)
  | .list l, ret => downList name 0 l ret
  | .dict d, ret => downDict name d ret
  | .atom _, ret => ret
/-- `pyswagger/spec/base.py`:464-466 -/
def downList (name : Str) (i : Nat) : List Tree → Dict Str Tree → Dict Str Tree
  | [], ret => ret
  | v :: l, ret => downList name (i + 1) l (down (compose (natStr i) (some name)) v ret)
/-- `pyswagger/spec/base.py`:467-469 -/
def downDict (name : Str) : List (Str × Tree) → Dict Str Tree → Dict Str Tree
  | [], ret => ret
  | (k, v) :: d, ret => downDict name d (down (compose k (some name)) v ret)
end

/-- `pyswagger/spec/base.py`:471-472 -/
def downFields : List (Str × Tree) → Dict Str Tree → Dict Str Tree
  | [], ret => ret
  | (n, v) :: fs, ret => downFields fs (down (compose n none) v ret)

/-- `pyswagger/spec/base.py`:451-474 `BaseObj._children_`; other values have no such property. -/
def children : Tree → Dict Str Tree
  | .obj _ fs => downFields fs []
  | _ => []

/-- `l[i]`, negative indices counting from the end -/
def pyIndex (l : List Tree) (i : Int) : Option Tree :=
  if 0 ≤ i then l[i.toNat]? else if -i ≤ l.length then l[l.length - (-i).toNat]? else none

/-- `pyswagger/spec/base.py`:259-278 `BaseObj.resolve` on a list of tokens. Attributes of an object
other than its fields are not modelled (they raise). A token is dropped on a scalar. -/
def resolve : List Str → Tree → Except Exc Tree
  | [], o => .ok o
  | t :: ts, .obj _ fs =>
    match Dict.get? fs t with
    | some v => resolve ts v
    | none => .error .AttributeError
  | t :: ts, .list l =>
    match intOf? t with
    | none => .error .ValueError
    | some i =>
      match pyIndex l i with
      | some v => resolve ts v
      | none => .error .IndexError
  | t :: ts, .dict d =>
    match Dict.get? d t with
    | some v => resolve ts v
    | none => .error .KeyError
  | _ :: ts, .atom a => resolve ts (.atom a)

/-- the class of an object -/
def cls? : Tree → Option Nat
  | .obj c _ => some c
  | _ => none

mutual
/-- dicts have distinct keys, objects distinct and non-empty field names -/
def WF : Tree → Prop
  | .atom _ => True
  | .list l => WFList l
  | .dict d => (Dict.keys d).Nodup ∧ WFDict d
  | .obj _ fs => (Dict.keys fs).Nodup ∧ [] ∉ Dict.keys fs ∧ WFDict fs
def WFList : List Tree → Prop
  | [] => True
  | t :: l => WF t ∧ WFList l
def WFDict : List (Str × Tree) → Prop
  | [] => True
  | (_, t) :: d => WF t ∧ WFDict d
end

end Tree
