import Verif.Model.Doc
/-!
# `pyswagger/spec/base.py`: `BaseObj.merge`

Each field is merged by itself. Fields of the library itself (`__internal_fields__`) and the keys
recorded as set (`__origin_keys`) are not modelled; parents are in `Model/Parent.lean`. `none` stands for an exception:
a field missing in the other object, something other than an object where one is expected, a list
to be joined to something else. The order of a Python `set` is a parameter (`order`).
-/

namespace Doc
open Py Tree

/-- A scalar up to Python's `==` (`True == 1 == 1.0`; a NaN is taken to be equal to itself, as it is
when it is the same object). -/
def Atom.key : Atom → Atom
  | .bool b => .float (.fin (if b then 1 else 0))
  | .int n => .float (.fin n)
  | a => a

/-- the scalars of a list, `none` if it has an unhashable element -/
def atoms : List Tree → Option (List Atom)
  | [] => some []
  | .atom a :: l => (atoms l).map (a :: ·)
  | _ :: _ => none

/-- one of each class of equal scalars, the first one met staying -/
def distinct : List Atom → List Atom
  | [] => []
  | a :: l => a :: (distinct l).filter fun b => Atom.key b ≠ Atom.key a

/-- `bool(v)` -/
def falsy : Tree → Bool
  | .atom .none => true
  | .atom (.bool b) => !b
  | .atom (.int n) => n == 0
  | .atom (.float (.fin q)) => q == 0
  | .atom (.str s) => s.isEmpty
  | .list l => l.isEmpty
  | .dict d => d.isEmpty
  | _ => false

/-- `pyswagger/spec/base.py`:307-310: `list(set((own or []) + v))`, or the plain concatenation when an
element is unhashable -/
def joinLists (order : List Atom → List Atom) (own : Tree) (v : List Tree) : Option Tree :=
  match own with
  | .list l =>
    match atoms (l ++ v) with
    | some as => some (.list ((order (distinct as)).map .atom))
    | none => some (.list (l ++ v))
  | t =>
    if falsy t then
      match atoms v with
      | some as => some (.list ((order (distinct as)).map .atom))
      | none => some (.list v)
    else none

/-- `pyswagger/spec/base.py`:312-314: a copy of the other's dict, updated with the own one -/
def joinDicts (own : Tree) (v : Dict Str Tree) : Option Tree :=
  match own with
  | .dict d => some (.dict (Dict.update v d))
  | t => if falsy t then some (.dict v) else none

/-- `pyswagger/spec/base.py`:297-328 for one field: `dflt` its default, `own` and `v` the two values,
`copied` the copy of `v` when the field holds objects (`isChild`). -/
def mergeField (order : List Atom → List Atom) (dflt : Tree) (isChild : Bool) (own v : Tree)
    (copied : Option Tree) : Option Tree :=
  if isDefault dflt v then some own
  else if isChild then (if isDefault dflt own then copied else some own)
  else
    match v with
    | .list l => joinLists order own l
    | .dict d => joinDicts own d
    | v => if isDefault dflt own then some v else some own

/-- the value of every field of the class, in their order -/
def pick (fields : List (Str × Tree)) (e : Dict Str Tree) : Option (List (Str × Tree)) :=
  match fields with
  | [] => some []
  | f :: fs =>
    match Dict.get? e f.1, pick fs e with
    | some v, some rest => some ((f.1, v) :: rest)
    | _, _ => none

/-- a scalar where objects are expected: `container_apply` gives `None` back
(`pyswagger/spec/base.py`:26-28), `_TmpObj.merge` a bool (`pyswagger/spec/v2_0/parser.py`:64-66) -/
def copyAtom : Kind → Atom → Option Tree
  | _, .none => some (.atom .none)
  | .boolOr _, .bool b => some (.atom (.bool b))
  | _, _ => none

mutual
/-- `pyswagger/spec/base.py`:288-289, 323-328: `container_apply` with `produce().merge(v)`: a fresh
object of the class merged with the given one. `AdditionalPropertiesContext._TmpObj`
(`pyswagger/spec/v2_0/parser.py`:63-69) passes a bool through. -/
def copyAs (G : Grammar) (order : List Atom → List Atom) (k : Kind) : Tree → Option Tree
  | .atom a => copyAtom k a
  | .list l =>
    match k with
    | .list c => (copyList G order c l).map .list
    | _ => none
  | .dict d =>
    match k with
    | .dict c => (copyDict G order c d).map .dict
    | _ => none
  | .obj _ os =>
    match k with
    | .one c => ((copyFields G order (G c) os).bind (pick (G c).fields)).map (.obj c)
    | .boolOr c => ((copyFields G order (G c) os).bind (pick (G c).fields)).map (.obj c)
    | _ => none
/-- elements of a list; `None` is no object here -/
def copyList (G : Grammar) (order : List Atom → List Atom) (c : Nat) : List Tree → Option (List Tree)
  | [] => some []
  | v :: l =>
    if isNull v then none
    else
      match copyAs G order (.one c) v, copyList G order c l with
      | some w, some rest => some (w :: rest)
      | _, _ => none
/-- values of a dict -/
def copyDict (G : Grammar) (order : List Atom → List Atom) (c : Nat) :
    List (Str × Tree) → Option (List (Str × Tree))
  | [] => some []
  | (n, v) :: d =>
    if isNull v then none
    else
      match copyAs G order (.one c) v, copyDict G order c d with
      | some w, some rest => some ((n, w) :: rest)
      | _, _ => none
/-- `merge` into a fresh object: the own values are the defaults -/
def copyFields (G : Grammar) (order : List Atom → List Atom) (cls : Cls) :
    List (Str × Tree) → Option (List (Str × Tree))
  | [] => some []
  | (n, v) :: os =>
    match copyFields G order cls os with
    | none => none
    | some rest =>
      if (Dict.get? cls.fields n).isNone then some rest
      else
        match Dict.get? cls.child n with
        | none =>
          match mergeField order (defaultOf cls n) false (defaultOf cls n) v none with
          | none => none
          | some w => some ((n, w) :: rest)
        | some k =>
          match mergeField order (defaultOf cls n) true (defaultOf cls n) v (copyAs G order k v) with
          | none => none
          | some w => some ((n, w) :: rest)
end

/-- the copy of a value that a field with objects gets, if the field holds objects -/
def copyOf (G : Grammar) (order : List Atom → List Atom) (cls : Cls) (n : Str) (v : Tree) : Option Tree :=
  match Dict.get? cls.child n with
  | none => none
  | some k => copyAs G order k v

/-- `pyswagger/spec/base.py`:291-328: field after field -/
def mergeFields (G : Grammar) (order : List Atom → List Atom) (exclude : List Str) (cls : Cls)
    (os : Dict Str Tree) : List (Str × Tree) → Option (List (Str × Tree))
  | [] => some []
  | (n, own) :: fs =>
    match mergeFields G order exclude cls os fs with
    | none => none
    | some rest =>
      if n ∈ exclude then some ((n, own) :: rest)
      else
        match Dict.get? os n with
        | none => none
        | some v =>
          match mergeField order (defaultOf cls n) (Dict.get? cls.child n).isSome own v
              (copyOf G order cls n v) with
          | none => none
          | some w => some ((n, w) :: rest)

/-- `pyswagger/spec/base.py`:280-334 `BaseObj.merge`: the object after merging; the fields of the
object are those of its class. -/
def merge (G : Grammar) (order : List Atom → List Atom) (exclude : List Str) : Tree → Tree → Option Tree
  | .obj c fs, .obj _ os => (mergeFields G order exclude (G c) os fs).map (.obj c)
  | _, _ => none

/-- `Creator(NullContext())`: an object with all fields at their defaults
(`pyswagger/spec/base.py`:208-210, 528-535) -/
def fresh (G : Grammar) (c : Nat) : Tree := .obj c (G c).fields

end Doc
