import Verif.Py.Int
import Verif.Py.Dict
import Verif.Py.Value
import Verif.Model.JsonPointer
/-!
# `pyswagger/utils.py`: `_diff_`

Documents are Python values. `Val.other` (no JSON value) is named `object`. Two things Python
leaves open are parameters: `order`, the order in which a set is walked at a place, and
`sortable`, whether `sorted` of a list succeeds (it raises `TypeError` when it meets two elements
that cannot be compared, and which elements meet depends on the sorting algorithm).
-/

namespace Diff
open Py Utils

/-- `type(v)` -/
inductive Ty where
  | none | bool | int | float | str | list | dict | object
  deriving DecidableEq, Repr

/-- `type(v)` -/
def ty : Val → Ty
  | .none => .none
  | .bool _ => .bool
  | .int _ => .int
  | .float _ => .float
  | .str _ => .str
  | .list _ => .list
  | .dict _ => .dict
  | .other _ => .object

/-- `t.__name__` -/
def Ty.name : Ty → Str
  | .none => c!"NoneType"
  | .bool => c!"bool"
  | .int => c!"int"
  | .float => c!"float"
  | .str => c!"str"
  | .list => c!"list"
  | .dict => c!"dict"
  | .object => c!"object"

/-- `str(t)` -/
def Ty.text (t : Ty) : Str := c!"<class '" ++ t.name ++ c!"'>"

/-- `issubclass(t, six.integer_types)`: `bool` is a subclass of `int`. -/
def Ty.isInt : Ty → Bool
  | .int | .bool => true
  | _ => false

/-- a number as a `float` -/
def num : Val → Option PyFloat
  | .bool b => some (.fin (if b then 1 else 0))
  | .int n => some (.fin n)
  | .float x => some x
  | _ => none

/-- `src != dst` for a `src` that is neither dict nor list -/
def ne (src dst : Val) : Bool :=
  match num src, num dst with
  | some x, some y => x ≠ y || x = .nan
  | some _, none => true
  | none, some _ => true
  | none, none =>
    match src, dst with
    | .none, .none => false
    | .str s, .str t => s ≠ t
    | .other i, .other j => i ≠ j
    | _, _ => true

/-- one reported difference -/
abbrev Entry := Str × Val × Val

/-- `jp_compose(k, base=jp)` -/
def at_ (jp k : Str) : Str := (jp_compose (.str k) (some jp)).getD []

/-- `pyswagger/utils.py`:523-528 `functools.reduce(r, src)` of a list that is not empty: its type. -/
def reduce (x : Val) : List Val → Except Exc Ty
  | [] => .ok (ty x)
  | y :: l => if ty y ≠ ty x then .error .ValueError else reduce x l

/-- `pyswagger/utils.py`:531-538, left by `break`. -/
def kin (ts td : Ty) : Bool :=
  if ts = .str && td = .str then true
  else if ts.isInt && td.isInt then true
  else ts = td

/-- `pyswagger/utils.py`:493-497: the keys looked at; `include` goes first. -/
def kept (incl excl : List Str) (d : Dict Str Val) : List Str :=
  let ss := Dict.keys d
  let ss := if incl.isEmpty then ss else ss.filter (· ∈ incl)
  if excl.isEmpty then ss else ss.filter (· ∉ excl)

/-- `pyswagger/utils.py`:508-509; what is found under each key is given by `rs`. -/
def visit (rs : Dict Str (Except Exc (List Entry))) : List Str → Except Exc (List Entry)
  | [] => .ok []
  | k :: ks =>
    match Dict.get? rs k with
    | none => .error .KeyError
    | some (.error e) => .error e
    | some (.ok r) =>
      match visit rs ks with
      | .error e => .error e
      | .ok r' => .ok (r ++ r')

/-- `pyswagger/utils.py`:500-505: the entry for a key that only one of the dicts has -/
def missing (jp k : Str) : Entry := (at_ jp k, .none, .none)

variable (order : Str → List Str → List Str) (sortable : List Val → Bool) (incl excl : List Str)

mutual
/-- `pyswagger/utils.py`:482-565 `_diff_`; the entries it appends to `ret`. An exception ends the
whole call. -/
def diff (jp : Str) : Val → Val → Except Exc (List Entry)
  | .dict d, .dict e =>
    let ss := kept incl excl d
    let sd := kept incl excl e
    match visit (diffDict jp d e) (order jp (ss.filter (· ∈ sd))) with
    | .error x => .error x
    | .ok r => .ok ((order jp (sd.filter (· ∉ ss))).map (missing jp)
        ++ (order jp (ss.filter (· ∉ sd))).map (missing jp) ++ r)
  | .dict d, dst => .ok [(jp, .str (ty (.dict d)).name, .str (ty dst).name)]
  | .list l, .list m =>
    if l.length < m.length then .ok [(jp, .int l.length, .int m.length)]
    else if l.length > m.length then .ok [(jp, .int l.length, .int m.length)]
    else
      match l.head?, m.head? with
      | some x, some y =>
        match reduce x l.tail with
        | .error e => .error e
        | .ok ts =>
          match reduce y m.tail with
          | .error e => .error e
          | .ok td =>
            if kin ts td then
              if ts ≠ .dict && !(sortable l && sortable m) then .error .TypeError
              else diffList jp 0 l m
            else .ok [(jp, .str ts.text, .str td.text)]
      | _, _ => .ok []
  | .list l, dst => .ok [(jp, .str (ty (.list l)).name, .str (ty dst).name)]
  | src, dst => if ne src dst then .ok [(jp, src, dst)] else .ok []
termination_by structural s _ => s
/-- `pyswagger/utils.py`:546-547 -/
def diffList (jp : Str) (i : Nat) : List Val → List Val → Except Exc (List Entry)
  | s :: l, d :: m =>
    match diff (at_ jp (natStr i)) s d with
    | .error e => .error e
    | .ok r =>
      match diffList jp (i + 1) l m with
      | .error e => .error e
      | .ok r' => .ok (r ++ r')
  | _, _ => .ok []
termination_by structural l _ => l
/-- `pyswagger/utils.py`:509: what `_diff_` does under each common key -/
def diffDict (jp : Str) : List (Str × Val) → Dict Str Val → Dict Str (Except Exc (List Entry))
  | [], _ => []
  | (k, s) :: d, e =>
    match Dict.get? e k with
    | none => diffDict jp d e
    | some t => (k, diff (at_ jp k) s t) :: diffDict jp d e
termination_by structural d _ => d
end

/-- `_diff_(src, dst, exclude=exclude, include=include)` -/
def _diff_ (src dst : Val) : Except Exc (List Entry) := diff order sortable incl excl [] src dst

end Diff
