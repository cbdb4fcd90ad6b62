import Verif.Model.Tree
/-!
# `pyswagger/spec/base.py`: `BaseObj.compare`

Objects of the same class have the same field names. The order of a Python `set` is a parameter
(`order`); only the element picked depends on it.
-/

namespace Tree
open Py Utils

/-- the number that a scalar is; `True` is 1 and `False` is 0 -/
def Atom.num : Atom → Option PyFloat
  | .bool b => some (.fin (if b then 1 else 0))
  | .int n => some (.fin n)
  | .float x => some x
  | _ => Option.none

/-- `==` on scalars: numbers are equal across their classes, a NaN equals nothing -/
def Atom.eq (a b : Atom) : Bool :=
  match a.num, b.num with
  | some .nan, _ => false
  | some x, some y => x = y
  | Option.none, Option.none => a = b
  | _, _ => false

/-- `a.__class__ == b.__class__` -/
def Atom.sameClass : Atom → Atom → Bool
  | .none, .none => true
  | .bool _, .bool _ => true
  | .int _, .int _ => true
  | .float _, .float _ => true
  | .str _, .str _ => true
  | _, _ => false

/-- the keys of `d` that are not in `e`: `set(d.keys()) - set(e.keys())` -/
def keysBut (d e : Dict Str Tree) : List Str := (Dict.keys d).filter fun k => k ∉ Dict.keys e

mutual
/-- `pyswagger/spec/base.py`:352-384 `cmp_func` -/
def cmp (order : List Str → List Str) (name : Str) : Tree → Tree → Except Exc (Bool × Str)
  | .atom a, .atom b => if a.sameClass b then .ok (a.eq b, name) else .ok (false, name)
  | .obj c fs, .obj c' fs' =>
    if c = c' then cmpFields order (some name) fs fs' else .ok (false, name)
  | .list l, .list m => cmpList order name 0 l m
  | .dict d, .dict e =>
    match order (keysBut d e) with
    | k :: _ => .ok (false, compose k (some name))
    | [] =>
      match order (keysBut e d) with
      | k :: _ => .ok (false, compose k (some name))
      | [] => cmpDict order name d e
  | _, _ => .ok (false, name)
termination_by structural s _ => s
/-- `pyswagger/spec/base.py`:364-367 -/
def cmpList (order : List Str → List Str) (name : Str) (i : Nat) :
    List Tree → List Tree → Except Exc (Bool × Str)
  | [], _ => .ok (true, name)
  | v :: l, m =>
    match m[i]? with
    | none => .error .IndexError
    | some w =>
      match cmp order (compose (natStr i) (some name)) v w with
      | .error e => .error e
      | .ok (false, n) => .ok (false, n)
      | .ok (true, _) => cmpList order name (i + 1) l m
termination_by structural l _ => l
/-- `pyswagger/spec/base.py`:377-380; the key is in both dicts. -/
def cmpDict (order : List Str → List Str) (name : Str) :
    List (Str × Tree) → List (Str × Tree) → Except Exc (Bool × Str)
  | [], _ => .ok (true, name)
  | (k, v) :: d, e =>
    match Dict.get? e k with
    | none => .error .KeyError
    | some w =>
      match cmp order (compose k (some name)) v w with
      | .error e => .error e
      | .ok (false, n) => .ok (false, n)
      | .ok (true, _) => cmpDict order name d e
termination_by structural d _ => d
/-- `pyswagger/spec/base.py`:386-391 -/
def cmpFields (order : List Str → List Str) (base : Option Str) :
    List (Str × Tree) → List (Str × Tree) → Except Exc (Bool × Str)
  | [], _ => .ok (true, [])
  | (n, v) :: fs, gs =>
    match Dict.get? gs n with
    | none => .error .AttributeError
    | some w =>
      match cmp order (compose n base) v w with
      | .error e => .error e
      | .ok (false, n) => .ok (false, n)
      | .ok (true, _) => cmpFields order base fs gs
termination_by structural fs _ => fs
end

/-- `pyswagger/spec/base.py`:345-391 `BaseObj.compare`, without a base; called on an object. -/
def compare (order : List Str → List Str) : Tree → Tree → Except Exc (Bool × Str)
  | .obj c fs, .obj c' fs' => if c = c' then cmpFields order none fs fs' else .ok (false, [])
  | _, _ => .ok (false, [])

end Tree
