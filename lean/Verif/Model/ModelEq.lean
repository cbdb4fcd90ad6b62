import Verif.Py.Basic
import Verif.Py.Dict
/-!
# Equality of models (`pyswagger/primitives/_model.py`:77-102)

Values are trees; scalars (numbers, texts, dates, …) are compared by a function `eq` that never
raises. Comparing an element with itself by identity first, as Python lists and dicts do, is not
modelled; it makes a difference only when `eq` is not reflexive.
-/

namespace ModelEq
open Py

/-- a value of a model: `dict` is a plain dict (an additional property), `model` a `Model` -/
inductive Tree (σ : Type) where
  | none
  | scalar (s : σ)
  | array (l : List (Tree σ))
  | dict (d : List (Str × Tree σ))
  | model (d : List (Str × Tree σ))

variable {σ : Type}

/-- `d.get(k, None)` -/
def look (d : List (Str × Tree σ)) (k : Str) : Tree σ := (Dict.get? d k).getD .none

/-- a comparison of two values -/
abbrev Cmp (σ : Type) := Tree σ → Tree σ → Except Exc Bool

/-- `pyswagger/primitives/_model.py`:87-89: the loop over the own properties. -/
def ownEqual (cmp : Cmp σ) (o : List (Str × Tree σ)) : List (Str × Tree σ) → Except Exc Bool
  | [] => .ok true
  | (k, v) :: l =>
    match cmp v (look o k) with
    | .error e => .error e
    | .ok false => .ok false
    | .ok true => ownEqual cmp o l

/-- `pyswagger/primitives/_model.py`:91-94: the loop over the properties only the other one has.
The order is that of a set in the code; here that of the other model. -/
def restNone (cmp : Cmp σ) (m : List (Str × Tree σ)) : List (Str × Tree σ) → Except Exc Bool
  | [] => .ok true
  | (k, v) :: l =>
    if Dict.has m k then restNone cmp m l
    else match cmp v .none with
      | .error e => .error e
      | .ok false => .ok false
      | .ok true => restNone cmp m l

/-- `pyswagger/primitives/_model.py`:77-96 `__eq__`: what has neither `get` nor `keys` raises. -/
def modelEq (cmp : Cmp σ) (m : List (Str × Tree σ)) : Tree σ → Except Exc Bool
  | .none => .ok false
  | .scalar _ => .error .AttributeError
  | .array _ => .error .AttributeError
  | .dict o | .model o =>
    match ownEqual cmp o m with
    | .error e => .error e
    | .ok false => .ok false
    | .ok true => restNone cmp m o

/-- list comparison, for lists of equal length -/
def listEq (cmp : Cmp σ) : List (Tree σ) → List (Tree σ) → Except Exc Bool
  | x :: l, y :: r =>
    match cmp x y with
    | .error e => .error e
    | .ok false => .ok false
    | .ok true => listEq cmp l r
  | _, _ => .ok true

/-- dict comparison, for dicts of equal size -/
def dictEq (cmp : Cmp σ) (o : List (Str × Tree σ)) : List (Str × Tree σ) → Except Exc Bool
  | [] => .ok true
  | (k, v) :: l =>
    match Dict.get? o k with
    | none => .ok false
    | some w =>
      match cmp v w with
      | .error e => .error e
      | .ok false => .ok false
      | .ok true => dictEq cmp o l

/-- Python's `==` on values with a stack of depth `fuel`. A `Model` on either side decides: it is
a subclass of dict, and other types do not know it. -/
def pyEq (eq : σ → σ → Bool) : Nat → Cmp σ
  | 0, _, _ => .error .RecursionError
  | n + 1, .model m, b => modelEq (pyEq eq n) m b
  | n + 1, a, .model m => modelEq (pyEq eq n) m a
  | _ + 1, .none, .none => .ok true
  | _ + 1, .scalar s, .scalar t => .ok (eq s t)
  | n + 1, .array l, .array r => if l.length = r.length then listEq (pyEq eq n) l r else .ok false
  | n + 1, .dict l, .dict r => if l.length = r.length then dictEq (pyEq eq n) r l else .ok false
  | _ + 1, _, _ => .ok false

/-- `pyswagger/primitives/_model.py`:98-99 `__ne__`. -/
def modelNe (eq : σ → σ → Bool) (fuel : Nat) (m : List (Str × Tree σ)) (b : Tree σ) : Except Exc Bool :=
  match pyEq eq fuel (.model m) b with
  | .error e => .error e
  | .ok b => .ok (!b)

end ModelEq
