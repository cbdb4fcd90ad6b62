import Verif.Py.Dict
/-! # `pyswagger/primitives/__init__.py`: the registry of `Primitive` -/

namespace Prim
open Py

/-- `self._map`: type name, then format (`none` is the Python key `None`), then handler. -/
abbrev Registry (α : Type) := Dict Str (Dict (Option Str) α)

/-- What `get` returns: the pair of the handler, the pair `(None, None)`, or `None` itself (a type
that has neither the format nor a default), which the callers cannot unpack (`TypeError`). -/
inductive Found (α : Type) where
  | handler (h : α)
  | nothing
  | unpackable
  deriving DecidableEq, Repr

variable {α : Type}

/-- `pyswagger/primitives/__init__.py`:91-97 `get`. The type `None` is not a key of the map. -/
def Registry.get (m : Registry α) (type format : Option Str) : Found α :=
  match type.bind (Dict.get? m ·) with
  | none => .nothing
  | some r =>
    match Dict.get? r format with
    | some h => .handler h
    | none =>
      match Dict.get? r none with
      | some h => .handler h
      | none => .unpackable

/-- `pyswagger/primitives/__init__.py`:99-149 `register`. -/
def Registry.register (m : Registry α) (type : Str) (format : Option Str) (h : α) : Registry α :=
  Dict.set m type (Dict.set ((Dict.get? m type).getD []) format h)

/-- `pyswagger/primitives/__init__.py`:245-252 `is_primitive`. -/
def Registry.isPrimitive (m : Registry α) (type : Str) : Bool := Dict.has m type

end Prim
