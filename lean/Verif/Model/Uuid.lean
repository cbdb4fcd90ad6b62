import Verif.Py.Uuid
/-! # `pyswagger/primitives/_uuid.py` -/

namespace Prim.Uuid
open Py

/-- What the constructor is given. -/
inductive Arg where
  | uuid (n : Nat)
  | str (s : Str)
  | bytes (b : Bytes)
  | other

/-- `pyswagger/primitives/_uuid.py`:16-33 `UUID.apply_with`: the number held. -/
def apply : Arg → Except Exc Nat
  | .uuid n => .ok n
  | .str s =>
    match Py.Uuid.ofText s with
    | .ok n => .ok n
    | .error .ValueError => Py.Uuid.ofTextAsBytes s
    | .error e => .error e
  | .bytes b => Py.Uuid.ofBytes b
  | .other => .error .ValueError

/-- `pyswagger/primitives/_uuid.py`:13-14 `UUID.to_json` (`__str__`, lines 10-11, is the same). -/
def to_json (n : Nat) : Str := Py.Uuid.text n

end Prim.Uuid
