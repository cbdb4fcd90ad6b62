import Verif.Py.Base64
/-! # `pyswagger/primitives/_byte.py`: the type of `string` with format `byte` or `binary` -/

namespace Prim.Byte
open Py

/-- the values `apply_with` tells apart -/
inductive Input where
  | bytes (b : Bytes)
  | text (s : Str)
  | other

/-- `pyswagger/primitives/_byte.py`:11-21 `apply_with`: the field `v`. Texts with lone surrogates,
which `encode` rejects, are not in the model. -/
def apply : Input → Except Exc Bytes
  | .bytes b => .ok b
  | .text s => .ok (utf8 s)
  | .other => .error .ValueError

/-- `pyswagger/primitives/_byte.py`:23-24 `__str__`; `UnicodeDecodeError` is a `ValueError`. -/
def str (v : Bytes) : Except Exc Str :=
  match utf8Decode v with
  | some s => .ok s
  | none => .error .ValueError

/-- `pyswagger/primitives/_byte.py`:26-30 `to_json`. The encoded bytes are ASCII, decoding them is
left out. -/
def toJson (v : Bytes) : Str := b64encode true v

end Prim.Byte
