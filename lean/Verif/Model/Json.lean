import Verif.Model.Prim
import Verif.Py.Json
import Verif.Py.Bytes
/-! # `pyswagger/primitives/codec.py`: `JsonCodec`; `pyswagger/primitives/comm.py`: `PrimJSONEncoder` -/

namespace Prim.Json
open Py Py.Json

variable {ω : Type}

/-- What the encoder needs to know: the `to_json` of UUID, Byte, Date and Datetime objects (a text, or
an exception) and `repr` of finite floats. -/
structure Enc (ω : Type) where
  toJson : AtomKind → ω → Except Exc Str
  repr : Rat → Str

/-- `pyswagger/primitives/comm.py`:6-12 `PrimJSONEncoder.default` of an object that is no plain value:
`to_json` if it has one (a File has none), else `TypeError`. The text is encoded in turn. -/
def encodeAtom (e : Enc ω) (k : AtomKind) (x : ω) : Except Exc Str :=
  match k with
  | .file => .error .TypeError
  | k =>
    match e.toJson k x with
    | .ok s => .ok (quote s)
    | .error err => .error err

mutual
/-- `pyswagger/primitives/codec.py`:47-49 `JsonCodec.marshal`: `json.dumps(value, cls=PrimJSONEncoder)`.
An Array is a list, a Model is a dict. A foreign object (`Val.other`) is one without `to_json`. -/
def marshal (e : Enc ω) : Prim ω → Except Exc Str
  | .none => dumps e.repr .none
  | .bool b => dumps e.repr (.bool b)
  | .int n => dumps e.repr (.int n)
  | .float x => dumps e.repr (.float x)
  | .str s => dumps e.repr (.str s)
  | .atom k x => encodeAtom e k x
  | .array _ [] => .ok c!"[]"
  | .array _ (p :: l) => do
    let a ← marshal e p
    let b ← marshalItems e l
    .ok ('[' :: (a ++ b))
  | .model [] => .ok c!"{}"
  | .model ((k, p) :: d) => do
    let a ← marshal e p
    let b ← marshalPairs e d
    .ok ('{' :: (quote k ++ c!": " ++ a ++ b))
  | .raw v => dumps e.repr v
/-- the items of an Array after the first one -/
def marshalItems (e : Enc ω) : List (Prim ω) → Except Exc Str
  | [] => .ok c!"]"
  | p :: l => do
    let a ← marshal e p
    let b ← marshalItems e l
    .ok (c!", " ++ a ++ b)
/-- the items of a Model after the first one -/
def marshalPairs (e : Enc ω) : List (Str × Prim ω) → Except Exc Str
  | [] => .ok c!"}"
  | (k, p) :: d => do
    let a ← marshal e p
    let b ← marshalPairs e d
    .ok (c!", " ++ quote k ++ c!": " ++ a ++ b)
end

/-- `pyswagger/primitives/codec.py`:51-54 `JsonCodec.unmarshal`; `loads` is `json.loads` of a text.
`UnicodeDecodeError` is a `ValueError`. -/
def unmarshal (loads : Str → Except Exc Val) (data : Bytes ⊕ Str) : Except Exc Val :=
  match data with
  | .inl b =>
    match utf8Decode b with
    | some s => loads s
    | none => .error .ValueError
  | .inr s => loads s

end Prim.Json
