import Verif.Py.Value
import Verif.Py.Int
import Verif.Py.Uuid
/-!
# `json.dumps` of the Python standard library

Default settings (`ensure_ascii`, `allow_nan`, separators `', '` and `': '`). `repr` of a finite float
is a parameter. A value that is nested too deep for the stack is not modelled.
-/

namespace Py.Json
open Py

/-- `'\\u{0:04x}'.format(n)` -/
def u4 (n : Nat) : Str := '\\' :: 'u' :: Uuid.hexPad 4 n

/-- `json.encoder.py_encode_basestring_ascii`, one character -/
def escChar (c : Char) : Str :=
  if c = '"' then c!"\\\""
  else if c = '\\' then c!"\\\\"
  else if c = '\n' then c!"\\n"
  else if c = '\r' then c!"\\r"
  else if c = '\t' then c!"\\t"
  else if c = '\x0c' then c!"\\f"
  else if c = '\x08' then c!"\\b"
  else if ' ' ≤ c ∧ c ≤ '~' then [c]
  else if c.toNat < 0x10000 then u4 c.toNat
  else u4 (0xd800 + (c.toNat - 0x10000) / 1024 % 1024) ++ u4 (0xdc00 + (c.toNat - 0x10000) % 1024)

/-- a text in quotation marks -/
def quote (s : Str) : Str := '"' :: (s.flatMap escChar ++ ['"'])

/-- `json.encoder.floatstr` -/
def floatstr (repr : Rat → Str) : PyFloat → Str
  | .fin q => repr q
  | .pinf => c!"Infinity"
  | .ninf => c!"-Infinity"
  | .nan => c!"NaN"

mutual
/-- `json.dumps(v)` of a plain value; other objects are not serializable -/
def dumps (repr : Rat → Str) : Val → Except Exc Str
  | .none => .ok c!"null"
  | .bool true => .ok c!"true"
  | .bool false => .ok c!"false"
  | .int n => .ok (intStr n)
  | .float x => .ok (floatstr repr x)
  | .str s => .ok (quote s)
  | .list [] => .ok c!"[]"
  | .list (v :: l) => do
    let a ← dumps repr v
    let b ← dumpsItems repr l
    .ok ('[' :: (a ++ b))
  | .dict [] => .ok c!"{}"
  | .dict ((k, v) :: d) => do
    let a ← dumps repr v
    let b ← dumpsPairs repr d
    .ok ('{' :: (quote k ++ c!": " ++ a ++ b))
  | .other _ => .error .TypeError
/-- the items after the first one, and the closing bracket -/
def dumpsItems (repr : Rat → Str) : List Val → Except Exc Str
  | [] => .ok c!"]"
  | v :: l => do
    let a ← dumps repr v
    let b ← dumpsItems repr l
    .ok (c!", " ++ a ++ b)
/-- the pairs after the first one, and the closing brace -/
def dumpsPairs (repr : Rat → Str) : List (Str × Val) → Except Exc Str
  | [] => .ok c!"}"
  | (k, v) :: d => do
    let a ← dumps repr v
    let b ← dumpsPairs repr d
    .ok (c!", " ++ quote k ++ c!": " ++ a ++ b)
end

end Py.Json
