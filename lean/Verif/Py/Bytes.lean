import Verif.Py.Basic
/-!
# Bytes, UTF-8, Latin-1

`bytes` is a list of `UInt8`. UTF-8 is the encoder of Lean's core library
(`String.utf8EncodeChar`). A Lean `Char` is a Unicode scalar value, so lone surrogates (which
Python strings may contain and which `encode('utf-8')` rejects) are outside the model.
-/

namespace Py

abbrev Bytes := List UInt8

/-- `s.encode('utf-8')` -/
def utf8 (s : Str) : Bytes := s.flatMap String.utf8EncodeChar

/-- `b.decode('utf-8')` (`none`: `UnicodeDecodeError`) -/
def utf8Decode (b : Bytes) : Option Str := (String.fromUTF8? b.toByteArray).map String.toList

/-- `six.b(s)` on Python 3: `s.encode('latin-1')`; `UnicodeEncodeError` is a `ValueError`. -/
def latin1 : Str → Except Exc Bytes
  | [] => .ok []
  | c :: s => if c.toNat < 256 then (latin1 s).map (UInt8.ofNat c.toNat :: ·) else .error .ValueError

end Py
