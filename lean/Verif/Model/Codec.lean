import Verif.Py.Dict
/-! # `pyswagger/primitives/codec.py`: `MimeCodec` -/

namespace Codec
open Py

/-- `str.lower` and the blanks of `str.strip`, arbitrary here. -/
structure Text where
  lower : Str → Str
  blank : Char → Bool

/-- `s.strip()` -/
def strip (blank : Char → Bool) (s : Str) : Str :=
  ((s.dropWhile blank).reverse.dropWhile blank).reverse

/-- `s.split(';', 1)[0]` -/
def beforeSemicolon (s : Str) : Str := s.takeWhile (· ≠ ';')

variable {κ : Type}

/-- `pyswagger/primitives/codec.py`:14-15 `register`. -/
def register (t : Text) (d : Dict Str κ) (mime : Str) (codec : κ) : Dict Str κ :=
  Dict.set d (t.lower mime) codec

/-- `pyswagger/primitives/codec.py`:17-18 `unregister`: `dict.pop` without default. -/
def unregister (t : Text) (d : Dict Str κ) (mime : Str) : Except Exc (Dict Str κ) :=
  match Dict.get? d (t.lower mime) with
  | none => .error .KeyError
  | some _ => .ok (Dict.del d (t.lower mime))

/-- `pyswagger/primitives/codec.py`:20-23 `codec`. -/
def codec (t : Text) (d : Dict Str κ) (mime : Str) : Option κ :=
  Dict.get? d (t.lower (strip t.blank (beforeSemicolon mime)))

/-- `pyswagger/primitives/codec.py`:25-35 `marshal` and `unmarshal`: `use` is the method of the
codec found (codec objects are truthy). -/
def withCodec {α : Type} (t : Text) (d : Dict Str κ) (mime : Str) (use : κ → Except Exc α) :
    Except Exc α :=
  match codec t d mime with
  | none => .error .Exception
  | some c => use c

/-- `pyswagger/primitives/codec.py`:7-12 `__init__`. -/
def init (t : Text) (plain json : κ) : Dict Str κ :=
  register t (register t (register t [] c!"text/plain" plain) c!"application/json" json)
    c!"text/json" json

end Codec
