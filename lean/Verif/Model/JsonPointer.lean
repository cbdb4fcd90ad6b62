import Verif.Py.Basic
/-! # `pyswagger/utils.py`: JSON pointers -/

namespace Utils
open Py

/-- The argument `s` of `jp_compose`: `None`, a string, or a list of strings. -/
inductive JpArg where
  | none
  | str (s : Str)
  | list (l : List Str)
  deriving DecidableEq, Repr

/-- `pyswagger/utils.py`:239, the escaping of one token. -/
def jp_escape (s : Str) : Str := replace (replace s ['~'] ['~', '0']) ['/'] ['~', '1']

/-- `pyswagger/utils.py`:232-242 `jp_compose(s, base=None)`. -/
def jp_compose (s : JpArg) (base : Option Str := Option.none) : Option Str :=
  match s with
  | .none => base
  | .str s => some (go [s])
  | .list l => some (go l)
where
  /-- lines 239-242; `if base:` is false for `None` and `''`. -/
  go (ss : List Str) : Str :=
    let ss := ss.map jp_escape
    let ss := match base with
      | some (b :: bs) => (b :: bs) :: ss
      | _ => ss
    join ['/'] ss

/-- `pyswagger/utils.py`:250-252 `_decode`. -/
def jp_decode (s : Str) : Str := replace (replace s ['~', '1'] ['/']) ['~', '0'] ['~']

/-- `pyswagger/utils.py`:244-254 `jp_split(s)`. -/
def jp_split (s : Option Str) : List Str :=
  match s with
  | none => []
  | some [] => []
  | some s => (splitChar '/' s).map jp_decode

end Utils
