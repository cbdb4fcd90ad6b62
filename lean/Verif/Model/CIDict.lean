import Verif.Py.Dict
/-! # `pyswagger/utils.py`: `CaseInsensitiveDict` -/

namespace Utils
open Py

/-- `pyswagger/utils.py`:609-610: `_store`, from lower-cased name to (original name, value). -/
abbrev CIDict (ν : Type) := Dict Str (Str × ν)

namespace CIDict
variable {ν : Type}

/-- `pyswagger/utils.py`:612-613 `__setitem__`. `lower` is `str.lower`, any function here. -/
def setitem (lower : Str → Str) (d : CIDict ν) (key : Str) (value : ν) : CIDict ν :=
  Dict.set d (lower key) (key, value)

/-- `pyswagger/utils.py`:615-616 `__getitem__`. -/
def getitem (lower : Str → Str) (d : CIDict ν) (key : Str) : Except Exc ν :=
  match Dict.get? d (lower key) with
  | some (_, v) => .ok v
  | none => .error .KeyError

/-- `pyswagger/utils.py`:618-619 `__delitem__`. -/
def delitem (lower : Str → Str) (d : CIDict ν) (key : Str) : Except Exc (CIDict ν) :=
  if Dict.has d (lower key) then .ok (Dict.del d (lower key)) else .error .KeyError

/-- `pyswagger/utils.py`:621-622 `__iter__`. -/
def iter (d : CIDict ν) : List Str := d.map (fun e => e.2.1)

/-- `pyswagger/utils.py`:624-625 `iteritems` -/
def iteritems (d : CIDict ν) : List (Str × ν) := d.map (fun e => e.2)

/-- `pyswagger/utils.py`:633-634 `__len__`. -/
def len (d : CIDict ν) : Nat := d.length

/-- `key in d`: `__in__` (line 630) is not a Python protocol method, so `in` is the mixin of
`collections.Mapping`, which calls `__getitem__` and catches `KeyError`. -/
def contains (lower : Str → Str) (d : CIDict ν) (key : Str) : Bool :=
  match getitem lower d key with
  | .ok _ => true
  | .error _ => false

end CIDict
end Utils
