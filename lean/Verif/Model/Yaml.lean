import Verif.Py.Int
import Verif.Py.Dict
/-!
# `pyswagger/scanner/v2_0/yaml.py`

`YamlFixer` runs with `Operation` as a leaf class (`pyswagger/core.py`:214), so nothing below an
operation is walked before its response table is fixed. Booleans as keys (which Python counts as
integers) are not modelled.
-/

namespace Yaml
open Py

variable {ρ : Type}

/-- a key of a response table as a YAML reader delivers it; `other` stands for keys that are neither
texts nor integers -/
inductive Key where
  | str (s : Str)
  | int (n : Int)
  | other (i : Nat)
  deriving DecidableEq, Repr

/-- `str(k)` for integers, `k` otherwise -/
def fixKey : Key → Key
  | .int n => .str (intStr n)
  | k => k

/-- `pyswagger/scanner/v2_0/yaml.py`:14-26 `YamlFixer._op`: the new response table. -/
def fix (responses : Option (Dict Key ρ)) : Option (Dict Key ρ) :=
  match responses with
  | none => none
  | some d => some (d.foldl (fun tmp kv => Dict.set tmp (fixKey kv.1) kv.2) [])

end Yaml
