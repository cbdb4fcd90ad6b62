import Verif.Py.Base64
import Verif.Model.Deref
import Verif.Py.Dict
/-!
# `pyswagger/core.py`: `Security`

The security requirements of an operation are a list of dictionaries from scheme names to scopes
(`req._security`). Logging is not modelled.
-/

namespace Core
open Py Utils

/-- The fields of a Security Scheme Object used here (`pyswagger/spec/v2_0/objects.py`:
`SecurityScheme`). An absent `type`/`in` is `none`; `name` is taken to be present. -/
structure SecurityScheme where
  type : Option Str
  name : Str
  in_ : Option Str
  deriving DecidableEq, Repr

/-- What the user registers: a tuple, or a string. -/
inductive SecurityInfo where
  | tuple (l : List Str)
  | str (s : Str)
  deriving DecidableEq, Repr

/-- `'{0}:{1}'.format(*security_info)`: the elements of the tuple, or the characters of the
string; further elements are ignored. -/
def userPass : SecurityInfo → Except Exc Str
  | .tuple (u :: p :: _) => .ok (u ++ c!":" ++ p)
  | .str (u :: p :: _) => .ok ([u] ++ c!":" ++ [p])
  | _ => .error .IndexError

/-- A registered credential: `(header, {key: cred})`. -/
structure Cred where
  header : Bool
  key : Str
  cred : Str
  deriving DecidableEq, Repr

/-- The credential of an `apiKey` or `oauth2` scheme is stored as given. Simplification: the code
also stores a tuple given there (which no HTTP library accepts as a value); the model raises
`TypeError` at once, so that header and query values are always text. -/
def asText : SecurityInfo → Except Exc Str
  | .str s => .ok s
  | .tuple _ => .error .TypeError

/-- `pyswagger/core.py`:479-490: the credential for a scheme. -/
def credOf (s : SecurityScheme) (info : SecurityInfo) : Except Exc Cred :=
  if s.type = some c!"basic" then
    match userPass info with
    | .error e => .error e
    | .ok t =>
      match latin1 t with
      | .error e => .error e
      | .ok b => .ok ⟨true, c!"Authorization", c!"Basic " ++ b64encode false b⟩
  else if s.type = some c!"apiKey" then
    (asText info).map fun t => ⟨s.in_ = some c!"header", s.name, t⟩
  else if s.type = some c!"oauth2" then
    (asText info).map fun t => ⟨true, c!"access_token", t⟩
  else .error .ValueError

/-- `pyswagger/core.py`:466-492 `Security.update_with(name, security_info)`: the new `__info`. -/
def update_with (defs : Dict Str SecurityScheme) (info : Dict Str Cred) (name : Str)
    (security_info : SecurityInfo) : Except Exc (Dict Str Cred) :=
  match Dict.get? defs name with
  | none => .error .ValueError
  | some s =>
    match credOf s security_info with
    | .error e => .error e
    | .ok c => .ok (Dict.update info [(name, c)])

/-- The header and query parts of a request's parameters, the only ones `Security` touches. -/
structure HQ where
  header : Dict Str Str
  query : List (Str × Str)
  deriving DecidableEq, Repr

/-- `pyswagger/core.py`:506-516: one required scheme name. -/
def applyOne (info : Dict Str Cred) (p : HQ) (k : Str) : HQ :=
  match Dict.get? info k with
  | none => p
  | some c =>
    if c.header then { p with header := Dict.update p.header [(c.key, c.cred)] }
    else { p with query := nv_tuple_list_replace p.query (c.key, c.cred) }

/-- `pyswagger/core.py`:494-518 `Security.__call__(req)`. -/
def applySecurity (info : Dict Str Cred) (security : Option (List (Dict Str (List Str)))) (p : HQ) :
    HQ :=
  match security with
  | none => p
  | some l => l.foldl (fun p s => s.foldl (fun p kv => applyOne info p kv.1) p) p

end Core
