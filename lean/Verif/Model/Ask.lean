import Verif.Model.Call
import Verif.Model.Request
/-! # `pyswagger/spec/v2_0/objects.py`: the request an operation returns when it is called -/

namespace Ask
open Py Prim Call Io

variable {ω δ π : Type}

/-- `params` of `Operation.__call__` as `Request` sees it. `files` is how a request sees what is in
`params['file']` (its fields `header`, `filename` and `data`, or a list of such objects). -/
def paramsOf (files : FileArg ω → FileVal) (s : Sent ω) : Params (Prim ω) :=
  ⟨s.header, s.query, s.path, s.body, s.formData, s.file.map fun e => (e.1, files e.2)⟩

/-- `pyswagger/spec/v2_0/objects.py`:247-291 `Operation.__call__`: the request. -/
def ask (env : Prim.Env ω) (leaf : Prim ω → Except Exc Str) (fuel : Nat) (ps : List Decl) (files : FileArg ω → FileVal)
    (op : Op δ) (k : Dict Str Val) : Except Exc (Req (Prim ω) π) :=
  match call env leaf fuel ps k with
  | .error e => .error e
  | .ok s => .ok (init op (paramsOf files s))

end Ask
