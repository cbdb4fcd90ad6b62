import Verif.Model.Call
import Verif.Spec.Multipart
import Mathlib.Data.List.Forall2
/-!
# Files to upload

What the caller describes by the argument of a file parameter (the docstring in `pyswagger/primitives/_file.py`) and
the parts of a multipart body that carry it.
-/

namespace Spec.Files
open Py Prim Call Spec.Multipart

/-- the content is in the file of that name, or comes from the file-like object with that number -/
inductive Source where
  | disk
  | stream (k : Nat)

/-- a file: its name, the headers given with it, where the content is -/
structure Upload where
  filename : Str
  headers : List (Str × Str)
  source : Source

/-- where the content is, as the entry `data` says; a file on disk needs a name -/
def Content (data : Option Val) (filename : Str) : Source → Prop
  | .disk => (data = none ∨ data = some .none) ∧ filename ≠ []
  | .stream k => data = some (.other k)

/-- the dict `d` describes the file `u` -/
structure Describes (d : List (Str × Val)) (u : Upload) : Prop where
  filename : Dict.get? d c!"filename" = some (.str u.filename) ∨ Dict.get? d c!"filename" = none ∧ u.filename = []
  headers : Dict.get? d c!"header" = some (.dict (u.headers.map fun e => (e.1, .str e.2))) ∨
    Dict.get? d c!"header" = none ∧ u.headers = []
  source : Content (Dict.get? d c!"data") u.filename u.source

/-- the parts for the named files, when the streams `seen` have been read before: a stream delivers its content
once -/
def parts (content : Nat → Bytes) (disk : Str → Bytes) : List Nat → List (Str × Upload) → List Part
  | _, [] => []
  | seen, (n, u) :: l =>
    let headers := [c!"Content-Type", c!"Content-Transfer-Encoding"].filterMap fun h =>
      (Dict.get? u.headers h).map fun v => (h, v)
    match u.source with
    | .disk => ⟨n, some u.filename, headers, disk u.filename⟩ :: parts content disk seen l
    | .stream k =>
      ⟨n, some u.filename, headers, if k ∈ seen then [] else content k⟩ :: parts content disk (k :: seen) l

variable {ω : Type}

/-- the object `i` has the type `t`, without format or reference -/
structure Is (env : Env ω) (i : Nat) (t : Str) : Prop where
  deref : env.deref i = .ok i
  type : (env.node i).type = some t
  format : (env.node i).format = none

/-- the files given for the parameters, in order -/
inductive Uploads (env : Env ω) (given : Decl → Option Val) : List Decl → List (Str × Upload) → Prop where
  | nil : Uploads env given [] []
  | absent {p ps us} : given p = none → Uploads env given ps us → Uploads env given (p :: ps) us
  | other {p ps us} : (env.node p.obj).type ≠ some c!"file" →
      (∀ it, (env.node p.obj).items = some it → (env.node it).type ≠ some c!"file") → p.in_ ≠ c!"file" →
      Uploads env given ps us → Uploads env given (p :: ps) us
  | one {p ps us d u} : Is env p.obj c!"file" → p.in_ = c!"formData" → given p = some (.dict d) → Describes d u →
      Uploads env given ps us → Uploads env given (p :: ps) ((p.name, u) :: us)
  | many {p ps us it ds vs} : Is env p.obj c!"array" → (env.node p.obj).allOf = [] → (env.node p.obj).uniqueItems = false →
      (env.node p.obj).items = some it → Is env it c!"file" → p.in_ = c!"formData" →
      given p = some (.list (ds.map .dict)) → List.Forall₂ Describes ds vs →
      Uploads env given ps us → Uploads env given (p :: ps) (vs.map (fun u => (p.name, u)) ++ us)

end Spec.Files
