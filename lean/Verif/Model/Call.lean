import Verif.Model.Prim
/-!
# `pyswagger/spec/v2_0/objects.py`: `Operation.__call__`

Parameters are taken after `final` (`pyswagger/utils.py`:275-276). The text of primitives other
than arrays is a parameter of the model (`leaf`). The state of `params` when the call raises is
not modelled; the caller does not get hold of it.
-/

namespace Call
open Py Prim

variable {ω : Type}

/-- A parameter declaration after `final`: its name, location, and the number of the object in
`Env.node`, which holds type, items and default (`pyswagger/spec/v2_0/objects.py`:153-184). -/
structure Decl where
  name : Str
  in_ : Str
  required : Bool := false
  obj : Nat
  schema : Option Nat := none

/-- what is put in `params['file']`: the primitive, or its text (location `file`) -/
inductive FileArg (ω : Type) where
  | prim (c : Prim ω)
  | text (s : Str)

/-- `params` (`pyswagger/spec/v2_0/objects.py`:249) -/
structure Sent (ω : Type) where
  header : Dict Str Str := []
  query : List (Str × Str) := []
  path : Dict Str Str := []
  body : Dict Str (Prim ω) := []
  formData : List (Str × Str) := []
  file : Dict Str (FileArg ω) := []

mutual
/-- `str(c)`; for arrays `pyswagger/primitives/_array.py`:59-81. -/
def text (leaf : Prim ω → Except Exc Str) : Prim ω → Except Exc Str
  | .array f l =>
    if separator f = none then .error .SchemaError
    else match texts leaf l with
      | .error e => .error e
      | .ok ts => arrayStr f ts
  | c => leaf c
/-- `str(v)` of every element -/
def texts (leaf : Prim ω → Except Exc Str) : List (Prim ω) → Except Exc (List Str)
  | [] => .ok []
  | c :: l =>
    match text leaf c with
    | .error e => .error e
    | .ok t =>
      match texts leaf l with
      | .error e => .error e
      | .ok ts => .ok (t :: ts)
end

/-- `c.to_url()` of an array with elements `l` (`pyswagger/primitives/_array.py`:83-90) -/
def urlTexts (leaf : Prim ω → Except Exc Str) (f : Str) (l : List (Prim ω)) : Except Exc (List Str) :=
  if f = c!"multi" then texts leaf l
  else match text leaf (.array f l) with
    | .error e => .error e
    | .ok t => .ok [t]

/-- `pyswagger/spec/v2_0/objects.py`:182-184 `Parameter._prim_`, with `ctx=dict(read=False)`. A body
parameter without schema raises `AttributeError` (`None` has no field `default` or `type`). -/
def prim (env : Env ω) (fuel : Nat) (p : Decl) (v : Val) : Except Exc (Prim ω) :=
  if p.in_ = c!"body" then
    match p.schema with
    | some s => convert env fuel s v false
    | none => .error .AttributeError
  else convert env fuel p.obj v false

/-- `isinstance(c, Array)`: collection format and elements -/
def asArray : Prim ω → Option (Str × List (Prim ω))
  | .array f l => some (f, l)
  | _ => none

/-- `pyswagger/spec/v2_0/objects.py`:266-279, where the primitive goes: `params[i]` of a location
that is not there raises `KeyError`. -/
def place (env : Env ω) (leaf : Prim ω → Except Exc Str) (p : Decl) (c : Prim ω) (s : Sent ω) :
    Except Exc (Sent ω) :=
  let pairs := fun (add : List (Str × Str) → Sent ω) =>
    match asArray c with
    | some (f, l) =>
      match (env.node p.obj).items with
      | none => .error .AttributeError
      | some it =>
        if (env.node it).type = some c!"file" then .ok { s with file := Dict.set s.file p.name (.prim c) }
        else match urlTexts leaf f l with
          | .error e => .error e
          | .ok ts => .ok (add (ts.map fun t => (p.name, t)))
    | none =>
      match text leaf c with
      | .error e => .error e
      | .ok t => .ok (add [(p.name, t)])
  let single := fun (put : Str → Sent ω) =>
    match text leaf c with
    | .error e => .error e
    | .ok t => .ok (put t)
  if (env.node p.obj).type = some c!"file" then
    .ok { s with file := Dict.set s.file p.name (.prim c) }
  else if p.in_ = c!"query" then pairs fun l => { s with query := s.query ++ l }
  else if p.in_ = c!"formData" then pairs fun l => { s with formData := s.formData ++ l }
  else if p.in_ = c!"body" then .ok { s with body := Dict.set s.body p.name c }
  else if p.in_ = c!"header" then single fun t => { s with header := Dict.set s.header p.name t }
  else if p.in_ = c!"path" then single fun t => { s with path := Dict.set s.path p.name t }
  else if p.in_ = c!"file" then single fun t => { s with file := Dict.set s.file p.name (.text t) }
  else .error .KeyError

/-- `pyswagger/spec/v2_0/objects.py`:252-263: the value to convert, if any. -/
def value (env : Env ω) (k : Dict Str Val) (p : Decl) : Except Exc (Option Val) :=
  let o := env.node p.obj
  if Dict.has k p.name = false ∧ o.defaultSet = false ∧ p.required = true then .error .ValueError
  else if o.defaultSet then .ok (some ((Dict.get? k p.name).getD o.default))
  else .ok (Dict.get? k p.name)

/-- `pyswagger/spec/v2_0/objects.py`:251-281 `_convert_parameter`, on `params` and `names`. -/
def convertParameter (env : Env ω) (leaf : Prim ω → Except Exc Str) (fuel : Nat) (k : Dict Str Val)
    (p : Decl) (st : Sent ω × List Str) : Except Exc (Sent ω × List Str) :=
  match value env k p with
  | .error e => .error e
  | .ok none => .ok st
  | .ok (some v) =>
    match prim env fuel p v with
    | .error e => .error e
    | .ok c =>
      match place env leaf p c st.1 with
      | .error e => .error e
      | .ok s => .ok (s, st.2 ++ [p.name])

/-- `pyswagger/spec/v2_0/objects.py`:282-283: the loop over the parameters. -/
def convertAll (env : Env ω) (leaf : Prim ω → Except Exc Str) (fuel : Nat) (k : Dict Str Val) :
    List Decl → Sent ω × List Str → Except Exc (Sent ω × List Str)
  | [], st => .ok st
  | p :: l, st =>
    match convertParameter env leaf fuel k p st with
    | .error e => .error e
    | .ok st => convertAll env leaf fuel k l st

/-- `pyswagger/spec/v2_0/objects.py`:247-291 `Operation.__call__`: the parameter set of the request. -/
def call (env : Env ω) (leaf : Prim ω → Except Exc Str) (fuel : Nat) (ps : List Decl)
    (k : Dict Str Val) : Except Exc (Sent ω) :=
  match convertAll env leaf fuel k ps ({}, []) with
  | .error e => .error e
  | .ok (s, names) => if (Dict.keys k).any (fun n => n ∉ names) then .error .ValueError else .ok s

end Call
