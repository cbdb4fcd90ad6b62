import Verif.Py.Dict
/-! # `pyswagger/utils.py`: scopes and `ScopeDict`; `pyswagger/scanner/type_reducer.py` -/

namespace Utils
open Py

/-- `pyswagger/consts/private.py`: `SCOPE_SEPARATOR = '!##!'` -/
def SCOPE_SEPARATOR : Str := c!"!##!"

/-- Python truthiness of `None` / a string. -/
def truthy (s : Option Str) : Bool :=
  match s with
  | some (_ :: _) => true
  | _ => false

/-- `pyswagger/utils.py`:15-31 `scope_compose(scope, name, sep)`. -/
def scope_compose (scope name : Option Str) (sep : Str := SCOPE_SEPARATOR) : Option Str :=
  let new_scope :=
    match name with
    | none => scope
    | some n => if truthy scope then scope else some n
  match scope, name with
  | some (s :: ss), some (n :: ns) => some ((s :: ss) ++ sep ++ (n :: ns))
  | _, _ => new_scope

/-- `pyswagger/utils.py`:33-40 `scope_split(scope, sep)`; `sep` is non-empty
(Python raises `ValueError` on an empty separator). -/
def scope_split (scope : Option Str) (sep : Str := SCOPE_SEPARATOR) : List (Option Str) :=
  match scope with
  | some (s :: ss) => (split sep (s :: ss)).map some
  | _ => [none]

/-- Key of a `ScopeDict` lookup: a string, or a tuple of `None`/strings. -/
inductive ScopeKey where
  | plain (k : Str)
  | tuple (ks : List (Option Str))
  deriving DecidableEq, Repr

/-- `pyswagger/utils.py`:71, the key a lookup is reduced to;
`reduce` of an empty tuple raises `TypeError`. -/
def ScopeKey.reduce (sep : Str) : ScopeKey → Except Exc (Option Str)
  | .plain k => .ok (some k)
  | .tuple [] => .error .TypeError
  | .tuple (k :: ks) => .ok (ks.foldl (fun k1 k2 => scope_compose k1 k2 sep) k)

/-- `pyswagger/utils.py`:62-93 `ScopeDict.__getitem__`. The keys of the dictionary are strings.
Looking up `None` (a tuple of `None`s) misses every key, then `endswith(None)` raises `TypeError`. -/
def ScopeDict.getitem {ν : Type} (sep : Str) (d : Dict Str ν) (key : ScopeKey) : Except Exc ν :=
  match key.reduce sep with
  | .error e => .error e
  | .ok none => if d.isEmpty then .error .KeyError else .error .TypeError
  | .ok (some k) =>
    match d.get? k with
    | some v => .ok v
    | none =>
      match d.keys.filter (fun ik => endsWith ik k) with
      | [] => .error .KeyError
      | [r] => index r
      | ret =>
        let last_k := rsplitLast sep k
        match ret.filter (fun r => rsplitLast sep r = last_k) with
        | [m] => index m
        | _ => .error .ValueError
where
  /-- `super().__getitem__(k)` -/
  index (k : Str) : Except Exc ν :=
    match d.get? k with
    | some v => .ok v
    | none => .error .KeyError

/-- The fields of an `Operation` read by `TypeReduce._op`
(`tags` and `operationId` may be absent). -/
structure OpInfo where
  /-- identity of the operation object -/
  id : Nat
  tags : Option (List Str)
  operationId : Option Str
  deriving DecidableEq, Repr

/-- `pyswagger/scanner/type_reducer.py`:19-34 `TypeReduce._op`, on the dictionary `self.op`. -/
def TypeReduce._op (sep : Str) (op : Dict Str Nat) (obj : OpInfo) : Except Exc (Dict Str Nat) :=
  let scope : Option Str :=
    match obj.tags with
    | some (t :: _) => some t
    | _ => none
  let name : Option Str := if truthy obj.operationId then obj.operationId else none
  match name with
  | none => .ok op
  | some n =>
    match scope_compose scope (some n) sep with
    | some (c :: cs) =>
      if op.has (c :: cs) then .error .SchemaError
      else .ok (op.set (c :: cs) obj.id)
    | _ => .ok op

/-- The scan over all operations of the document in visiting order
(`pyswagger/core.py`: `App._prepare_obj` scanning with `TypeReduce`). -/
def TypeReduce.run (sep : Str) (ops : List OpInfo) : Except Exc (Dict Str Nat) :=
  ops.foldlM (TypeReduce._op sep) []

end Utils
