import Verif.Model.CIDict
/-!
# `pyswagger/io.py`: `Response`

Types: `η` header values as kept (raw text or converted), `h` header declarations, `σ` schemas,
`τ` dereferenced schemas, `ρ` raw bodies, `υ` unmarshalled bodies, `D` converted data.
-/

namespace Io
open Py Utils

/-- A response declaration after `final` (`pyswagger/spec/v2_0/objects.py`:200-216). -/
structure RespDecl (h σ : Type) where
  headers : Dict Str h
  schema : Option σ

/-- The world around a response. `lowerValue` is `v[0].lower()`, which raises `AttributeError` on
a converted value that is not text. -/
structure REnv (η h σ τ ρ υ D : Type) where
  lower : Str → Str
  keep : Str → η
  convert : h → Str → Except Exc η
  lowerValue : η → Except Exc Str
  deref : σ → Except Exc τ
  unmarshal : Str → ρ → τ → Except Exc υ
  prim : σ → υ → Except Exc D

/-- The state of a `Response`. -/
structure Resp (η ρ D : Type) where
  status : Option Int
  raw : Option ρ
  data : Option D
  header : CIDict (List η)
  rawBodyOnly : Bool

variable {η h σ τ ρ υ D : Type}

/-- `pyswagger/io.py`:342-356 `Response.__init__`. -/
def Resp.init : Resp η ρ D := ⟨none, none, none, [], false⟩

/-- `pyswagger/io.py`:358-363 `reset` (the attributes `path` and `url` it sets are never read). -/
def Resp.reset (r : Resp η ρ D) : Resp η ρ D := ⟨none, none, none, [], r.rawBodyOnly⟩

/-- `str(status)` -/
def statusText : Option Int → Str
  | none => c!"None"
  | some n => (toString n).toList

/-- `pyswagger/io.py`:387-388: the declaration used. -/
def respDecl (table : Dict Str (RespDecl h σ)) (status : Option Int) : Option (RespDecl h σ) :=
  match Dict.get? table (statusText status) with
  | some r => some r
  | none => Dict.get? table c!"default"

/-- `pyswagger/io.py`:366-367: the value kept for a received header. -/
def headerValue (env : REnv η h σ τ ρ υ D) (r : Option (RespDecl h σ)) (k v : Str) : Except Exc η :=
  match r with
  | none => .ok (env.keep v)
  | some r =>
    match Dict.get? r.headers k with
    | none => .ok (env.keep v)
    | some d => env.convert d v

/-- `pyswagger/io.py`:369-372: append to the values of that header; the list is extended in
place, so the first spelling stays. -/
def addHeader (lower : Str → Str) (d : CIDict (List η)) (k : Str) (v : η) : CIDict (List η) :=
  match Dict.get? d (lower k) with
  | some (k0, l) => Dict.set d (lower k) (k0, l ++ [v])
  | none => CIDict.setitem lower d k [v]

/-- `pyswagger/io.py`:390-396: the received headers one after the other; the exception stops the
loop, what was added before stays. -/
def addHeaders (env : REnv η h σ τ ρ υ D) (r : Option (RespDecl h σ)) :
    CIDict (List η) → List (Str × Str) → CIDict (List η) × Option Exc
  | d, [] => (d, none)
  | d, (k, v) :: l =>
    match headerValue env r k v with
    | .error e => (d, some e)
    | .ok x => addHeaders env r (addHeader env.lower d k x) l

/-- `pyswagger/io.py`:407-411: the media type of the body. -/
def mediaType (env : REnv η h σ τ ρ υ D) (d : CIDict (List η)) : Except Exc Str :=
  match d.iteritems.find? (fun e => env.lower e.1 = c!"content-type") with
  | none => .ok c!"application/json"
  | some (_, []) => .error .IndexError
  | some (_, v :: _) => env.lowerValue v

/-- `pyswagger/io.py`:404-417: convert the body. -/
def convertBody (env : REnv η h σ τ ρ υ D) (d : CIDict (List η)) (raw : ρ) (s : σ) : Except Exc D := do
  let ct ← mediaType env d
  let t ← env.deref s
  let u ← env.unmarshal ct raw t
  env.prim s u

/-- The arguments of `apply_with`. -/
structure RespCall (ρ : Type) where
  status : Option Int
  raw : Option ρ
  header : Option (List (Str × Str))

/-- `pyswagger/io.py`:374-419 `apply_with`: the state afterwards and the exception, if any. -/
def applyWith (env : REnv η h σ τ ρ υ D) (table : Dict Str (RespDecl h σ)) (s : Resp η ρ D)
    (c : RespCall ρ) : Resp η ρ D × Option Exc :=
  let s := { s with status := c.status.or s.status }
  let r := respDecl table s.status
  match addHeaders env r s.header (c.header.getD []) with
  | (d, some e) => ({ s with header := d }, some e)
  | (d, none) =>
    let s := { s with header := d }
    match c.raw with
    | none => (s, none)
    | some raw =>
      let s := { s with raw := some raw }
      match s.status with
      | none => (s, some .Exception)
      | some _ =>
        match r with
        | none => (s, none)
        | some r =>
          match r.schema with
          | none => (s, none)
          | some sch =>
            if s.rawBodyOnly then (s, none)
            else match convertBody env s.header raw sch with
              | .error e => (s, some e)
              | .ok x => ({ s with data := some x }, none)

/-- A sequence of calls, the caller catching exceptions. -/
def applyAll (env : REnv η h σ τ ρ υ D) (table : Dict Str (RespDecl h σ)) (s : Resp η ρ D) :
    List (RespCall ρ) → Resp η ρ D
  | [] => s
  | c :: cs => applyAll env table (applyWith env table s c).1 cs

end Io
