import Verif.Model.Registry
import Verif.Model.Deref
import Verif.Py.Value
/-!
# `pyswagger/primitives`: `Primitive.produce` and the types it builds

Schema-like objects (Schema, Items, Parameter, Header) are numbered; `Env.node` gives the fields
of each. Objects form an arbitrary graph: items, properties, additional properties and allOf name
other objects, and `Env.deref` follows `$ref` (`pyswagger/utils.py`:265-273, modelled in
`Model/Deref.lean`).

Calls that go through the registry of handlers are modelled for the handlers shipped with the
library; user supplied handlers are not. The depth of the Python stack is the argument `fuel`:
when it runs out the result is `RecursionError`.
-/

namespace Prim
open Py Utils

/-- the types built by `create_obj` other than Array and Model -/
inductive AtomKind where
  | uuid | byte | date | datetime | file
  deriving DecidableEq, Repr

/-- the handlers of `pyswagger/primitives/__init__.py`:27-89 -/
inductive Handler where
  | int | float | str | email | bool
  | atom (k : AtomKind)
  | array | model
  deriving DecidableEq, Repr

/-- `pyswagger/primitives/__init__.py`:27-89, the initial map. -/
def builtins : Registry Handler :=
  [(c!"integer", [(some c!"int32", .int), (some c!"int64", .int), (none, .int)]),
   (c!"number", [(some c!"float", .float), (some c!"double", .float), (some c!"int32", .int),
      (some c!"int64", .int), (none, .float)]),
   (c!"string", [(some c!"", .str), (none, .str), (some c!"email", .email),
      (some c!"uuid", .atom .uuid), (some c!"password", .str), (some c!"byte", .atom .byte),
      (some c!"binary", .atom .byte), (some c!"date", .atom .date),
      (some c!"date-time", .atom .datetime)]),
   (c!"boolean", [(some c!"", .bool), (none, .bool)]),
   (c!"file", [(some c!"", .atom .file), (none, .atom .file)]),
   (c!"array", [(some c!"", .array), (none, .array)]),
   (c!"object", [(some c!"", .model), (none, .model)])]

/-- What `produce` builds. `raw` is an input value kept as it is (an additional property);
`atom` holds a UUID, Byte, Date, Datetime or File of content type `ω`. -/
inductive Prim (ω : Type) where
  | none
  | bool (b : Bool)
  | int (n : Int)
  | float (x : PyFloat)
  | str (s : Str)
  | atom (k : AtomKind) (x : ω)
  | array (format : Str) (l : List (Prim ω))
  | model (d : List (Str × Prim ω))
  | raw (v : Val)

/-- the field `additionalProperties`: `None`/`False`, `True`, or a schema -/
inductive Addp where
  | no
  | yes
  | schema (id : Nat)
  deriving DecidableEq, Repr

/-- The fields of a schema-like object (`pyswagger/spec/v2_0/objects.py`:27-92, 153-198).
`multipleOf` is 0 when it is `None`. `isSchema` is false for
Items, Parameter and Header, which lack the fields of Schema. `name` is `none` when the object
has no such attribute. -/
structure Node where
  type : Option Str := none
  format : Option Str := none
  items : Option Nat := none
  default : Val := .none
  defaultSet : Bool := false
  maximum : Option Rat := none
  exclusiveMaximum : Bool := false
  minimum : Option Rat := none
  exclusiveMinimum : Bool := false
  maxLength : Option Nat := none
  minLength : Option Nat := none
  maxItems : Option Nat := none
  minItems : Option Nat := none
  multipleOf : Rat := 0
  enum : List Val := []
  uniqueItems : Bool := false
  collectionFormat : Option Str := none
  isSchema : Bool := true
  required : List Str := []
  allOf : List Nat := []
  properties : Dict Str Nat := []
  additional : Addp := .yes
  discriminator : Option Str := none
  readOnly : Bool := false
  name : Option (Option Str) := some none

/-- The world: the objects, Python's conversions and comparison, the constructors of atoms.
`order` is the arbitrary iteration order of a set of names. -/
structure Env (ω : Type) where
  node : Nat → Node
  deref : Nat → Except Exc Nat
  reg : Registry Handler
  toInt : Val → Except Exc Int
  toFloat : Val → Except Exc PyFloat
  toStr : Val → Str
  toBool : Val → Bool
  validEmail : Str → Bool
  eq : Val → Val → Bool
  atom : AtomKind → Nat → Val → Except Exc ω
  mismatch : Handler → Nat → Prim ω → Except Exc Unit
  order : List Str → List Str

/-- `ctx` of `produce` (`pyswagger/primitives/__init__.py`:164-183); `name` is `none` when the key
is missing; `2nd_pass` is kept as the handler it belongs to. -/
structure Ctx where
  name : Option (Option Str) := none
  guard : List Nat := []
  addpSchema : Option Nat := none
  addp : Bool := false
  second : Option Handler := none
  read : Bool := true

variable {ω : Type}

/-- a (recursive) call of `produce` with a context -/
abbrev Rec (ω : Type) := Nat → Val → Ctx → Except Exc (Prim ω × Ctx)

/-- a call of `produce` without context -/
def nested (rec : Rec ω) (id : Nat) (v : Val) : Except Exc (Prim ω) :=
  match rec id v {} with
  | .ok r => .ok r.1
  | .error e => .error e

/-- `pyswagger/primitives/comm.py`:14-29 `min_max`, for both limits as called by
`validate_int` and `validate_float`: the minimum first. -/
def minMax (o : Node) (x : PyFloat) : Except Exc Unit :=
  let low := match o.minimum with
    | none => false
    | some n => if o.exclusiveMinimum then x.le n else x.lt n
  let high := match o.maximum with
    | none => false
    | some n => if o.exclusiveMaximum then x.ge n else x.gt n
  if low then .error .ValidationError
  else if high then .error .ValidationError
  else .ok ()

/-- `pyswagger/primitives/_int.py`:5-9 `validate_int`. -/
def validateInt (o : Node) (x : PyFloat) : Except Exc Unit := minMax o x

/-- `pyswagger/primitives/_float.py`:5-11 `validate_float`. -/
def validateFloat (o : Node) (x : PyFloat) : Except Exc Unit :=
  match minMax o x with
  | .error e => .error e
  | .ok () => if o.multipleOf ≠ 0 ∧ x.notMultiple o.multipleOf = true then .error .ValidationError else .ok ()

/-- `limit and n > limit`: a limit of 0 counts as none -/
def exceeds (limit : Option Nat) (n : Nat) : Bool :=
  match limit with
  | none => false
  | some m => m ≠ 0 ∧ n > m

/-- `limit and n < limit` -/
def fallsShort (limit : Option Nat) (n : Nat) : Bool :=
  match limit with
  | none => false
  | some m => m ≠ 0 ∧ n < m

/-- `pyswagger/primitives/_str.py`:7-16 `validate_str`. A text equals an enum value only if that
is the same text. -/
def validateStr (o : Node) (s : Str) : Except Exc Unit :=
  if o.enum ≠ [] ∧ Val.str s ∉ o.enum then .error .ValidationError
  else if exceeds o.maxLength s.length then .error .ValidationError
  else if fallsShort o.minLength s.length then .error .ValidationError
  else .ok ()

/-- `pyswagger/primitives/_str.py`:18-24 `create_str`, the text -/
def textOf (env : Env ω) : Val → Str
  | .str s => s
  | v => env.toStr v

/-- the number a primitive is for the comparison operators, if it is one -/
def numOf : Prim ω → Option PyFloat
  | .int n => some (.fin n)
  | .float x => some x
  | .bool b => some (.fin (if b then 1 else 0))
  | _ => none

/-- The second pass of a handler on a primitive that has no `apply_with`. When the handler was
made for another type of primitive the outcome is left open (`mismatch`). `create_bool` has no
second pass. -/
def secondPass (env : Env ω) (h : Handler) (id : Nat) (r : Prim ω) : Except Exc Unit :=
  match h with
  | .int => match numOf r with
    | some x => validateInt (env.node id) x
    | none => env.mismatch h id r
  | .float => match numOf r with
    | some x => validateFloat (env.node id) x
    | none => env.mismatch h id r
  | .str => match r with
    | .str s => validateStr (env.node id) s
    | _ => env.mismatch h id r
  | .email => match r with
    | .str s => if env.validEmail s then .ok () else .error .ValidationError
    | _ => env.mismatch h id r
  | .bool => .ok ()
  | .atom _ => .error .AttributeError
  | .array => .error .AttributeError
  | .model => .error .AttributeError

/-! ## Array -/

/-- the separator of a collection format (`pyswagger/primitives/_array.py`:23-30, 72-79) -/
def separator (format : Str) : Option Char :=
  if format = c!"csv" then some ','
  else if format = c!"ssv" then some ' '
  else if format = c!"tsv" then some '\t'
  else if format = c!"pipes" then some '|'
  else none

/-- `pyswagger/primitives/_array.py`:22-32: a text becomes the list of its pieces. -/
def splitText (format : Str) : Val → Except Exc Val
  | .str s => match separator format with
    | some c => .ok (.list ((splitChar c s).map .str))
    | none => .error .SchemaError
  | v => .ok v

/-- what iterating over a value gives -/
def elems : Val → Option (List Val)
  | .list l => some l
  | .dict d => some (d.map fun e => .str e.1)
  | _ => none

/-- `pyswagger/primitives/_array.py`:37-42, the loop that keeps first occurrences. -/
def unique (eq : Val → Val → Bool) : List Val → List Val → List Val
  | seen, [] => seen
  | seen, e :: l => if seen.any (eq e) then unique eq seen l else unique eq (seen ++ [e]) l

/-- `pyswagger/primitives/_array.py`:35-45. What is neither a list nor a dict is not iterable here
(`set(val)` raises). -/
def dedup (env : Env ω) (o : Node) (v : Val) : Except Exc Val :=
  if o.uniqueItems then
    match elems v with
    | some l => .ok (.list (unique env.eq [] l))
    | none => .error .TypeError
  else .ok v

/-- `map(partial(produce, items), val)` -/
def produceAll (rec : Rec ω) (id : Nat) : List Val → Except Exc (List (Prim ω))
  | [] => .ok []
  | v :: l =>
    match nested rec id v with
    | .error e => .error e
    | .ok x =>
      match produceAll rec id l with
      | .error e => .error e
      | .ok xs => .ok (x :: xs)

/-- `pyswagger/primitives/_array.py`:47-49: the elements and the rest of the value. -/
def extend (rec : Rec ω) (o : Node) (l : List (Prim ω)) (v : Val) : Except Exc (List (Prim ω) × Val) :=
  match o.items with
  | none => .ok (l, v)
  | some it =>
    match elems v with
    | none => .error .TypeError
    | some [] => .ok (l, v)
    | some es =>
      match produceAll rec it es with
      | .error e => .error e
      | .ok xs => .ok (l ++ xs, .list [])

/-- `pyswagger/primitives/_array.py`:52-55. -/
def checkItems (o : Node) (l : List (Prim ω)) : Except Exc Unit :=
  if fallsShort o.minItems l.length then .error .ValidationError
  else if exceeds o.maxItems l.length then .error .ValidationError
  else .ok ()

/-- `pyswagger/primitives/_array.py`:17-57 `Array.apply_with` on an array with elements `l`: the
collection format, the elements, the rest of the value. -/
def arrayApply (env : Env ω) (rec : Rec ω) (id : Nat) (l : List (Prim ω)) (v : Val) :
    Except Exc (Str × List (Prim ω) × Val) := do
  let o := env.node id
  let format := o.collectionFormat.getD c!"csv"
  let v ← splitText format v
  let v ← dedup env o v
  let r ← extend rec o l v
  checkItems o r.1
  pure (format, r.1, r.2)

/-! ## Model -/

/-- `pyswagger/primitives/_model.py`:23-36: one round of the loop over the supplied properties. -/
def supply (env : Env ω) (rec : Rec ω) (id : Nat) (self : Dict Str (Prim ω)) (ctx : Ctx)
    (k : Str) (v : Val) : Except Exc (Dict Str (Prim ω) × Ctx) :=
  let o := env.node id
  match Dict.get? o.properties k with
  | some p =>
    if (env.node p).readOnly = true ∧ ctx.read = false then .error .Exception
    else match nested rec p v with
      | .error e => .error e
      | .ok x => .ok (Dict.set self k x, ctx)
  | none =>
    match o.additional with
    | .yes => .ok (self, { ctx with addp := true })
    | .schema _ => .ok (self, { ctx with addpSchema := some id })
    | .no => .ok (self, ctx)

/-- `pyswagger/primitives/_model.py`:23-36, the loop. -/
def supplyAll (env : Env ω) (rec : Rec ω) (id : Nat) :
    Dict Str (Prim ω) → Ctx → List (Str × Val) → Except Exc (Dict Str (Prim ω) × Ctx)
  | self, ctx, [] => .ok (self, ctx)
  | self, ctx, (k, v) :: l =>
    match supply env rec id self ctx k v with
    | .error e => .error e
    | .ok (self, ctx) => supplyAll env rec id self ctx l

/-- `pyswagger/primitives/_model.py`:41-45, the loop over the properties not there yet. -/
def fillDefaults (env : Env ω) (rec : Rec ω) (o : Node) :
    Dict Str (Prim ω) → List Str → Except Exc (Dict Str (Prim ω))
  | self, [] => .ok self
  | self, k :: ks =>
    match Dict.get? o.properties k with
    | none => fillDefaults env rec o self ks
    | some p =>
      if (env.node p).defaultSet then
        match nested rec p (env.node p).default with
        | .error e => .error e
        | .ok x => fillDefaults env rec o (Dict.set self k x) ks
      else fillDefaults env rec o self ks

/-- the value of `ctx['name']` -/
def namePrim : Option Str → Prim ω
  | none => .none
  | some s => .str s

/-- `pyswagger/primitives/_model.py`:17-60 `Model.apply_with` on a model with the properties
`self`: the properties, the rest of the value, the context. Objects without the fields of Schema
raise `AttributeError`. The rest keeps the order of the value; in the code its order is that of a
set, but it is only used as a dict. -/
def modelApply (env : Env ω) (rec : Rec ω) (id : Nat) (self : Dict Str (Prim ω)) (v : Val) (ctx : Ctx) :
    Except Exc (Dict Str (Prim ω) × Val × Ctx) :=
  match v with
  | .dict d => do
    let o := env.node id
    if o.isSchema = false then .error .AttributeError
    let r ← supplyAll env rec id self ctx d
    let self := r.1
    let ctx := r.2
    let missing := env.order ((Dict.keys o.properties).filter fun k => !Dict.has self k)
    let self ← fillDefaults env rec o self missing
    if o.required.any (fun k => !Dict.has self k) then .error .ValueError
    let rest := d.filter fun e => !Dict.has o.properties e.1
    match o.discriminator with
    | none => pure (self, .dict rest, ctx)
    | some k =>
      match ctx.name with
      | none => .error .KeyError
      | some n => pure (Dict.set self k (namePrim n), .dict rest, ctx)
  | _ => .error .AttributeError

/-- `pyswagger/primitives/_model.py`:65-68: additional properties taken as they are. -/
def addRaw (self : Dict Str (Prim ω)) (d : List (Str × Val)) : Dict Str (Prim ω) :=
  d.foldl (fun s e => Dict.set s e.1 (.raw e.2)) self

/-- `pyswagger/primitives/_model.py`:69-73: additional properties converted. -/
def addConverted (rec : Rec ω) (p : Nat) :
    Dict Str (Prim ω) → List (Str × Val) → Except Exc (Dict Str (Prim ω))
  | self, [] => .ok self
  | self, (k, v) :: l =>
    match nested rec p v with
    | .error e => .error e
    | .ok x => addConverted rec p (Dict.set self k x) l

/-- `pyswagger/primitives/_model.py`:62-75 `cleanup`. -/
def cleanup (env : Env ω) (rec : Rec ω) (self : Dict Str (Prim ω)) (v : Val) (ctx : Ctx) :
    Except Exc (Dict Str (Prim ω) × Ctx) :=
  if ctx.addp then
    match v with
    | .dict d => .ok (addRaw self d, { ctx with addp := false })
    | _ => .error .AttributeError
  else match ctx.addpSchema with
    | none => .ok (self, ctx)
    | some id =>
      match v, (env.node id).additional with
      | .dict d, .schema p =>
        match addConverted rec p self d with
        | .error e => .error e
        | .ok self => .ok (self, { ctx with addpSchema := none })
      | _, _ => .error .AttributeError

/-! ## produce -/

/-- `bool(ret)` -/
def truthy : Prim ω → Bool
  | .none => false
  | .bool b => b
  | .int n => n ≠ 0
  | .float x => x ≠ .fin 0
  | .str s => s ≠ []
  | .atom _ _ => true
  | .array _ l => !l.isEmpty
  | .model d => !d.isEmpty
  | .raw _ => true

/-- the result of the first pass: the primitive, the rest of the value, the context -/
abbrev Pass (ω : Type) := Prim ω × Val × Ctx

/-- `pyswagger/primitives/__init__.py`:190-197: creator and second pass of a handler. -/
def create (env : Env ω) (rec : Rec ω) (h : Handler) (id : Nat) (v : Val) (ctx : Ctx) :
    Except Exc (Pass ω) :=
  let o := env.node id
  let done := fun (r : Prim ω) => (r, v, { ctx with second := some h })
  match h with
  | .int =>
    match env.toInt v with
    | .error e => .error e
    | .ok n => match validateInt o (.fin n) with
      | .error e => .error e
      | .ok () => .ok (done (.int n))
  | .float =>
    match env.toFloat v with
    | .error e => .error e
    | .ok x => match validateFloat o x with
      | .error e => .error e
      | .ok () => .ok (done (.float x))
  | .str =>
    match validateStr o (textOf env v) with
    | .error e => .error e
    | .ok () => .ok (done (.str (textOf env v)))
  | .email =>
    match validateStr o (textOf env v) with
    | .error e => .error e
    | .ok () =>
      if env.validEmail (textOf env v) then .ok (done (.str (textOf env v)))
      else .error .ValidationError
  | .bool => .ok (.bool (env.toBool v), v, ctx)
  | .atom k =>
    match env.atom k id v with
    | .error e => .error e
    | .ok x => .ok (.atom k x, .none, { ctx with second := some h })
  | .array =>
    match arrayApply env rec id [] v with
    | .error e => .error e
    | .ok (f, l, rest) => .ok (.array f l, rest, { ctx with second := some h })
  | .model =>
    match modelApply env rec id [] v ctx with
    | .error e => .error e
    | .ok (d, rest, ctx) => .ok (.model d, rest, { ctx with second := some h })

/-- `pyswagger/primitives/__init__.py`:188-200: the first pass, over the object itself. An empty
type text counts as no type. -/
def first (env : Env ω) (rec : Rec ω) (id : Nat) (v : Val) (ctx : Ctx) : Except Exc (Pass ω) :=
  let o := env.node id
  if o.type ≠ none ∧ o.type ≠ some [] then
    match env.reg.get o.type o.format with
    | .unpackable => .error .TypeError
    | .nothing => .error .ValueError
    | .handler h => create env rec h id v ctx
  else if o.isSchema = false then .error .AttributeError
  else if o.properties ≠ [] ∨ o.additional ≠ .no then
    match modelApply env rec id [] v ctx with
    | .error e => .error e
    | .ok (d, rest, ctx) => .ok (.model d, rest, ctx)
  else .ok (.none, v, ctx)

/-- `pyswagger/primitives/__init__.py`:202-204 -/
def isFinalAtom : Prim ω → Bool
  | .atom .uuid _ => false
  | .atom _ _ => true
  | _ => false

/-- `pyswagger/primitives/__init__.py`:206-217 `_apply`: the object `a` applied to the primitive.
-/
def applyTo (env : Env ω) (rec : Rec ω) (a : Nat) : Pass ω → Except Exc (Pass ω)
  | (.array _ l, v, ctx) =>
    match arrayApply env rec a l v with
    | .error e => .error e
    | .ok (f, l, rest) => .ok (.array f l, rest, ctx)
  | (.model d, v, ctx) =>
    match modelApply env rec a d v ctx with
    | .error e => .error e
    | .ok (d, rest, ctx) => .ok (.model d, rest, ctx)
  | (.atom k _, v, ctx) =>
    match env.atom k a v with
    | .error e => .error e
    | .ok x => .ok (.atom k x, .none, ctx)
  | (r, v, ctx) =>
    match ctx.second with
    | some h =>
      match secondPass env h a r with
      | .error e => .error e
      | .ok () => .ok (r, v, ctx)
    | none =>
      match env.reg.get (env.node a).type (env.node a).format with
      | .unpackable => .error .TypeError
      | .nothing => .ok (r, v, ctx)
      | .handler .bool => .ok (r, v, ctx)
      | .handler h =>
        match secondPass env h a r with
        | .error e => .error e
        | .ok () => .ok (r, v, { ctx with second := some h })

/-- `pyswagger/primitives/__init__.py`:223-235: the loop over allOf; the last component are the
objects not applied yet. -/
def allOfLoop (env : Env ω) (rec : Rec ω) :
    Pass ω → List Nat → List Nat → Except Exc (Pass ω × List Nat)
  | p, skipped, [] => .ok (p, skipped)
  | (r, v, ctx), skipped, a :: l =>
    match env.deref a with
    | .error e => .error e
    | .ok a =>
      if truthy r then
        match applyTo env rec a (r, v, ctx) with
        | .error e => .error e
        | .ok p => allOfLoop env rec p (if truthy p.1 then skipped else skipped ++ [a]) l
      else
        match rec a v ctx with
        | .error e => .error e
        | .ok (r, ctx) => allOfLoop env rec (r, v, ctx) (if truthy r then skipped else skipped ++ [a]) l

/-- `pyswagger/primitives/__init__.py`:236-238: the objects left over. -/
def applyLeft (env : Env ω) (rec : Rec ω) : Pass ω → List Nat → Except Exc (Pass ω)
  | p, [] => .ok p
  | p, a :: l =>
    match applyTo env rec a p with
    | .error e => .error e
    | .ok p => applyLeft env rec p l

/-- `pyswagger/primitives/__init__.py`:219-238: allOf. -/
def applyAllOf (env : Env ω) (rec : Rec ω) (id : Nat) (p : Pass ω) : Except Exc (Pass ω) :=
  match allOfLoop env rec p [] (env.node id).allOf with
  | .error e => .error e
  | .ok (p, skipped) => if truthy p.1 then applyLeft env rec p skipped else .ok p

/-- `pyswagger/primitives/__init__.py`:240-243. -/
def finish (env : Env ω) (rec : Rec ω) : Pass ω → Except Exc (Prim ω × Ctx)
  | (.model d, v, ctx) =>
    match cleanup env rec d v ctx with
    | .error e => .error e
    | .ok (d, ctx) => .ok (.model d, ctx)
  | (r, _, ctx) => .ok (r, ctx)

/-- `pyswagger/primitives/__init__.py`:151-243, the body of `produce` with its recursive calls
abstracted. -/
def produceBody (env : Env ω) (rec : Rec ω) (id : Nat) (v : Val) (ctx : Ctx) :
    Except Exc (Prim ω × Ctx) :=
  let v := if v = .none then (env.node id).default else v
  if v = .none then .ok (.none, ctx)
  else
    match env.deref id with
    | .error e => .error e
    | .ok id =>
      let ctx := { ctx with name := ctx.name.or (env.node id).name }
      match CycleGuard.update ctx.guard id with
      | .error e => .error e
      | .ok g =>
        match first env rec id v { ctx with guard := g } with
        | .error e => .error e
        | .ok p =>
          if isFinalAtom p.1 then .ok (p.1, p.2.2)
          else
            match applyAllOf env rec id p with
            | .error e => .error e
            | .ok p => finish env rec p

/-- `pyswagger/primitives/__init__.py`:151-243 `produce` with a stack of depth `fuel`. -/
def produce (env : Env ω) : Nat → Rec ω
  | 0 => fun _ _ _ => .error .RecursionError
  | fuel + 1 => produceBody env (produce env fuel)

/-- `obj._prim_(v, factory, ctx=dict(read=...))` of Items, Schema, Header
(`pyswagger/spec/v2_0/objects.py`:59-60, 91-92, 196-197): a top-level conversion. -/
def convert (env : Env ω) (fuel : Nat) (id : Nat) (v : Val) (read : Bool) : Except Exc (Prim ω) :=
  match produce env fuel id v { read := read } with
  | .ok r => .ok r.1
  | .error e => .error e

/-! ## text of an array -/

/-- `pyswagger/primitives/_array.py`:66-70 `_conv`, over the texts of the elements; `s` is the text
so far. -/
def conv (p : Char) : Str → List Str → Str
  | s, [] => s
  | s, v :: l => conv p (s ++ (if s ≠ [] then [p] else []) ++ v) l

/-- `pyswagger/primitives/_array.py`:59-81 `__str__`. -/
def arrayStr (format : Str) (l : List Str) : Except Exc Str :=
  match separator format with
  | some c => .ok (conv c [] l)
  | none => .error .SchemaError

/-- `pyswagger/primitives/_array.py`:83-90 `to_url`. -/
def toUrl (format : Str) (l : List Str) : Except Exc (List Str) :=
  if format = c!"multi" then .ok l
  else match arrayStr format l with
    | .ok s => .ok [s]
    | .error e => .error e

end Prim
