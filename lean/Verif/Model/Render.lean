import Verif.Model.Prim
import Verif.Py.Random
/-!
# `pyswagger/primitives/render.py`: `Renderer`

Objects are numbered as in `Model/Prim.lean`. Numbers are exact: rounding of floats is not
modelled. The generators of the formats byte, date, date-time, uuid and of type file are a
parameter (`Env.special`). The depth of the Python stack is `fuel`, the rounds granted to each
`while` loop are `rounds`. Options are natural numbers, flags and dicts; an option that is missing
or of another type is not modelled.
-/

namespace Render
open Py Prim

/-- The fields of a schema-like object, those of `Model/Prim.lean` and the ones used here only
(`pyswagger/spec/v2_0/objects.py`:63-89). `multipleInt`: `multipleOf` is an `int`, not a float. -/
structure Node extends Prim.Node where
  maxProperties : Option Nat := none
  minProperties : Option Nat := none
  multipleInt : Bool := true

/-- The options (`pyswagger/primitives/render.py`:231-264); those for files and bytes belong to
`Env.special`. -/
structure Opt where
  maxNameLength : Nat := 64
  maxPropCount : Nat := 32
  maxStrLength : Nat := 100
  maxArrayLength : Nat := 100
  minimalProperty : Bool := false
  minimalParameter : Bool := false
  maxProperty : Bool := false
  maxParameter : Bool := false
  objectTemplate : Dict Str Val := []
  parameterTemplate : Dict Str Val := []

/-- the kinds of generators in `Renderer._map` that are not modelled further -/
inductive Special where
  | byte | date | datetime | uuid | file
  deriving DecidableEq, Repr

/-- the functions in `Renderer._map` -/
inductive Maker where
  | int | float | str | email | bool
  | special (s : Special)
  deriving DecidableEq, Repr

/-- The world: `target` is `final(deref(obj))` (`pyswagger/utils.py`:265-276). -/
structure Env where
  node : Nat → Node
  target : Nat → Except Exc Nat
  special : Special → Nat → Val → Gen Val

/-- `bool(v)` of a value; other objects count as true -/
def truth : Val → Bool
  | .none => false
  | .bool b => b
  | .int n => n ≠ 0
  | .float x => x ≠ .fin 0
  | .str s => s ≠ []
  | .list l => !l.isEmpty
  | .dict d => !d.isEmpty
  | .other _ => true

/-- `string.ascii_letters` -/
def letters : Str := c!"abcdefghijklmnopqrstuvwxyzABCDEFGHIJKLMNOPQRSTUVWXYZ"

/-- `pyswagger/primitives/render.py`:73 -/
def nameChars : Str := letters ++ c!"_-0123456789"

/-- `''.join([random.choice(l) for _ in range(n)])` -/
def text (l : Str) (n : Nat) : Gen Str := times (choice 'a' l) n

/-- `x if x else y` of a limit: 0 counts as missing -/
def orElse {α : Type} [DecidableEq α] (zero : α) (x : Option α) (y : α) : α :=
  match x with
  | some m => if m = zero then y else m
  | none => y

/-- `pyswagger/primitives/render.py`:20-23: `1 << 31 - 1` is `1 << 30`. -/
def maxInt32 : Int := 2 ^ (31 - 1)
/-- `pyswagger/primitives/render.py`:22 -/
def maxInt64 : Int := 2 ^ (63 - 1)

/-- `pyswagger/primitives/render.py`:29, 33 -/
def bigInt (o : Node) : Int := if o.format = some c!"int32" ∨ o.format = none then maxInt32 else maxInt64

/-- `pyswagger/primitives/render.py`:29-31 -/
def intMax (o : Node) : Rat :=
  let m := orElse 0 o.maximum (bigInt o)
  if o.exclusiveMaximum then m - 1 else m

/-- `pyswagger/primitives/render.py`:33-35 -/
def intMin (o : Node) : Rat :=
  let m := orElse 0 o.minimum (-(bigInt o) : Int)
  if o.exclusiveMinimum then m + 1 else m

/-- `pyswagger/primitives/render.py`:38; Python's `%` takes the sign of the divisor -/
def toMultiple (o : Node) (n : Int) : Int :=
  if o.multipleInt = true ∧ o.multipleOf ≠ 0 then n - n.fmod o.multipleOf.num else n

/-- `pyswagger/primitives/render.py`:25-38 `_int_`. -/
def makeInt (o : Node) (val : Val) : Gen Val :=
  if truth val then .ret val
  else (randintQ (intMin o) (intMax o)).bind fun n => .ret (.int (toMultiple o n))

/-- `sys.float_info.max` -/
def floatMax : Rat := (2 - 1 / 2 ^ 52) * 2 ^ 1023
/-- `sys.float_info.min`, the smallest positive normal number -/
def floatMin : Rat := 1 / 2 ^ 1022

/-- `int(x)` of a finite number -/
def trunc (q : Rat) : Int := if q < 0 then -(-q).floor else q.floor

/-- `pyswagger/primitives/render.py`:50-51 -/
def floatMultiple (o : Node) (q : Rat) : Rat :=
  if o.multipleOf ≠ 0 then (trunc (q / o.multipleOf) : Int) * o.multipleOf else q

/-- `pyswagger/primitives/render.py`:48-54, the loop. -/
def floatLoop (o : Node) (lo hi : Rat) : Nat → Gen Val
  | 0 => .stuck
  | n + 1 => random.bind fun r =>
    let q := floatMultiple o (lo + (hi - lo) * r)
    if q ≤ lo ∧ o.exclusiveMinimum = true then floatLoop o lo hi n else .ret (.float (.fin q))

/-- `pyswagger/primitives/render.py`:40-55 `_float_`. -/
def makeFloat (rounds : Nat) (o : Node) (val : Val) : Gen Val :=
  if truth val then .ret val
  else floatLoop o (orElse 0 o.minimum floatMin) (orElse 0 o.maximum floatMax) rounds

/-- `pyswagger/primitives/render.py`:57-65 `_str_`. -/
def makeStr (opt : Opt) (o : Node) (val : Val) : Gen Val :=
  if truth val then .ret val
  else (randint (orElse 0 o.minLength 0 : Nat) (orElse 0 o.maxLength opt.maxStrLength : Nat)).bind fun n =>
    (text letters n.toNat).bind fun s => .ret (.str s)

/-- `pyswagger/primitives/render.py`:67-68 `_bool_`. -/
def makeBool (val : Val) : Gen Val :=
  if truth val then .ret (.bool true)
  else (randint 0 1).bind fun n => .ret (.bool (n = 0))

/-- `pyswagger/primitives/render.py`:74-77 `_email_name_`. -/
def emailName : Gen Str :=
  (choice 'a' letters).bind fun a =>
  (randint 1 30).bind fun n =>
  (text nameChars n.toNat).bind fun s =>
  (choice 'a' letters).bind fun b => .ret (a :: s ++ [b])

/-- `pyswagger/primitives/render.py`:79-91 `_email_`. -/
def makeEmail (val : Val) : Gen Val :=
  if truth val then .ret val
  else
    (randint 2 100).bind fun host =>
    (randint 2 30).bind fun region =>
    (randint 1 4).bind fun n =>
    (times emailName n.toNat).bind fun names =>
    (choice 'a' letters).bind fun a =>
    (text nameChars host.toNat).bind fun s =>
    (choice 'a' letters).bind fun b =>
    (text nameChars region.toNat).bind fun t =>
      .ret (.str (join c!"." names ++ c!"@" ++ [a] ++ s ++ c!"." ++ [b] ++ t))

/-- `pyswagger/primitives/render.py`:136-167, the map of `Renderer`. -/
def makers : Registry Maker :=
  [(c!"integer", [(some c!"", .int), (none, .int), (some c!"int32", .int), (some c!"int64", .int)]),
   (c!"number", [(some c!"", .float), (none, .float), (some c!"float", .float),
      (some c!"double", .float)]),
   (c!"string", [(some c!"", .str), (none, .str), (some c!"password", .str),
      (some c!"byte", .special .byte), (some c!"date", .special .date),
      (some c!"date-time", .special .datetime), (some c!"uuid", .special .uuid),
      (some c!"email", .email)]),
   (c!"boolean", [(some c!"", .bool), (none, .bool)]),
   (c!"file", [(some c!"", .special .file), (none, .special .file)])]

/-- `pyswagger/primitives/render.py`:169-171 `_get`: no fallback to another format. -/
def maker (type : Str) (format : Option Str) : Option Maker :=
  match Dict.get? makers type with
  | none => none
  | some r => Dict.get? r format

/-- `g(obj, opt, out)` -/
def make (env : Env) (opt : Opt) (rounds : Nat) (id : Nat) (val : Val) : Maker → Gen Val
  | .int => makeInt (env.node id) val
  | .float => makeFloat rounds (env.node id) val
  | .str => makeStr opt (env.node id) val
  | .email => makeEmail val
  | .bool => makeBool val
  | .special s => env.special s id val

/-- `pyswagger/primitives/render.py`:217-219: a value of the enum, `None` without one. -/
def pickEnum (o : Node) : Gen Val :=
  match o.enum with
  | [] => .ret .none
  | l => choice .none l

/-- `pyswagger/primitives/render.py`:216-224: neither object nor array. -/
def leaf (env : Env) (opt : Opt) (rounds : Nat) (id : Nat) (type : Str) : Gen Val :=
  (pickEnum (env.node id)).bind fun val =>
  match maker type (env.node id).format with
  | none => .fail .Exception
  | some m => make env opt rounds id val m

/-- a recursive call of `_generate` -/
abbrev Rec := Nat → Gen Val

/-- `pyswagger/primitives/render.py`:184-192, the loop over the declared properties; the second
component counts the generated ones. The draw happens before `minimal_property` is looked at. -/
def declared (rec : Rec) (opt : Opt) (o : Node) :
    List (Str × Nat) → Dict Str Val × Nat → Gen (Dict Str Val × Nat)
  | [], st => .ret st
  | (name, p) :: l, (out, count) =>
    match Dict.get? opt.objectTemplate name with
    | some v => declared rec opt o l (Dict.set out name v, count)
    | none =>
      let make := (rec p).bind fun v => declared rec opt o l (Dict.set out name v, count + 1)
      if opt.maxProperty = false ∧ name ∉ o.required then
        (randint 0 1).bind fun r =>
          if r = 0 ∨ opt.minimalProperty = true then declared rec opt o l (out, count) else make
      else make

/-- `pyswagger/primitives/render.py`:202-207, the loop that looks for a new name. -/
def oneMore (rec : Rec) (opt : Opt) (p : Nat) (out : Dict Str Val) : Nat → Gen (Dict Str Val)
  | 0 => .stuck
  | n + 1 =>
    (randint 0 opt.maxNameLength).bind fun len =>
    (text letters len.toNat).bind fun name =>
      if Dict.has out name then oneMore rec opt p out n
      else (rec p).bind fun v => .ret (Dict.set out name v)

/-- `pyswagger/primitives/render.py`:201-207, the loop over the additional properties. -/
def manyMore (rec : Rec) (opt : Opt) (rounds : Nat) (p : Nat) : Nat → Dict Str Val → Gen (Dict Str Val)
  | 0, out => .ret out
  | n + 1, out => (oneMore rec opt p out rounds).bind (manyMore rec opt rounds p n)

/-- `pyswagger/primitives/render.py`:194-207. Without `minProperties` the lower end is `None` and
`randint` raises `TypeError`. -/
def additional (rec : Rec) (opt : Opt) (rounds : Nat) (o : Node) (st : Dict Str Val × Nat) :
    Gen (Dict Str Val) :=
  match o.additional with
  | .schema p =>
    match orElse 0 o.minProperties 0 with
    | 0 => .fail .TypeError
    | lo => (randint lo (orElse 0 o.maxProperties opt.maxPropCount : Nat)).bind fun n =>
      manyMore rec opt rounds p (n - st.2).toNat st.1
  | _ => .ret st.1

/-- `pyswagger/primitives/render.py`:178-207. Objects without the fields of Schema raise
`AttributeError`. -/
def object (rec : Rec) (opt : Opt) (rounds : Nat) (o : Node) : Gen Val :=
  if o.isSchema = false then .fail .AttributeError
  else (declared rec opt o o.properties ([], 0)).bind fun st =>
    (additional rec opt rounds o st).bind fun d => .ret (.dict d)

/-- `self._generate(obj.items, opt)`; `None` has no attribute `type` (line 226). -/
def item (rec : Rec) : Option Nat → Gen Val
  | some p => rec p
  | none => .fail .AttributeError

/-- `pyswagger/primitives/render.py`:209-214. -/
def array (rec : Rec) (opt : Opt) (o : Node) : Gen Val :=
  (randint (orElse 0 o.minItems 0 : Nat) (orElse 0 o.maxItems opt.maxArrayLength : Nat)).bind fun n =>
  (times (item rec o.items) n.toNat).bind fun l => .ret (.list l)

/-- `pyswagger/primitives/render.py`:173-228, the body of `_generate` with its recursive calls
abstracted. -/
def generateBody (env : Env) (opt : Opt) (rounds : Nat) (rec : Rec) (id : Nat) : Gen Val :=
  match env.target id with
  | .error e => .fail e
  | .ok t =>
    match (env.node t).type with
    | none => .fail .Exception
    | some type =>
      if type = c!"object" then object rec opt rounds (env.node t)
      else if type = c!"array" then array rec opt (env.node t)
      else leaf env opt rounds t type

/-- `pyswagger/primitives/render.py`:173-228 `_generate` with a stack of depth `fuel`. -/
def generate (env : Env) (opt : Opt) (rounds : Nat) : Nat → Rec
  | 0 => fun _ => .fail .RecursionError
  | fuel + 1 => generateBody env opt rounds (generate env opt rounds fuel)

/-- A parameter as listed in `op.parameters`, before `final`: the fields the object has itself.
`name` is `none` for a reference. -/
structure Param where
  name : Option Str
  in_ : Option Str := none
  required : Bool := false
  obj : Nat
  schema : Option Nat := none

/-- `pyswagger/primitives/render.py`:266-285 `render` of a Parameter. -/
def render (env : Env) (opt : Opt) (rounds fuel : Nat) (p : Param) : Gen Val :=
  if p.in_ = some c!"body" then item (generate env opt rounds fuel) p.schema
  else generate env opt rounds fuel p.obj

/-- `k in d` where `k` may be `None` -/
def lookup (d : Dict Str Val) (k : Option Str) : Option Val := k.bind (Dict.get? d)

/-- `pyswagger/primitives/render.py`:304-313, the loop over the parameters. -/
def renderLoop (env : Env) (opt : Opt) (rounds fuel : Nat) (exclude : List Str) :
    List Param → Dict (Option Str) Val → Gen (Dict (Option Str) Val)
  | [], out => .ret out
  | p :: l, out =>
    if p.name ∈ exclude.map some then renderLoop env opt rounds fuel exclude l out
    else match lookup opt.parameterTemplate p.name with
      | some v => renderLoop env opt rounds fuel exclude l (Dict.set out p.name v)
      | none =>
        let make := (render env opt rounds fuel p).bind fun v =>
          renderLoop env opt rounds fuel exclude l (Dict.set out p.name v)
        if opt.maxParameter = false ∧ p.required = false then
          (randint 0 1).bind fun r =>
            if r = 0 ∨ opt.minimalParameter = true then renderLoop env opt rounds fuel exclude l out
            else make
        else make

/-- `pyswagger/primitives/render.py`:287-314 `render_all`. -/
def renderAll (env : Env) (opt : Opt) (rounds fuel : Nat) (exclude : List Str) (ps : List Param) :
    Gen (Dict (Option Str) Val) :=
  renderLoop env opt rounds fuel exclude ps []

end Render
