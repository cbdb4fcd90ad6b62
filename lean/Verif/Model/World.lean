import Verif.Model.Ask
import Verif.Model.Byte
import Verif.Model.Uuid
import Verif.Model.Iso8601
import Verif.Py.Number
/-!
# The primitives with Python's own conversions and the shipped constructors

`Model/Prim.lean` leaves `int(v)`, `float(v)`, `str(v)`, `bool(v)` and the constructors of UUID, Byte, Date, Datetime
and File open (`Prim.Env`), `Model/Call.lean` the text of primitives (`leaf`). Here they are filled in.
-/

namespace Prim.World
open Py Utils Prim

/-- objects that are not JSON values -/
inductive Obj where
  | uuid (n : Nat)
  | bytes (b : Bytes)
  | date (d : Date)
  | datetime (t : DateTime)
  | stream (c : Io.Content)
  | unknown

/-- What lies outside: the objects arguments consist of, the time zone, the text of floats, and Python's conversions
of values that are neither numbers nor text. -/
structure Outside where
  obj : Nat → Obj
  fromtimestamp : PyFloat → Except Exc Date
  utcfromtimestamp : PyFloat → Except Exc DateTime
  repr : PyFloat → Str
  str : Val → Str
  int : Nat → Except Exc Int
  float : Nat → Except Exc PyFloat
  truth : Nat → Bool

/-- `pyswagger/primitives/_file.py`: the attributes of a `File`. -/
structure FileObj where
  header : Val
  data : Val
  filename : Val
  deriving DecidableEq

/-- `pyswagger/primitives/_file.py`:8-31 `File.apply_with`. What is no dict has no `get`. An object is taken to
differ from `None`. -/
def fileApply : Val → Except Exc FileObj
  | .dict d =>
    let data := (Dict.get? d c!"data").getD .none
    let filename := (Dict.get? d c!"filename").getD (.str [])
    if data = .none ∧ filename = .str [] then .error .ValidationError
    else .ok ⟨(Dict.get? d c!"header").getD (.dict []), data, filename⟩
  | _ => .error .AttributeError

/-- what the objects built by `create_obj` hold -/
inductive Atom where
  | uuid (n : Nat)
  | byte (b : Bytes)
  | time (t : TimeVal)
  | file (f : FileObj)
  deriving DecidableEq

/-- what `UUID.apply_with` tells apart -/
def uuidArg (w : Outside) : Val → Uuid.Arg
  | .str s => .str s
  | .other k => match w.obj k with
    | .uuid n => .uuid n
    | .bytes b => .bytes b
    | _ => .other
  | _ => .other

/-- what `Byte.apply_with` tells apart -/
def byteArg (w : Outside) : Val → Byte.Input
  | .str s => .text s
  | .other k => match w.obj k with
    | .bytes b => .bytes b
    | _ => .other
  | _ => .other

/-- what `Date.apply_with` and `Datetime.apply_with` tell apart -/
def timeArg (w : Outside) : Val → TimeArg
  | .float x => .float x
  | .str s => .str s
  | .other k => match w.obj k with
    | .date d => .date d
    | .datetime t => .datetime t
    | _ => .other
  | _ => .other

/-- `pyswagger/primitives/__init__.py`:51-73 with `pyswagger/primitives/comm.py`:31-44: the object built. -/
def atom (w : Outside) (k : AtomKind) (v : Val) : Except Exc Atom :=
  match k with
  | .uuid => (Uuid.apply (uuidArg w v)).map .uuid
  | .byte => (Byte.apply (byteArg w v)).map .byte
  | .date => (dateApply w.fromtimestamp (timeArg w v)).map .time
  | .datetime => (datetimeApply w.utcfromtimestamp (timeArg w v)).map .time
  | .file => (fileApply v).map .file

/-- `int(v)` (`pyswagger/primitives/_int.py`:12) -/
def toInt (w : Outside) : Val → Except Exc Int
  | .bool b => .ok (if b then 1 else 0)
  | .int n => .ok n
  | .float (.fin q) => .ok (truncate q)
  | .float .nan => .error .ValueError
  | .float _ => .error .OverflowError
  | .str s => match intOfText s with
    | some n => .ok n
    | Option.none => .error .ValueError
  | .other k => w.int k
  | _ => .error .TypeError

/-- `float(v)` (`pyswagger/primitives/_float.py`:14). Integers too large for a float are not told apart. -/
def toFloat (w : Outside) : Val → Except Exc PyFloat
  | .bool b => .ok (.fin (if b then 1 else 0))
  | .int n => .ok (.fin n)
  | .float x => .ok x
  | .str s => match floatOfText s with
    | some x => .ok x
    | Option.none => .error .ValueError
  | .other k => w.float k
  | _ => .error .TypeError

/-- `bool(v)` (`pyswagger/primitives/_bool.py`:5) -/
def toBool (w : Outside) : Val → Bool
  | .none => false
  | .bool b => b
  | .int n => n ≠ 0
  | .float x => x ≠ .fin 0
  | .str s => s ≠ []
  | .list l => !l.isEmpty
  | .dict d => !d.isEmpty
  | .other k => w.truth k

/-- `str(v)` (`pyswagger/primitives/_str.py`:21) -/
def toStr (w : Outside) : Val → Str
  | .none => c!"None"
  | .bool b => if b then c!"True" else c!"False"
  | .int n => intStr n
  | .float x => w.repr x
  | .str s => s
  | v => w.str v

/-- the world, with the objects of a document and what else is left open in `e` -/
def env (w : Outside) (e : Env Atom) : Env Atom :=
  { e with reg := builtins, toInt := toInt w, toFloat := toFloat w, toStr := toStr w, toBool := toBool w,
           atom := fun k _ v => atom w k v }

/-- `str(c)` of primitives other than arrays (`pyswagger/spec/v2_0/objects.py`:268-279): Python's own text of `None`,
booleans, numbers and texts; `pyswagger/primitives/_uuid.py`:10-11, `pyswagger/primitives/_byte.py`:22-23,
`pyswagger/primitives/_time.py`:11-12. `other` is the text of a Model or File. -/
def leaf (w : Outside) (other : Prim Atom → Str) : Prim Atom → Except Exc Str
  | .none => .ok c!"None"
  | .bool b => .ok (if b then c!"True" else c!"False")
  | .int n => .ok (intStr n)
  | .float x => .ok (w.repr x)
  | .str s => .ok s
  | .atom _ (.uuid n) => .ok (Uuid.to_json n)
  | .atom _ (.byte b) => Byte.str b
  | .atom _ (.time t) => timeToJson t
  | .raw v => .ok (toStr w v)
  | p => .ok (other p)

/-- `to_json` of the objects built (`pyswagger/primitives/_uuid.py`:13-14, `pyswagger/primitives/_byte.py`:25-29,
`pyswagger/primitives/_time.py`:14-17). A File has none (`pyswagger/primitives/comm.py`:10-12). -/
def toJson (_ : AtomKind) : Atom → Except Exc Str
  | .uuid n => .ok (Uuid.to_json n)
  | .byte b => .ok (Byte.toJson b)
  | .time t => timeToJson t
  | .file _ => .error .TypeError

/-! ## files as a request sees them -/

/-- the text values of a header dict; `none` when there is another value -/
def texts? : List (Str × Val) → Option (List (Str × Str))
  | [] => some []
  | (k, .str s) :: l => (texts? l).map ((k, s) :: ·)
  | _ => none

/-- What `data` delivers when it is read after the streams `seen` have been read (`pyswagger/io.py`:121), and the
streams read then; `none` when it cannot be read. Different objects are taken to be different streams. -/
def content? (w : Outside) (seen : List Nat) : Val → Option (Option Io.Content × List Nat)
  | .none => some (none, seen)
  | .other k => match w.obj k with
    | .stream c => some (some (if k ∈ seen then c.drained else c), k :: seen)
    | _ => none
  | _ => none

/-- a `File` whose fields have the types the docstring of `apply_with` asks for, as it is when it is written -/
def fileOf? (w : Outside) (seen : List Nat) (f : FileObj) : Option (Io.File × List Nat) :=
  match f.header, f.filename, content? w seen f.data with
  | .dict d, .str n, some (c, seen) => (texts? d).map fun h => (⟨h, n, c⟩, seen)
  | _, _, _ => none

/-- all of them, in order -/
def filesOf? (w : Outside) : List Nat → List (Prim Atom) → Option (List Io.File × List Nat)
  | seen, [] => some ([], seen)
  | seen, .atom _ (.file f) :: l =>
    match fileOf? w seen f with
    | Option.none => none
    | some (x, seen) => (filesOf? w seen l).map fun r => (x :: r.1, r.2)
  | _, _ => none

/-- `params['file'][name]` as `_prepare_files` sees it (`pyswagger/io.py`:140-146); `none` for what it cannot use -/
def fileVal? (w : Outside) (seen : List Nat) : Call.FileArg Atom → Option (Io.FileVal × List Nat)
  | .prim (.atom _ (.file f)) => (fileOf? w seen f).map fun r => (.one r.1, r.2)
  | .prim (.array _ l) => (filesOf? w seen l).map fun r => (.many r.1, r.2)
  | _ => none

/-- `params['file']`, in the order in which the files are written -/
def fileArgs? (w : Outside) : List Nat → Dict Str (Call.FileArg Atom) → Option (Dict Str Io.FileVal)
  | _, [] => some []
  | seen, (n, a) :: l =>
    match fileVal? w seen a with
    | Option.none => none
    | some (x, seen) => (fileArgs? w seen l).map ((n, x) :: ·)

/-- `pyswagger/spec/v2_0/objects.py`:247-291 `Operation.__call__`: the request, with its files as `prepare` will find
them. `none` when there is a file that `prepare` cannot use. -/
def ask {δ π : Type} (w : Outside) (e : Env Atom) (other : Prim Atom → Str) (fuel : Nat) (ps : List Call.Decl)
    (op : Io.Op δ) (k : Dict Str Val) : Except Exc (Option (Io.Req (Prim Atom) π)) :=
  match Call.call (env w e) (leaf w other) fuel ps k with
  | .error x => .error x
  | .ok s => .ok ((fileArgs? w [] s.file).map fun fs =>
      Io.init op ⟨s.header, s.query, s.path, s.body, s.formData, fs⟩)

end Prim.World
