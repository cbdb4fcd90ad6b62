import Verif.Model.Tree
import Verif.Model.Url
import Verif.Py.Value
/-!
# `pyswagger/core.py`: `App.load_obj`, `App.load`, `App.prepare_obj`, `App.resolve`

Objects are trees (`Model/Tree.lean`). The parsers are parameters here; they are modelled in
`Model/Doc20.lean`.
-/

namespace AppResolve
open Py Utils Tree

/-! ## versions -/

/-- `pyswagger/utils.py`:426-437 `get_swagger_version(obj)` on a loaded document; lists and scalars
have no attribute `swagger`. -/
def get_swagger_version : Val → Except Exc Val
  | .dict d =>
    match Dict.get? d c!"swaggerVersion" with
    | some v => .ok v
    | none =>
      match Dict.get? d c!"swagger" with
      | some v => .ok v
      | none => .ok .none
  | _ => .error .AttributeError

/-- which parser reads a document: `ResourceListContext`, `SwaggerContext`, or the one given -/
inductive Parser where
  | v1_2
  | v2_0
  | given (p : Nat)
  deriving DecidableEq, Repr

/-- `pyswagger/core.py`:163-193 `App.load_obj`, on the document found by the resolver. `parse`
yields the object, `versionOf` its `__swagger_version__` (if it has one). An object of the library
is never false (line 187). -/
def load_obj {ω : Type} (parse : Parser → Val → Except Exc ω) (versionOf : ω → Option Val) (obj : Val)
    (parser : Option Nat) : Except Exc (ω × Val) :=
  match get_swagger_version obj with
  | .error e => .error e
  | .ok version =>
    if version = .str c!"1.2" then (parse .v1_2 obj).map fun o => (o, version)
    else if version = .str c!"2.0" then (parse .v2_0 obj).map fun o => (o, version)
    else
      match parser with
      | some p =>
        if version = .none then (parse (.given p) obj).map fun o => (o, (versionOf o).getD version)
        else .error .NotImplementedError
      | none => .error .NotImplementedError

/-- `pyswagger/core.py`:284-287 `App.load`: the check of the version. The message mentions `self`,
which a class method does not have. -/
def load {ω : Type} (parse : Parser → Val → Except Exc ω) (versionOf : ω → Option Val) (obj : Val)
    (parser : Option Nat) : Except Exc (ω × Val) :=
  match load_obj parse versionOf obj parser with
  | .error e => .error e
  | .ok (o, version) =>
    if version ∉ [Val.str c!"1.2", Val.str c!"2.0"] then .error .NameError else .ok (o, version)

/-! ## objects by reference -/

/-- an entry of `App.__objs`: a whole document, or some objects by their JSON pointers -/
inductive Cached where
  | whole (t : Tree)
  | parts (d : Dict Str Tree)

/-- `App.__objs` -/
abbrev Objs := Dict Str Cached

/-- What an application has to do with references. -/
structure App where
  /-- `App.__root` -/
  root : Tree
  /-- the object read afresh for a URL, a JSON pointer and a parser: `load_obj`, the upgrade from 1.2
  and the fixes of `prepare_obj` (`pyswagger/core.py`:198-217). The same document is read each
  time (C46). -/
  fresh : Str → Str → Option Nat → Except Exc Tree
  /-- the `$ref`s of the schemas in an object, in the order of the walk -/
  refs : Tree → List Str
  /-- the parser `SchemaContext` -/
  schemaContext : Nat
  /-- is it a `Schema`? -/
  isSchema : Tree → Bool
  path2url : Str → Str
  abspath : Str → Str

/-- `pyswagger/core.py`:395-405: the search in the cache; `none` is `None`. -/
def lookup (o : Option Cached) (jp : Str) : Except Exc (Option Tree) :=
  match o with
  | none => .ok none
  | some (.whole t) => (Tree.resolve (jp_split (some jp)).tail t).map some
  | some (.parts d) =>
    match d.find? fun kv => startsWith jp kv.1 with
    | none => .ok none
    | some (k, v) => (Tree.resolve (jp_split (some (jp.drop k.length))).tail v).map some

/-- `pyswagger/core.py`:219-227: put an object into the cache. -/
def store (objs : Objs) (url jp : Str) (obj : Tree) : Except Exc Objs :=
  match Dict.get? objs url with
  | none => .ok (Dict.set objs url (if jp = c!"#" then .whole obj else .parts [(jp, obj)]))
  | some (.whole _) => .error .Exception
  | some (.parts d) => .ok (Dict.set objs url (.parts (Dict.set d jp obj)))

/-- `pyswagger/core.py`:421-426: `None` is refused; a `float` cannot be the target of a weak
reference. -/
def wrap : Tree → Except Exc Tree
  | .atom .none => .error .ValueError
  | .atom (.float _) => .error .TypeError
  | t => .ok t

/-- `bool(ro)`, for what `App.resolve` returns -/
def truthy : Tree → Bool
  | .atom .none => false
  | .atom (.bool b) => b
  | .atom (.int n) => n ≠ 0
  | .atom (.float x) => x ≠ .fin 0
  | .atom (.str s) => !s.isEmpty
  | .list l => !l.isEmpty
  | .dict d => !d.isEmpty
  | .obj _ _ => true

variable (a : App)

/-- `pyswagger/scanner/v2_0/resolve.py`:13-27 on each schema in turn; `find` is `app.resolve`. -/
def resolveRefs (find : Objs → Str → Except Exc Tree × Objs) : List Str → Objs → Except Exc Unit × Objs
  | [], objs => (.ok (), objs)
  | r :: rs, objs =>
    match find objs r with
    | (.error e, objs) => (.error e, objs)
    | (.ok ro, objs) =>
      if !truthy ro then (.error .ReferenceError, objs)
      else if !a.isSchema ro then (.error .TypeError, objs)
      else resolveRefs find rs objs

/-- `pyswagger/core.py`:195-231 `App.prepare_obj`, from line 218 on. -/
def prepare_obj (find : Objs → Str → Except Exc Tree × Objs) (objs : Objs) (obj : Tree) (url jp : Str) :
    Except Exc Tree × Objs :=
  match store objs url jp obj with
  | .error e => (.error e, objs)
  | .ok objs =>
    match resolveRefs a find (a.refs obj) objs with
    | (.error e, objs) => (.error e, objs)
    | (.ok _, objs) => (.ok obj, objs)

/-- `obj == None` -/
def isNone : Tree → Bool
  | .atom .none => true
  | _ => false

/-- `pyswagger/core.py`:408-426: not in the cache. Line 415 cannot fail, `jr_split` puts the `#`. -/
def loadRef (find : Objs → Str → Except Exc Tree × Objs) (objs : Objs) (url jp : Str) (parser : Option Nat) :
    Except Exc Tree × Objs :=
  if url ≠ [] then
    match a.fresh url jp parser with
    | .error e => (.error e, objs)
    | .ok obj =>
      match prepare_obj a find objs obj url jp with
      | (.error e, objs) => (.error e, objs)
      | (.ok obj, objs) => (wrap obj, objs)
  else
    match Tree.resolve (jp_split (some jp)).tail a.root with
    | .error e => (.error e, objs)
    | .ok t => (wrap t, objs)

/-- `pyswagger/core.py`:374-426 `App.resolve(jref, parser)`, with the cache afterwards. The number
bounds the depth of the Python stack. -/
def resolve : Nat → Objs → Str → Option Nat → Except Exc Tree × Objs
  | 0, objs, _, _ => (.error .RecursionError, objs)
  | n + 1, objs, jref, parser =>
    if jref = [] then (.error .ValueError, objs)
    else
      match jr_split a.path2url a.abspath jref with
      | .error e => (.error e, objs)
      | .ok (url, jp) =>
        match lookup (Dict.get? objs url) jp with
        | .error e => (.error e, objs)
        | .ok (some t) =>
          if isNone t then
            loadRef a (fun objs r => resolve n objs r (some a.schemaContext)) objs url jp parser
          else (wrap t, objs)
        | .ok none => loadRef a (fun objs r => resolve n objs r (some a.schemaContext)) objs url jp parser

/-- `pyswagger/core.py`:32-34 `App._shortcut_[App.sc_path]`: the expected prefix and the base. -/
def scPath : Str × Str := (c!"/", c!"#/paths")

/-- `pyswagger/core.py`:437-440: the reference `App.s` asks for. -/
def shortRef (p : Str) (b : Str × Str) : Str :=
  if b.1 ≠ [] then Tree.compose (if !startsWith p b.1 then b.1 ++ p else p) (some b.2)
  else Tree.compose p (some b.2)

/-- `pyswagger/core.py`:428-440 `App.s(p, b)`, with the cache afterwards. -/
def s (n : Nat) (objs : Objs) (p : Str) (b : Str × Str := scPath) : Except Exc Tree × Objs :=
  resolve a n objs (shortRef p b) none

end AppResolve
