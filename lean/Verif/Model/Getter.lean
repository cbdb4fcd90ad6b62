import Verif.Py.Bytes
import Verif.Py.Dict
import Verif.Py.Value
import Verif.Py.Path
import Verif.Model.Url
/-!
# `pyswagger/getter.py`: getters

Parameters: what is found at a path or URL (`load`, which may change from call to call), the JSON
and YAML parsers, which files exist, and `os.path.abspath`. `UnicodeDecodeError` and
`json.JSONDecodeError` are `ValueError`s; `yaml.YAMLError` is not one and stands among the other
exceptions. POSIX and Python 3. Logging is not modelled.
-/

namespace Getters
open Py Utils

/-- what `load` returns -/
inductive Loaded where
  | dict (d : List (Str × Val))
  | bytes (b : Bytes)
  | text (s : Str)
  /-- a value that is neither a dict nor bytes nor text -/
  | other
  deriving DecidableEq

/-- a getter object: `base_path` and `urls` -/
structure Getter where
  base : Str
  urls : List Str
  deriving DecidableEq, Repr

variable (json yaml : Str → Except Exc Val)

/-- `pyswagger/getter.py`:50-51 `except ValueError: raise Exception(…)` -/
def unknownFormat : Except Exc Val → Except Exc Val
  | .error e => .error (if e = .ValueError then .Exception else e)
  | .ok v => .ok v

/-- `pyswagger/getter.py`:44-51 -/
def parse (s : Str) : Except Exc Val :=
  unknownFormat (if startsWith s c!"{" then json s else yaml s)

/-- `pyswagger/getter.py`:35-53 -/
def content (obj : Loaded) : Except Exc Val :=
  match obj with
  | .dict d => .ok (.dict d)
  | .bytes b =>
    match utf8Decode b with
    | some s => parse json yaml s
    | none => .error .ValueError
  | .text s => parse json yaml s
  | .other => .error .ValueError

/-- `pyswagger/getter.py`:29-53 `Getter.__next__`: the result, and the getter afterwards (the URL
is removed from `urls` before it is loaded). `load` is the `load` method of the class. -/
def next (load : Str → Str → Except Exc Loaded) (g : Getter) : Except Exc Val × Getter :=
  match g.urls with
  | [] => (.error .StopIteration, g)
  | u :: us =>
    let g' := { g with urls := us }
    match load g.base u with
    | .error e => (.error e, g')
    | .ok obj => (content json yaml obj, g')

/-- successive calls of `next`, `loads` being what is found at each of them -/
def run : List (Str → Str → Except Exc Loaded) → Getter → List (Except Exc Val) × Getter
  | [], g => ([], g)
  | l :: ls, g =>
    let (r, g) := next json yaml l g
    let (rs, g) := run ls g
    (r :: rs, g)

/-- `pyswagger/consts/private.py`:13-18 -/
def SWAGGER_FILE_NAMES : List Str :=
  [c!"resource_list" ++ '.' :: FILE_EXT_JSON, c!"swagger" ++ '.' :: FILE_EXT_JSON,
   c!"swagger" ++ '.' :: FILE_EXT_YAML, c!"swagger" ++ '.' :: FILE_EXT_YML]

/-- `re.match('^/[A-Z]+:', path)` -/
def drivePath (path : Str) : Bool :=
  match path with
  | '/' :: rest =>
    let tail := rest.dropWhile (fun c => 'A' ≤ c && c ≤ 'Z')
    tail.length < rest.length && tail.head? = some ':'
  | _ => false

variable (abspath : Str → Str) (isfile : Str → Bool)

/-- `pyswagger/getter.py`:69-73: the path in the file system -/
def localPath (given : Str) : Str :=
  let path := if startsWith given c!"file://" then (urlparse given).path else given
  if drivePath path then abspath path.tail else path

/-- `pyswagger/getter.py`:75-84: the loop over the well-known names (`none`: its `else`) -/
def wellKnown (given path : Str) : List Str → Option Getter
  | [] => none
  | n :: ns =>
    if endsWith given n then some ⟨dirname given, [path]⟩
    else
      let p := pathJoin path n
      if isfile p then some ⟨given, [p]⟩ else wellKnown given path ns

/-- `pyswagger/getter.py`:93-98 -/
def byExtension (path ext : Str) : List Str → Option Getter
  | [] => none
  | e :: es => if endsWith ext e then some ⟨dirname path, [path]⟩ else byExtension path ext es

/-- `pyswagger/getter.py`:100-104 -/
def withExtension (given path : Str) : List Str → Option Getter
  | [] => none
  | e :: es =>
    if isfile (path ++ '.' :: e) then some ⟨given, [path ++ '.' :: e]⟩
    else withExtension given path es

/-- `pyswagger/getter.py`:66-106 `LocalGetter(path)` -/
def localGetter (given : Str) : Except Exc Getter :=
  let path := localPath abspath given
  let exts := [FILE_EXT_JSON, FILE_EXT_YAML, FILE_EXT_YML]
  match wellKnown isfile given path SWAGGER_FILE_NAMES with
  | some g => .ok g
  | none =>
    match byExtension path (splitextExt path) exts with
    | some g => .ok g
    | none =>
      match withExtension isfile given path exts with
      | some g => .ok g
      | none => .error .ValueError

/-- `pyswagger/getter.py`:108-117 `LocalGetter.load`: `read` opens a file as text. -/
def localLoad (read : Str → Except Exc Str) (base path : Str) : Except Exc Loaded :=
  match read (patch_path base path) with
  | .ok s => .ok (.text s)
  | .error e => .error e

/-- `pyswagger/getter.py`:127-134 `SimpleGetter(path)`; `none` stands for a value that is not a
text. -/
def simpleGetter (path : Option Str) : Except Exc Getter :=
  match path with
  | some path => .ok ⟨if endsWith path c!"/" then path.dropLast else path, [path]⟩
  | none => .error .Exception

/-- `pyswagger/getter.py`:136-139 `SimpleGetter.load`, and `UrlGetter` (:142-157) when `callback`
is `_url_load` -/
def simpleLoad (callback : Str → Except Exc Loaded) (_base path : Str) : Except Exc Loaded :=
  callback path

/-- `pyswagger/getter.py`:167-170 `DictGetter(urls, path2dict)`. The getter keeps the list object
of the caller: what remains in `urls` is also what the caller's list holds afterwards. -/
def dictGetter (urls : List Str) : Except Exc Getter :=
  match urls with
  | [] => .error .IndexError
  | u :: _ => .ok ⟨u, urls⟩

/-- `pyswagger/getter.py`:170-175 `DictGetter.load`; `path2dict` is `none` for `None` -/
def dictLoad (path2dict : Option (Dict Str Loaded)) (_base path : Str) : Except Exc Loaded :=
  .ok ((Dict.get? (path2dict.getD []) path).getD (.dict []))

end Getters
