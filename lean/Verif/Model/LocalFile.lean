import Verif.Model.Getter
import Verif.Model.Resolver
import Verif.Py.Quote
/-!
# Loading a document from a file

`path2url` and `os.path.abspath` are parameters of `Model/Url.lean`; here they are given for POSIX and CPython 3.7 - 3.9, and what
`App.load` does with a path is followed up to the file that is opened.
-/

namespace LocalFile
open Py Utils

/-- one round of the loop of `posixpath.normpath` -/
def normStep (rooted : Bool) (new : List Str) (comp : Str) : List Str :=
  if comp = [] ∨ comp = c!"." then new
  else if comp ≠ c!".." ∨ (!rooted ∧ new = []) ∨ new.getLast? = some c!".." then new ++ [comp]
  else new.dropLast

/-- `posixpath.normpath(path)`: the number of slashes kept in front -/
def slashes (path : Str) : Nat :=
  match path with
  | '/' :: '/' :: '/' :: _ => 1
  | '/' :: '/' :: _ => 2
  | '/' :: _ => 1
  | _ => 0

/-- `posixpath.normpath(path)` -/
def normpath (path : Str) : Str :=
  let n := slashes path
  let p := List.replicate n '/' ++ join ['/'] ((splitChar '/' path).foldl (normStep (n ≠ 0)) [])
  if p = [] then c!"." else p

/-- `posixpath.abspath(path)` in the working directory `cwd` -/
def abspath (cwd path : Str) : Str := normpath (pathJoin cwd path)

/-- `quote_from_bytes(bytes)` with its default of safe characters, for one byte -/
def quoteByte (b : UInt8) : Str := if b.toNat = 47 then ['/'] else Py.quoteByte false b

/-- `pyswagger/utils.py`:298-308 `path2url(p)`, i.e. `pathlib.Path(p).as_uri()`. For absolute paths that are normalised, as those of
`os.path.abspath`: `pathlib` changes nothing in them. File names are UTF-8. -/
def path2url (p : Str) : Str := c!"file://" ++ (utf8 p).flatMap quoteByte

/-- `pyswagger/core.py`:283-285, `pyswagger/resolve.py`:34-60, `pyswagger/getter.py`:28-33, 108-114: the file opened by `App.load(url)`
without getter, hook and resolver of the caller (`none`: the document is not read from a file). `isfile` says which files there are. -/
def opened (cwd : Str) (isfile : Str → Bool) (url : Str) : Except Exc (Option Str) :=
  match normalize_url path2url (abspath cwd) url with
  | .error e => .error e
  | .ok url =>
    match jr_split path2url (abspath cwd) url with
    | .error e => .error e
    | .ok (url, _) =>
      match Resolver.source ⟨none, none⟩ none url with
      | .file f =>
        match Getters.localGetter (abspath cwd) isfile f with
        | .error e => .error e
        | .ok g =>
          match g.urls with
          | [] => .error .StopIteration
          | u :: _ => .ok (some (patch_path g.base u))
      | _ => .ok none

end LocalFile
