import Verif.Py.Url
/-!
# `pyswagger/utils.py`: URL and path helpers

`normalize_jr`, `derelativise_url`, `url_join`, `url_dirname`, `normalize_url`, `jr_split`,
`patch_path`. Platform: POSIX (`os.path` is `posixpath`, `os.name != 'nt'`).
-/

namespace Utils
open Py

/-- `pyswagger/utils.py`:400-403 `_fullmatch(r'\.{3,}', chunk)`, as used on line 419: three or
more dots and nothing else. -/
def fullmatchDots (chunk : Str) : Bool := 3 ≤ chunk.length && chunk.all (fun c => c = '.')

/-- `pyswagger/utils.py`:411-423, one round of the loop: the new value of `newpath`. -/
def derelStep (newpath : List Str) (chunk : Str) : List Str :=
  if chunk = c!"." then newpath
  else if chunk = c!".." then newpath.dropLast
  else if fullmatchDots chunk then newpath.dropLast
  else newpath ++ [chunk]

/-- `pyswagger/utils.py`:405-424 `derelativise_url(url)`. -/
def derelativise_url (url : Str) : Str :=
  let parsed := urlparse url
  let newpath := (splitChar '/' (parsed.path.drop 1)).foldl derelStep []
  urlunparse { parsed with path := '/' :: join ['/'] newpath }

/-- `pyswagger/utils.py`:364-398 `normalize_jr(jr, url)`. The `TypeError` is the one of
`'#' + None` on line 398. An empty `url` counts as no URL (`if … and url`, `if path`). -/
def normalize_jr (jr : Option Str) (url : Option Str) : Except Exc (Option Str) :=
  match jr with
  | none => .ok none
  | some jr =>
    let (path, jp) := match breakAt '#' jr with
      | some (a, b) => (a, some b)
      | none => (jr, none)
    let path : Option Str :=
      if path ≠ [] then
        let p := urlparse path
        if p.scheme = [] ∧ url.getD [] ≠ [] then
          let p := urlparse (url.getD [])
          some (derelativise_url
            (urlunparse { p with path := join ['/'] [dirname p.path, path] }))
        else some path
      else url
    if path.getD [] ≠ [] then
      .ok (some (if jp.getD [] ≠ [] then path.getD [] ++ '#' :: jp.getD [] else path.getD []))
    else
      match jp with
      | some jp => .ok (some ('#' :: jp))
      | none => .error .TypeError

/-- `pyswagger/utils.py`:345-362 `url_join(url, path)`. -/
def url_join (url path : Str) : Str :=
  let p := urlparse url
  let t :=
    if p.path.getLast? = some '/' then
      let path := if path.head? = some '/' then path.drop 1 else path
      p.path ++ path
    else join (if path.head? = some '/' then [] else ['/']) [p.path, path]
  urlunparse { p with path := t }

/-- `pyswagger/consts/private.py`:4-6 -/
def FILE_EXT_JSON : Str := c!"json"
/-- `pyswagger/consts/private.py`:4-6 -/
def FILE_EXT_YAML : Str := c!"yaml"
/-- `pyswagger/consts/private.py`:4-6 -/
def FILE_EXT_YML : Str := c!"yml"

/-- `pyswagger/consts/private.py`:8-12 -/
def VALID_FILE_EXT : List Str := ['.' :: FILE_EXT_JSON, '.' :: FILE_EXT_YAML, '.' :: FILE_EXT_YML]

/-- `pyswagger/utils.py`:332-343 `url_dirname(url)`. -/
def url_dirname (url : Str) : Str :=
  let p := urlparse url
  if [FILE_EXT_JSON, FILE_EXT_YAML].any (fun e => endsWith p.path e) then
    urlunparse { p with path := dirname p.path }
  else url

/-- `pyswagger/utils.py`:310 `_windows_path_prefix`: a drive letter, a colon, a backslash. -/
def windowsPathPrefix (url : Str) : Bool :=
  match url with
  | d :: ':' :: '\\' :: _ => d.isAlpha
  | _ => false

/-- `pyswagger/utils.py`:312-330 `normalize_url(url)`. `path2url` (lines 298-308) and
`os.path.abspath` depend on the platform and the working directory and are parameters. A path with a
drive is relative on POSIX, and `pathlib.Path.as_uri` raises `ValueError` for relative paths. -/
def normalize_url (path2url abspath : Str → Str) (url : Str) : Except Exc Str :=
  if url = [] then .ok url
  else if windowsPathPrefix url then .error .ValueError
  else
    let p := urlparse url
    if p.scheme = [] then
      if p.netloc = [] ∧ p.path ≠ [] then .ok (path2url (abspath url))
      else .error .ValueError
    else .ok url

/-- `pyswagger/utils.py`:256-263 `jr_split(s)`. -/
def jr_split (path2url abspath : Str → Str) (s : Str) : Except Exc (Str × Str) :=
  let p := urlparse s
  match normalize_url path2url abspath (urlunparse { p with fragment := [] }) with
  | .error e => .error e
  | .ok u => .ok (u, if p.fragment ≠ [] then '#' :: p.fragment else c!"#")

/-- `pyswagger/utils.py`:575-597 `patch_path(base_path, path)` (POSIX: lines 593-595 are skipped). -/
def patch_path (base_path path : Str) : Str :=
  let ext := splitextExt base_path
  let ext := if ext ∈ VALID_FILE_EXT then ext else []
  let ext := if ext = [] then splitextExt path else ext
  let ext := if ext ∈ VALID_FILE_EXT then ext else []
  let ext := if ext = [] then c!".json" else ext
  if endsWith path ext then path else path ++ ext

end Utils
