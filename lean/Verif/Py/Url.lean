import Verif.Py.Basic
/-!
# `urllib.parse` (CPython 3.9) and `posixpath`

Not modelled: removal of control characters, bracket and NFKC checks of the network location
(these raise `ValueError` on malformed hosts).
-/

namespace Py

/-- Cut at the first occurrence of `c`. -/
def breakAt (c : Char) : Str → Option (Str × Str)
  | [] => none
  | x :: xs =>
    if x = c then some ([], xs)
    else match breakAt c xs with
      | none => none
      | some (a, b) => some (x :: a, b)

/-- Cut at the last occurrence of `c`: everything up to and including it, and the rest. -/
def breakAtLast (c : Char) : Str → Option (Str × Str)
  | [] => none
  | x :: xs =>
    match breakAtLast c xs with
    | some (a, b) => some (x :: a, b)
    | none => if x = c then some ([x], xs) else none

/-- `urllib.parse.ParseResult` -/
structure Url where
  scheme : Str
  netloc : Str
  path : Str
  params : Str
  query : Str
  fragment : Str
  deriving DecidableEq, Repr

/-- `urllib.parse.scheme_chars` -/
def isSchemeChar (c : Char) : Bool := c.isAlphanum || c = '+' || c = '-' || c = '.'

/-- `urllib.parse.uses_netloc` -/
def usesNetloc : List Str :=
  [c!"", c!"ftp", c!"http", c!"gopher", c!"nntp", c!"telnet", c!"imap", c!"wais", c!"file", c!"mms",
   c!"https", c!"shttp", c!"snews", c!"prospero", c!"rtsp", c!"rtspu", c!"rsync", c!"svn",
   c!"svn+ssh", c!"sftp", c!"nfs", c!"git", c!"git+ssh", c!"ws", c!"wss"]

/-- `urllib.parse.uses_params` -/
def usesParams : List Str :=
  [c!"", c!"ftp", c!"hdl", c!"prospero", c!"http", c!"https", c!"shttp", c!"rtsp", c!"rtspu", c!"sip",
   c!"sips", c!"mms", c!"sftp", c!"tel"]

/-- the scheme part of `urlsplit` -/
def splitScheme (url : Str) : Str × Str :=
  match breakAt ':' url with
  | some (pre, rest) =>
    if pre ≠ [] ∧ pre.all isSchemeChar then (pre.map Char.toLower, rest) else ([], url)
  | none => ([], url)

/-- a character ending the network location -/
def endsNetloc (c : Char) : Bool := c = '/' || c = '?' || c = '#'

/-- the network location part of `urlsplit` -/
def splitNetloc (url : Str) : Str × Str :=
  match url with
  | '/' :: '/' :: rest => (rest.takeWhile (fun c => !endsNetloc c), rest.dropWhile (fun c => !endsNetloc c))
  | _ => ([], url)

/-- cut off the part after the first `c` (empty if there is none) -/
def cutAt (c : Char) (s : Str) : Str × Str :=
  match breakAt c s with
  | some (a, b) => (a, b)
  | none => (s, [])

/-- `urllib.parse._splitparams` -/
def splitParams (path : Str) : Str × Str :=
  match breakAtLast '/' path with
  | some (dir, base) =>
    match breakAt ';' base with
    | some (a, b) => (dir ++ a, b)
    | none => (path, [])
  | none => cutAt ';' path

/-- `urllib.parse.urlparse(url)` -/
def urlparse (url : Str) : Url :=
  let (scheme, url) := splitScheme url
  let (netloc, url) := splitNetloc url
  let (url, fragment) := cutAt '#' url
  let (url, query) := cutAt '?' url
  let (path, params) := if scheme ∈ usesParams then splitParams url else (url, [])
  ⟨scheme, netloc, path, params, query, fragment⟩

/-- the part of `urlunparse` before the query: scheme, network location, path (with params) -/
def unparseHead (scheme netloc url : Str) : Str :=
  let url :=
    if netloc ≠ [] ∨ (scheme ≠ [] ∧ scheme ∈ usesNetloc ∧ url.take 2 ≠ ['/', '/']) then
      let url := if url ≠ [] ∧ url.take 1 ≠ ['/'] then '/' :: url else url
      '/' :: '/' :: (netloc ++ url)
    else url
  if scheme ≠ [] then scheme ++ ':' :: url else url

/-- `urllib.parse.urlunparse(p)` -/
def urlunparse (p : Url) : Str :=
  let url := if p.params ≠ [] then p.path ++ ';' :: p.params else p.path
  let url := unparseHead p.scheme p.netloc url
  let url := if p.query ≠ [] then url ++ '?' :: p.query else url
  if p.fragment ≠ [] then url ++ '#' :: p.fragment else url

/-- strip trailing slashes, `s.rstrip('/')` -/
def rstripSlash (s : Str) : Str := (s.reverse.dropWhile (fun c => c = '/')).reverse

/-- `posixpath.dirname(p)` -/
def dirname (p : Str) : Str :=
  match breakAtLast '/' p with
  | none => []
  | some (head, _) => if head.all (fun c => c = '/') then head else rstripSlash head

/-- the extension part of `posixpath.splitext(p)`: the text from the last dot of the last path
component on, unless only dots precede it there. -/
def splitextExt (p : Str) : Str :=
  let base := match breakAtLast '/' p with
    | none => p
    | some (_, b) => b
  match breakAtLast '.' base with
  | none => []
  | some (pre, ext) =>
    if pre.dropLast.all (fun c => c = '.') then [] else '.' :: ext

end Py
