import Verif.Py.Dict
import Verif.Py.Value
import Verif.Py.Int
import Verif.Py.Path
import Verif.Model.Url
import Verif.Model.JsonPointer
/-!
# `pyswagger/resolve.py`: loading documents

What a getter finds at the n-th fetch is a parameter (`world`): files and servers may change over
time, and a getter object given by the caller may hand out anything. The model of the getters
themselves is `Model/Getter.lean`. The caller gets the loaded document itself, not a copy; changes made to it
by the caller are not modelled. `log` is not part of the code: it records the fetches.
-/

namespace Resolver
open Py Utils

/-- a getter handed over by the caller: a class or an object -/
inductive Getter where
  | cls (c : Nat)
  | inst (i : Nat)
  deriving DecidableEq, Repr

/-- what is asked for a document: a getter class called with the URL, a getter object, `UrlGetter`
with the URL, or `LocalGetter` with a path -/
inductive Source where
  | cls (c : Nat) (url : Str)
  | inst (i : Nat)
  | url (url : Str)
  | file (path : Str)
  deriving DecidableEq, Repr

/-- `Resolver.__cache`, and the fetches so far (URL, source, outcome), oldest first -/
structure State where
  cache : Dict Str Val
  log : List (Str × Source × Except Exc Val)

/-- `bool(obj)` -/
def truthy : Val → Bool
  | .none => false
  | .bool b => b
  | .int n => n ≠ 0
  | .float x => x ≠ .fin 0
  | .str s => !s.isEmpty
  | .list l => !l.isEmpty
  | .dict d => !d.isEmpty
  | .other _ => true

/-- the `Resolver` object -/
structure Conf where
  /-- `url_load_hook` -/
  hook : Option (Str → Str)
  /-- `default_getter` -/
  default : Option Getter

/-- `pyswagger/resolve.py`:53-58 `inspect.isclass(getter)`, for a getter given by the caller -/
def asked (g : Getter) (local_url : Str) : Source :=
  match g with
  | .cls c => .cls c local_url
  | .inst i => .inst i

/-- `pyswagger/resolve.py`:47-58: the getter used. -/
def source (c : Conf) (getter : Option Getter) (local_url : Str) : Source :=
  match getter with
  | some g => asked g local_url
  | none =>
    let p := urlparse local_url
    if p.scheme = c!"file" ∧ p.path ≠ [] then .file (pathJoin p.netloc p.path)
    else
      match c.default with
      | some g => asked g local_url
      | none => .url local_url

/-- `l[i]` -/
def index (l : List Val) (i : Int) : Option Val :=
  if 0 ≤ i then l[i.toNat]? else if -i ≤ l.length then l[l.length - (-i).toNat]? else none

/-- `pyswagger/resolve.py`:65-72 -/
def follow : List Str → Val → Except Exc Val
  | [], v => .ok v
  | t :: ts, .list l =>
    match intOf? t with
    | none => .error .ValueError
    | some i =>
      match index l i with
      | some v => follow ts v
      | none => .error .IndexError
  | t :: ts, .dict d =>
    match Dict.get? d t with
    | some v => follow ts v
    | none => .error .KeyError
  | _ :: _, _ => .error .Exception

/-- `pyswagger/resolve.py`:63-76 -/
def finish (obj : Val) (jp : Str) : Except Exc Val :=
  if truthy obj then follow (jp_split (some jp)).tail obj else .error .Exception

variable (path2url abspath : Str → Str) (world : Nat → Source → Except Exc Val) (c : Conf)

/-- `pyswagger/resolve.py`:34-78 `Resolver.resolve(jref, getter)`. -/
def resolve (s : State) (jref : Str) (getter : Option Getter) : Except Exc Val × State :=
  match jr_split path2url abspath jref with
  | .error e => (.error e, s)
  | .ok (url, jp) =>
    let local_url := match c.hook with
      | some f => f url
      | none => url
    let obj := (Dict.get? s.cache url).getD .none
    if truthy obj then (finish obj jp, s)
    else
      let src := source c getter local_url
      let got := world s.log.length src
      let log := s.log ++ [(url, src, got)]
      match got with
      | .error e => (.error e, { s with log := log })
      | .ok obj =>
        let cache := Dict.set s.cache url (if truthy obj then obj else .none)
        (finish obj jp, ⟨cache, log⟩)

/-- a sequence of calls: the results, and the final state -/
def run (s : State) : List (Str × Option Getter) → List (Except Exc Val) × State
  | [] => ([], s)
  | (jref, g) :: calls =>
    let (r, s) := resolve path2url abspath world c s jref g
    let (rs, s) := run s calls
    (r :: rs, s)

/-- a new `Resolver` (`pyswagger/resolve.py`:20-32) -/
def new : State := ⟨[], []⟩

end Resolver
