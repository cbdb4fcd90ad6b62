import Verif.Model.Resolver
/-!
# `pyswagger/spec/v1_2/parser.py`: `ResourceListContext.parse`

Reading the fields of the resource list itself (`Context.parse`) and reading a resource
(`ResourceContext`, with `Resource.__init__`, `Model/Upgrade.lean` `load`) are parameters, as they do
not load anything. CPython 3: `map` and `zip` are lazy, so a bad path is noticed when its turn comes.
-/

namespace Load12
open Py Utils

/-- `api['path']`: a list or a text cannot be indexed with a text, other values not at all -/
def pathOf : Val → Except Exc Val
  | .dict d =>
    match Dict.get? d c!"path" with
    | some v => .ok v
    | none => .error .KeyError
  | _ => .error .TypeError

/-- `pyswagger/spec/v1_2/parser.py`:169-170, the loop -/
def pathsOf : List Val → Except Exc (List Val)
  | [] => .ok []
  | a :: as =>
    match pathOf a with
    | .error e => .error e
    | .ok p =>
      match pathsOf as with
      | .error e => .error e
      | .ok ps => .ok (p :: ps)

/-- `pyswagger/spec/v1_2/parser.py`:166-172: the paths listed. Line 172 adds a type to a text, which
raises `TypeError` as well. -/
def listed (obj : Dict Str Val) : Except Exc (List Val) :=
  match Dict.get? obj c!"apis" with
  | none => .ok []
  | some (.list l) => pathsOf l
  | some _ => .error .TypeError

variable {ρ : Type} (path2url abspath : Str → Str) (world : Nat → Resolver.Source → Except Exc Val)
  (c : Resolver.Conf) (readRes : Val → Except Exc ρ)

/-- `pyswagger/spec/v1_2/parser.py`:174-189: the resources, one after the other. `d` holds those
loaded so far. A path that is no text cannot be sliced, or its slice cannot be joined. The
placeholder of line 185 is overwritten when the resource has been read. -/
def loadAll (base : Str) (getter : Option Resolver.Getter) : List Val → Dict Str ρ → Resolver.State →
    Except Exc (Dict Str ρ) × Resolver.State
  | [], d, s => (.ok d, s)
  | .str u :: us, d, s =>
    match Resolver.resolve path2url abspath world c s (url_join base (u.drop 1)) getter with
    | (.error e, s) => (.error e, s)
    | (.ok res, s) =>
      match readRes res with
      | .error e => (.error e, s)
      | .ok r => loadAll base getter us (Dict.set d (u.drop 1) r) s
  | _ :: _, _, s => (.error .TypeError, s)

/-- `pyswagger/spec/v1_2/parser.py`:163-189 `ResourceListContext.parse(obj, root_url, resolver,
getter)`: the field `apis`. `own` is the outcome of line 164. -/
def parse (own : Except Exc Unit) (obj : Dict Str Val) (root_url : Str) (getter : Option Resolver.Getter)
    (s : Resolver.State) : Except Exc (Dict Str ρ) × Resolver.State :=
  match own with
  | .error e => (.error e, s)
  | .ok () =>
    match listed obj with
    | .error e => (.error e, s)
    | .ok us => loadAll path2url abspath world c readRes (url_dirname root_url) getter us [] s

end Load12
