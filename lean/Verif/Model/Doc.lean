import Verif.Model.Tree
/-!
# Reading and writing documents: `pyswagger/spec/base.py`

A parsing context belongs to one class of objects. A grammar gives, for each class, the fields with
their default values and the fields that hold further objects.

A document is a tree without objects (what `json.loads` gives, after `YamlFixer` for YAML). The
keys of an object that were present in the document (`__origin_keys`) are not part of its tree.
Contexts are walked in the order of the document here, in the order of `__swagger_child__` in the
code; only the choice among several errors depends on it, and errors are not told apart.
-/

namespace Doc
open Py Tree

/-- What a field with objects holds (`__swagger_child__`): one object (`None`), a list of objects
(`ContainerType.list_`), a dict of objects (`ContainerType.dict_`), or what
`AdditionalPropertiesContext` accepts. `ContainerType.dict_of_list_` is not used in Swagger 2.0. -/
inductive Kind where
  | one (c : Nat)
  | list (c : Nat)
  | dict (c : Nat)
  | boolOr (c : Nat)
  deriving DecidableEq, Repr

/-- A class with its parsing context: `__swagger_fields__` with the defaults and
`__swagger_child__`. -/
structure Cls where
  fields : List (Str × Tree)
  child : List (Str × Kind)

/-- The classes, by number. -/
abbrev Grammar := Nat → Cls

/-- `v == default` in Python for the defaults in use: `None`, a bool (equal to 0 or 1), a text, an
empty list, an empty dict (`pyswagger/spec/v2_0/objects.py`). -/
def isDefault : Tree → Tree → Bool
  | .atom .none, .atom .none => true
  | .atom (.bool b), .atom (.bool b') => b == b'
  | .atom (.bool b), .atom (.int n) => n == (if b then 1 else 0)
  | .atom (.bool b), .atom (.float (.fin q)) => q == (if b then 1 else 0)
  | .atom (.str s), .atom (.str s') => s == s'
  | .list [], .list [] => true
  | .dict [], .dict [] => true
  | _, _ => false

/-- `v == None` -/
def isNull : Tree → Bool
  | .atom .none => true
  | _ => false

/-- `pyswagger/spec/base.py`:152-155: containers are created even without input -/
def emptyOf : Kind → Option Tree
  | .list _ => some (.list [])
  | .dict _ => some (.dict [])
  | .one _ => none
  | .boolOr _ => none

/-- `pyswagger/spec/base.py`:192-215 `BaseObj.__init__`: fields from the parsed entries, the rest
from the defaults; containers have been created (152-155). Parents are in `Model/Parent.lean`. -/
def assemble (k : Cls) (entries : Dict Str Tree) : List (Str × Tree) :=
  k.fields.map fun f =>
    (f.1, match Dict.get? entries f.1 with
      | some v => v
      | none => ((Dict.get? k.child f.1).bind emptyOf).getD f.2)

/-- A scalar where objects are expected. `Context.parse(None)` (124-125) leaves all fields at their
defaults (no container is created); a text is iterated by `container_apply` (34), so only the
empty one is accepted; `AdditionalPropertiesContext.parse` (`pyswagger/spec/v2_0/parser.py`:87-99)
accepts a bool. -/
def parseAtom (G : Grammar) : Kind → Atom → Option Tree
  | .one c, .none => some (.obj c (G c).fields)
  | .boolOr _, .bool b => some (.atom (.bool b))
  | .list _, .str [] => some (.list [])
  | _, _ => none

mutual
/-- `pyswagger/spec/base.py`:118-171 `Context.parse` with 102-116 `__exit__`, and
`container_apply` (23-51) for containers; `none` stands for any exception. -/
def parseAs (G : Grammar) (k : Kind) : Tree → Option Tree
  | .atom a => parseAtom G k a
  | .list l =>
    match k with
    | .list c => (parseList G c l).map .list
    | _ => none
  | .dict d =>
    match k with
    | .one c => (parseEntries G (G c) d).map fun e => .obj c (assemble (G c) e)
    | .boolOr c => (parseEntries G (G c) d).map fun e => .obj c (assemble (G c) e)
    | .dict c => (parseDict G c d).map .dict
    | .list _ => if d.isEmpty then some (.list []) else none
  | .obj _ _ => none
/-- `pyswagger/spec/base.py`:147-169: the entries of a dict; for a field with objects, a null is
left out by 157-158 and set by 168-169 unless a container has been created. -/
def parseEntries (G : Grammar) (cls : Cls) : List (Str × Tree) → Option (List (Str × Tree))
  | [] => some []
  | (n, v) :: d =>
    match parseEntries G cls d with
    | none => none
    | some rest =>
      match Dict.get? cls.child n with
      | none => some ((n, v) :: rest)
      | some k =>
        if isNull v then some ((n, (emptyOf k).getD v) :: rest)
        else
          match parseAs G k v with
          | none => none
          | some w => some ((n, w) :: rest)
/-- `pyswagger/spec/base.py`:32-35 with 130-134 -/
def parseList (G : Grammar) (c : Nat) : List Tree → Option (List Tree)
  | [] => some []
  | v :: l =>
    match parseAs G (.one c) v, parseList G c l with
    | some w, some rest => some (w :: rest)
    | _, _ => none
/-- `pyswagger/spec/base.py`:36-39 with 136-140 -/
def parseDict (G : Grammar) (c : Nat) : List (Str × Tree) → Option (List (Str × Tree))
  | [] => some []
  | (n, v) :: d =>
    match parseAs G (.one c) v, parseDict G c d with
    | some w, some rest => some ((n, w) :: rest)
    | _, _ => none
end

/-- Reading a document as an object of a class: `with Context(tmp, key) as ctx: ctx.parse(obj)`
(`pyswagger/core.py`:176-182). -/
def parse (G : Grammar) (c : Nat) (j : Tree) : Option Tree := parseAs G (.one c) j

/-- the default of a field (`pyswagger/spec/base.py`:418) -/
def defaultOf (k : Cls) (n : Str) : Tree := (Dict.get? k.fields n).getD (.atom .none)

/-- a Python `None` inside a list or dict -/
def orNull : Option Tree → Tree
  | some t => t
  | none => .atom .none

mutual
/-- `pyswagger/spec/base.py`:393-426 `BaseObj.dump` and 398-416 `_dump_`; `none` is `None`. -/
def dump (G : Grammar) : Tree → Except Exc (Option Tree)
  | .dict d =>
    match dumpDict G d with
    | .error e => .error e
    | .ok r => .ok (if r.isEmpty then none else some (.dict r))
  | .list l =>
    match dumpList G l with
    | .error e => .error e
    | .ok r => .ok (if r.isEmpty then none else some (.list r))
  | .obj c fs =>
    match dumpFields G (G c) fs with
    | .error e => .error e
    | .ok r => .ok (if r.isEmpty then none else some (.dict r))
  | .atom a => if a = .none then .error .ValueError else .ok (some (.atom a))
/-- `pyswagger/spec/base.py`:400-403 -/
def dumpDict (G : Grammar) : List (Str × Tree) → Except Exc (List (Str × Tree))
  | [] => .ok []
  | (n, v) :: d =>
    match dump G v with
    | .error e => .error e
    | .ok r =>
      match dumpDict G d with
      | .error e => .error e
      | .ok rest => .ok ((n, orNull r) :: rest)
/-- `pyswagger/spec/base.py`:405-408 -/
def dumpList (G : Grammar) : List Tree → Except Exc (List Tree)
  | [] => .ok []
  | v :: l =>
    match dump G v with
    | .error e => .error e
    | .ok r =>
      match dumpList G l with
      | .error e => .error e
      | .ok rest => .ok (orNull r :: rest)
/-- `pyswagger/spec/base.py`:418-424 -/
def dumpFields (G : Grammar) (k : Cls) : List (Str × Tree) → Except Exc (List (Str × Tree))
  | [] => .ok []
  | (n, v) :: fs =>
    if isDefault (defaultOf k n) v then dumpFields G k fs
    else
      match dump G v with
      | .error e => .error e
      | .ok r =>
        match dumpFields G k fs with
        | .error e => .error e
        | .ok rest =>
          match r with
          | none => .ok rest
          | some d => .ok ((n, d) :: rest)
end

end Doc
