import Verif.Model.Loaded
import Verif.Model.Reply
import Verif.Model.Deref
import Verif.Model.Scope
/-!
# The objects of a prepared document

`Model/Effective.lean`, `Model/Schemas.lean` and `Model/Reply.lean` say when an object of a conversion is the one of a
document. This module makes them: the objects of the document, by their places (`pyswagger/core.py`:195-231), and those
of the objects `final` that `Merge` adds (`pyswagger/scanner/v2_0/merge.py`:49-55).
-/

namespace Objects
open Py Utils Tree Doc Prim Effective Schemas Call Io

/-- What surrounds the document, with numbers for the objects inside `final` of the object `i`, too. There is no other
document. `version12` is `app.version == '1.2'` (`pyswagger/core.py`:285-300): the document is one upgraded from version
1.2. -/
structure Outside extends Loaded.Outside where
  version12 : Bool := false
  alone : ∀ r j, away r ≠ .ok j
  spare : Nat → List Str → Nat
  made : Nat → Option (Nat × List Str)
  makes : ∀ i ts, made (spare i ts) = some (i, ts)
  apart : ∀ ts, made (num ts) = none

variable {ω : Type}

/-- the class and the fields of an object, its name, and the numbers of what is inside -/
structure Found where
  cls : Nat
  fields : List (Str × Tree)
  name : Option Str
  inside : List Str → Nat

/-- `pyswagger/scanner/v2_0/patch_obj.py`:84-95: the last token of the place of a Schema object below `definitions`; of a
document upgraded from version 1.2, what follows the last separator of scopes in it. The objects inside `final` are not
visited. -/
def nameAt (version12 : Bool) (ts : List Str) : Option Str :=
  if ts.head? = some c!"definitions" then
    if version12 then (Utils.scope_split ts.getLast?).getLast?.join else ts.getLast?
  else none

/-- the object with the number `n`: in the document `root` (`pyswagger/core.py`:195-231), or inside `final` of a Parameter
or Response object of it (`pyswagger/scanner/v2_0/merge.py`:17-55) -/
def found (o : Outside) (url : Str) (root : Tree) (order : List Atom → List Atom) (fuel : Nat) (n : Nat) : Option Found :=
  match o.made n with
  | none =>
    match Tree.resolve (o.pos n) root with
    | .ok (.obj c fs) => some ⟨c, fs, nameAt o.version12 (o.pos n), fun us => o.num (o.pos n ++ us)⟩
    | _ => none
  | some (i, ts) =>
    match cls? ((Loaded.world o.toOutside url root).content i) with
    | none => none
    | some c =>
      match MergeRefs.effective (Loaded.world o.toOutside url root) order c fuel i with
      | some (.value t) =>
        match Tree.resolve ts t with
        | .ok (.obj c fs) => some ⟨c, fs, none, fun us => o.spare i (ts ++ us)⟩
        | _ => none
      | _ => none

/-- the object in a field; `None` is none -/
def one (f : Found) (n : Str) : Option Nat := if isNull (attr f.fields n) then none else some (f.inside [n])

/-- the objects in a list -/
def many (f : Found) (n : Str) : List Nat :=
  (List.range (listed (attr f.fields n)).length).map fun i => f.inside [n, natStr i]

/-- the objects in a dict; the keys of a dict of Python are distinct -/
def named (f : Found) (n : Str) : Dict Str Nat :=
  if ((entries (attr f.fields n)).map Prod.fst).Nodup then (entries (attr f.fields n)).map fun x => (x.1, f.inside [n, x.1])
  else []

/-- `additionalProperties`: a truth value, an object, or nothing -/
def further (f : Found) : Addp :=
  match attr f.fields c!"additionalProperties" with
  | .atom (.bool true) => .yes
  | .atom _ => .no
  | _ => .schema (f.inside [c!"additionalProperties"])

/-- the attributes of an object that conversion reads (`Schemas.nodeOf`, `Effective.nodeOf`) -/
def node (o : Outside) (url : Str) (root : Tree) (order : List Atom → List Atom) (fuel : Nat) (n : Nat) : Node :=
  match found o url root order fuel n with
  | none => {}
  | some f =>
    if f.cls = cSchema then
      Schemas.nodeOf f.fields f.name (one f c!"items") (many f c!"allOf") (named f c!"properties") (further f)
    else Effective.nodeOf f.cls f.fields (one f c!"items")

/-- the attribute `ref_obj` (`pyswagger/scanner/v2_0/resolve.py`:13-29); nothing but a Schema object has one that
conversion reads -/
def ref (o : Outside) (url : Str) (root : Tree) (order : List Atom → List Atom) (fuel : Nat) (n : Nat) : Option Nat :=
  match found o url root order fuel n with
  | none => none
  | some f => if f.cls = cSchema then (resolved (Loaded.world o.toOutside url root) f.fields).join else none

/-- `pyswagger/utils.py`:265-273 `deref(obj)`, cut off after `rounds` rounds of its loop (with an exception that it does
not raise) -/
def derefs (ref : Nat → Option Nat) (rounds : Nat) (n : Nat) : Except Exc Nat :=
  match Utils.deref rounds ref n with
  | some (.ok (m, _)) => .ok m
  | some (.error e) => .error e
  | none => .error .Exception

/-- the objects of a conversion -/
def env (o : Outside) (url : Str) (root : Tree) (order : List Atom → List Atom) (fuel rounds : Nat) (e : Env ω) : Env ω :=
  { e with node := node o url root order fuel, deref := derefs (ref o url root order fuel) rounds }

/-- `final(p)` with the attributes read by `Operation.__call__` (`pyswagger/spec/v2_0/objects.py`:251-281), for a
parameter whose `name` and `in` are texts -/
def decl (o : Outside) (x : Nat × Tree) : Decl :=
  match x.2 with
  | .obj _ fs =>
    { name := (text? (attr fs c!"name")).getD [], in_ := (text? (attr fs c!"in")).getD [],
      required := !falsy (attr fs c!"required"), obj := o.spare x.1 [],
      schema := if isNull (attr fs c!"schema") then none else some (o.spare x.1 [c!"schema"]) }
  | _ => { name := [], in_ := [], obj := o.spare x.1 [] }

/-- the parameters of an operation (`Effective.parameters`) -/
def decls (o : Outside) (url : Str) (root : Tree) (order : List Atom → List Atom) (fuel : Nat) (own up : List Nat) :
    Option (List Decl) :=
  match finals (Loaded.world o.toOutside url root) order fuel own, finals (Loaded.world o.toOutside url root) order fuel up with
  | some a, some b =>
    some ((Patch.parameters nameOf ({ parameters := a, parent := some b } : Patch.Op (Nat × Tree) Unit)).map (decl o))
  | _, _ => none

/-- `final(r)` with the attributes read by `Response` (`pyswagger/io.py`:366-367, 404-417) -/
def respDecl (o : Outside) (i : Nat) : Tree → RespDecl Nat Nat
  | .obj _ fs =>
    { headers := (entries (attr fs c!"headers")).map fun x => (x.1, o.spare i [c!"headers", x.1]),
      schema := if isNull (attr fs c!"schema") then none else some (o.spare i [c!"schema"]) }
  | _ => ⟨[], none⟩

/-- the responses of an operation (`Reply.Table`) -/
def table (o : Outside) (url : Str) (root : Tree) (order : List Atom → List Atom) (fuel : Nat) :
    Dict Str Nat → Option (Dict Str (RespDecl Nat Nat))
  | [] => some []
  | (k, i) :: l =>
    match MergeRefs.effective (Loaded.world o.toOutside url root) order cResponse fuel i with
    | some (.value t) => (table o url root order fuel l).map ((k, respDecl o i t) :: ·)
    | _ => none

end Objects
