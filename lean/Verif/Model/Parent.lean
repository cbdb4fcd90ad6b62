import Verif.Model.Merge
import Verif.Model.Doc20
/-!
# Parents of document objects: `pyswagger/spec/base.py`, `pyswagger/scanner/v2_0/assign_parent.py`

Objects have an identity here, a number, and the heap knows for each the value of `_parent__`. Numbers are given out
in the order in which objects are built; that the code walks the fields of an object in another order changes the
numbers only.
-/

namespace Parent
open Py Tree Doc

/-- A value with objects that have an identity. `plain` is a value without objects. -/
inductive LTree where
  | plain (t : Tree)
  | list (l : List LTree)
  | dict (d : List (Str × LTree))
  | obj (id cls : Nat) (fields : List (Str × LTree))

/-- an object of a document -/
structure Item where
  id : Nat
  cls : Nat
  fields : List (Str × LTree)

/-- the next number, and `_parent__` of the objects there are -/
structure Heap where
  next : Nat
  parent : Nat → Option Nat

/-- `obj._parent__ = self` -/
def Heap.set (h : Heap) (i p : Nat) : Heap := { h with parent := fun j => if j = i then some p else h.parent j }

mutual
/-- the value without identities -/
def erase : LTree → Tree
  | .plain t => t
  | .list l => .list (eraseL l)
  | .dict d => .dict (eraseD d)
  | .obj _ c fs => .obj c (eraseD fs)
def eraseL : List LTree → List Tree
  | [] => []
  | v :: l => erase v :: eraseL l
def eraseD : List (Str × LTree) → List (Str × Tree)
  | [] => []
  | (n, v) :: d => (n, erase v) :: eraseD d
end

/-- `pyswagger/spec/base.py`:219-228 `_assign`, for a class: `None` is skipped, what is no object of the class raises
`ValueError`. -/
def assignOne (self c : Nat) : LTree → Heap → Option Heap
  | .plain t, h => if isNull t then some h else none
  | .obj i c' _, h => if c' = c then some (h.set i self) else none
  | _, _ => none

/-- `container_apply` (`pyswagger/spec/base.py`:32-35, 36-39) of `_assign` to the elements -/
def assignAll (self c : Nat) : List LTree → Heap → Option Heap
  | [], h => some h
  | v :: l, h =>
    match assignOne self c v h with
    | none => none
    | some h => assignAll self c l h

/-- `pyswagger/spec/base.py`:231-236: the value of one field with objects. `AdditionalPropertiesContext.is_produced`
(`pyswagger/spec/v2_0/parser.py`:72-77) accepts a bool. Iterating over an empty text gives nothing. -/
def assignField (self : Nat) (k : Kind) (v : LTree) (h : Heap) : Option Heap :=
  match k with
  | .one c => assignOne self c v h
  | .boolOr c =>
    match v with
    | .plain (.atom (.bool _)) => some h
    | v => assignOne self c v h
  | .list c =>
    match v with
    | .plain (.atom .none) => some h
    | .plain (.atom (.str [])) => some h
    | .plain (.list []) => some h
    | .plain (.dict []) => some h
    | .list l => assignAll self c l h
    | _ => none
  | .dict c =>
    match v with
    | .plain (.atom .none) => some h
    | .plain (.dict []) => some h
    | .dict d => assignAll self c (d.map Prod.snd) h
    | _ => none

/-- `pyswagger/spec/base.py`:216-236 `_assign_parent`: field after field; a field that is missing raises
`AttributeError`. -/
def assignParent (self : Nat) (fs : List (Str × LTree)) : List (Str × Kind) → Heap → Option Heap
  | [], h => some h
  | (n, k) :: child, h =>
    match Dict.get? fs n with
    | none => none
    | some v =>
      match assignField self k v h with
      | none => none
      | some h => assignParent self fs child h

/-- `pyswagger/spec/base.py`:192-214 `BaseObj.__init__`: a new object without parent, then its children. -/
def construct (G : Grammar) (c : Nat) (fs : List (Str × LTree)) (h : Heap) : Option (LTree × Heap) :=
  match assignParent h.next fs (G c).child ⟨h.next + 1, fun j => if j = h.next then none else h.parent j⟩ with
  | none => none
  | some h' => some (.obj h.next c fs, h')

/-- `pyswagger/spec/base.py`:208-210: the fields, as in `Doc.assemble` -/
def assemble (k : Cls) (entries : Dict Str LTree) : List (Str × LTree) :=
  k.fields.map fun f =>
    (f.1, match Dict.get? entries f.1 with
      | some v => v
      | none => .plain (((Dict.get? k.child f.1).bind emptyOf).getD f.2))

/-- as `Doc.parseAtom` -/
def parseAtom (G : Grammar) (k : Kind) (a : Atom) (h : Heap) : Option (LTree × Heap) :=
  match k, a with
  | .one c, .none => construct G c ((G c).fields.map fun f => (f.1, .plain f.2)) h
  | .boolOr _, .bool b => some (.plain (.atom (.bool b)), h)
  | .list _, .str [] => some (.list [], h)
  | _, _ => none

mutual
/-- `pyswagger/spec/base.py`:118-171 `Context.parse` with 102-116 `__exit__`, as `Doc.parseAs` -/
def parseAs (G : Grammar) (k : Kind) : Tree → Heap → Option (LTree × Heap)
  | .atom a, h => parseAtom G k a h
  | .list l, h =>
    match k with
    | .list c => (parseList G c l h).map fun r => (.list r.1, r.2)
    | _ => none
  | .dict d, h =>
    match k with
    | .one c => (parseEntries G (G c) d h).bind fun r => construct G c (assemble (G c) r.1) r.2
    | .boolOr c => (parseEntries G (G c) d h).bind fun r => construct G c (assemble (G c) r.1) r.2
    | .dict c => (parseDict G c d h).map fun r => (.dict r.1, r.2)
    | .list _ => if d.isEmpty then some (.list [], h) else none
  | .obj _ _, _ => none
/-- as `Doc.parseEntries` -/
def parseEntries (G : Grammar) (cls : Cls) : List (Str × Tree) → Heap → Option (List (Str × LTree) × Heap)
  | [], h => some ([], h)
  | (n, v) :: d, h =>
    match parseEntries G cls d h with
    | none => none
    | some (rest, h) =>
      match Dict.get? cls.child n with
      | none => some ((n, .plain v) :: rest, h)
      | some k =>
        if isNull v then some ((n, .plain ((emptyOf k).getD v)) :: rest, h)
        else
          match parseAs G k v h with
          | none => none
          | some (w, h) => some ((n, w) :: rest, h)
/-- as `Doc.parseList` -/
def parseList (G : Grammar) (c : Nat) : List Tree → Heap → Option (List LTree × Heap)
  | [], h => some ([], h)
  | v :: l, h =>
    match parseAs G (.one c) v h with
    | none => none
    | some (w, h) =>
      match parseList G c l h with
      | none => none
      | some (rest, h) => some (w :: rest, h)
/-- as `Doc.parseDict` -/
def parseDict (G : Grammar) (c : Nat) : List (Str × Tree) → Heap → Option (List (Str × LTree) × Heap)
  | [], h => some ([], h)
  | (n, v) :: d, h =>
    match parseAs G (.one c) v h with
    | none => none
    | some (w, h) =>
      match parseDict G c d h with
      | none => none
      | some (rest, h) => some ((n, w) :: rest, h)
end

/-! ## `BaseObj.merge` -/

/-- `Doc.pick` -/
def pick (fields : List (Str × Tree)) (e : Dict Str LTree) : Option (List (Str × LTree)) :=
  match fields with
  | [] => some []
  | f :: fs =>
    match Dict.get? e f.1, pick fs e with
    | some v, some rest => some ((f.1, v) :: rest)
    | _, _ => none

/-- a scalar field: the values hold no objects -/
def mergePlain (order : List Atom → List Atom) (dflt : Tree) (own v : LTree) : Option LTree :=
  if isDefault dflt (erase v) then some own
  else (mergeField order dflt false (erase own) (erase v) none).map .plain

mutual
/-- `pyswagger/spec/base.py`:288-289, 323-328, as `Doc.copyAs`: a new object merged with the given one. Its children are
assigned at the end of `merge` (331). -/
def copyAs (G : Grammar) (order : List Atom → List Atom) (k : Kind) : LTree → Heap → Option (LTree × Heap)
  | .plain t, h =>
    match t with
    | .atom a => (copyAtom k a).map fun t => (.plain t, h)
    | .list [] => match k with
      | .list _ => some (.list [], h)
      | _ => none
    | .dict [] => match k with
      | .dict _ => some (.dict [], h)
      | _ => none
    | _ => none
  | .list l, h =>
    match k with
    | .list c => (copyList G order c l h).map fun r => (.list r.1, r.2)
    | _ => none
  | .dict d, h =>
    match k with
    | .dict c => (copyDict G order c d h).map fun r => (.dict r.1, r.2)
    | _ => none
  | .obj _ _ os, h =>
    match k with
    | .one c => copyObj G c (copyFields G order (G c) os h)
    | .boolOr c => copyObj G c (copyFields G order (G c) os h)
    | _ => none
/-- elements of a list; `None` is no object here -/
def copyList (G : Grammar) (order : List Atom → List Atom) (c : Nat) : List LTree → Heap → Option (List LTree × Heap)
  | [], h => some ([], h)
  | v :: l, h =>
    if isNull (erase v) then none
    else
      match copyAs G order (.one c) v h with
      | none => none
      | some (w, h) =>
        match copyList G order c l h with
        | none => none
        | some (rest, h) => some (w :: rest, h)
/-- values of a dict -/
def copyDict (G : Grammar) (order : List Atom → List Atom) (c : Nat) :
    List (Str × LTree) → Heap → Option (List (Str × LTree) × Heap)
  | [], h => some ([], h)
  | (n, v) :: d, h =>
    if isNull (erase v) then none
    else
      match copyAs G order (.one c) v h with
      | none => none
      | some (w, h) =>
        match copyDict G order c d h with
        | none => none
        | some (rest, h) => some ((n, w) :: rest, h)
/-- the fields of the new object -/
def copyFields (G : Grammar) (order : List Atom → List Atom) (cls : Cls) :
    List (Str × LTree) → Heap → Option (List (Str × LTree) × Heap)
  | [], h => some ([], h)
  | (n, v) :: os, h =>
    match copyFields G order cls os h with
    | none => none
    | some (rest, h) =>
      if (Dict.get? cls.fields n).isNone then some (rest, h)
      else
        match Dict.get? cls.child n with
        | none =>
          match mergePlain order (defaultOf cls n) (.plain (defaultOf cls n)) v with
          | none => none
          | some w => some ((n, w) :: rest, h)
        | some k =>
          if isDefault (defaultOf cls n) (erase v) then some ((n, .plain (defaultOf cls n)) :: rest, h)
          else if isDefault (defaultOf cls n) (defaultOf cls n) then
            match copyAs G order k v h with
            | none => none
            | some (w, h) => some ((n, w) :: rest, h)
          else some ((n, .plain (defaultOf cls n)) :: rest, h)
/-- the new object -/
def copyObj (G : Grammar) (c : Nat) : Option (List (Str × LTree) × Heap) → Option (LTree × Heap)
  | none => none
  | some (e, h) =>
    match pick (G c).fields e with
    | none => none
    | some fs => construct G c fs h
end

/-- `pyswagger/spec/base.py`:291-328: field after field -/
def mergeFields (G : Grammar) (order : List Atom → List Atom) (exclude : List Str) (cls : Cls)
    (os : Dict Str LTree) : List (Str × LTree) → Heap → Option (List (Str × LTree) × Heap)
  | [], h => some ([], h)
  | (n, own) :: fs, h =>
    match mergeFields G order exclude cls os fs h with
    | none => none
    | some (rest, h) =>
      if n ∈ exclude then some ((n, own) :: rest, h)
      else
        match Dict.get? os n with
        | none => none
        | some v =>
          match Dict.get? cls.child n with
          | none =>
            match mergePlain order (defaultOf cls n) own v with
            | none => none
            | some w => some ((n, w) :: rest, h)
          | some k =>
            if isDefault (defaultOf cls n) (erase v) then some ((n, own) :: rest, h)
            else if isDefault (defaultOf cls n) (erase own) then
              match copyAs G order k v h with
              | none => none
              | some (w, h) => some ((n, w) :: rest, h)
            else some ((n, own) :: rest, h)

/-- `pyswagger/spec/base.py`:280-334 `BaseObj.merge`; the children are assigned at the end (331). -/
def merge (G : Grammar) (order : List Atom → List Atom) (exclude : List Str) : LTree → LTree → Heap → Option (LTree × Heap)
  | .obj i c fs, .obj _ _ os, h =>
    match mergeFields G order exclude (G c) os fs h with
    | none => none
    | some (fs, h) =>
      match assignParent i fs (G c).child h with
      | none => none
      | some h => some (.obj i c fs, h)
  | _, _, _ => none

/-! ## the scanner -/

/-- `pyswagger/scanner/v2_0/assign_parent.py`:30-60: the classes with a handler -/
def handled : List Nat := [cItems, cSchema, cParameter, cHeader, cResponse, cOperation, cPathItem, cSwagger]

/-- the scan (`pyswagger/core.py`:210), on the objects in the order in which they are visited -/
def scan (G : Grammar) : List Item → Heap → Option Heap
  | [], h => some h
  | o :: l, h =>
    if o.cls ∈ handled then
      match assignParent o.id o.fields (G o.cls).child h with
      | none => none
      | some h => scan G l h
    else scan G l h

/-! ## parameters of the path item -/

/-- the name of a parameter after its references (`final(p).name`) is a function here -/
def inheritAll (name : LTree → Str) : List LTree → List LTree → List LTree
  | [], own => own
  | p :: up, own => inheritAll name up (if own.any fun pp => name p == name pp then own else own ++ [p])

/-- `pyswagger/scanner/v2_0/patch_obj.py`:29-39: the parameters of an operation after the patch; `own` are those it had,
`up` those of its parent. No `_parent__` is set. -/
def inherit (name : LTree → Str) (own up : List LTree) : List LTree :=
  if own.isEmpty then up else inheritAll name up own

end Parent
