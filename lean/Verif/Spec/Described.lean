import Verif.Model.Call
import Verif.Model.MergeRefs
import Verif.Spec.Merge
/-!
# What a parameter in a JSON document declares (C77)

Everything is said about the dict written in the document. Shared with the models: the tables of classes, the
reader of documents (C42), the resolver of references as a function, and the interfaces `Call.Decl` and `Prim.Node`.
-/

namespace Spec.Described
open Py Tree _root_.Doc Prim Call Spec.Merge

variable {ω : Type}

/-- the text written under a key -/
def Text (q : Dict Str Tree) (n : Str) (s : Option Str) : Prop :=
  match Dict.get? q n with
  | some (.atom (.str x)) => s = some x
  | _ => s = none

/-- the number written under a key -/
def Number (q : Dict Str Tree) (n : Str) (x : Option Rat) : Prop :=
  match Dict.get? q n with
  | some (.atom (.int k)) => x = some k
  | some (.atom (.float (.fin r))) => x = some r
  | _ => x = none

/-- the length written under a key -/
def Length (q : Dict Str Tree) (n : Str) (x : Option Nat) : Prop :=
  match Dict.get? q n with
  | some (.atom (.int k)) => (0 ≤ k → x.map Int.ofNat = some k) ∧ (k < 0 → x = none)
  | _ => x = none

/-- a switch: `true` is on; `false`, null and nothing are off -/
def Switch (q : Dict Str Tree) (n : Str) (b : Bool) : Prop :=
  match Dict.get? q n with
  | some (.atom (.bool x)) => b = x
  | some (.atom .none) => b = false
  | none => b = false
  | _ => True

mutual
/-- the Python value of what is written in a document -/
def Value : Tree → Val → Prop
  | .atom .none, v => v = .none
  | .atom (.bool b), v => v = .bool b
  | .atom (.int n), v => v = .int n
  | .atom (.float x), v => v = .float x
  | .atom (.str s), v => v = .str s
  | .list l, v => ∃ vs, v = .list vs ∧ Values l vs
  | .dict d, v => ∃ es, v = .dict es ∧ Pairs d es
  | .obj _ _, _ => True
def Values : List Tree → List Val → Prop
  | [], vs => vs = []
  | t :: l, vs => ∃ v vs', vs = v :: vs' ∧ Value t v ∧ Values l vs'
def Pairs : List (Str × Tree) → List (Str × Val) → Prop
  | [], es => es = []
  | (n, t) :: d, es => ∃ v es', es = (n, v) :: es' ∧ Value t v ∧ Pairs d es'
end

/-- the default value: null counts as none. A list keeps its elements, but (if all are scalars) neither their order
nor their number. -/
def Default (q : Dict Str Tree) (v : Val) (set : Bool) : Prop :=
  match Dict.get? q c!"default" with
  | none => set = false ∧ v = .none
  | some (.atom .none) => set = false ∧ v = .none
  | some (.list l) => set = true ∧ ∃ m vs, v = .list vs ∧ Values m vs ∧ Joined [] l m
  | some t => set = true ∧ Value t v

/-- the values allowed: those listed (of values equal in Python, one), in any order -/
def Enum (q : Dict Str Tree) (vs : List Val) : Prop :=
  match Dict.get? q c!"enum" with
  | some (.list l) => ∃ m, Values m vs ∧ Joined [] l m
  | _ => vs = []

/-- the collection format: `csv` unless another text is written; null switches it off -/
def Collection (q : Dict Str Tree) (s : Option Str) : Prop :=
  match Dict.get? q c!"collectionFormat" with
  | none => s = some c!"csv"
  | some (.atom (.str x)) => s = some x
  | _ => True

/-- all that conversion of a value reads, but for the items -/
structure Limits (q : Dict Str Tree) (a : Node) : Prop where
  type : Text q c!"type" a.type
  format : Text q c!"format" a.format
  default : Default q a.default a.defaultSet
  maximum : Number q c!"maximum" a.maximum
  exclusiveMaximum : Switch q c!"exclusiveMaximum" a.exclusiveMaximum
  minimum : Number q c!"minimum" a.minimum
  exclusiveMinimum : Switch q c!"exclusiveMinimum" a.exclusiveMinimum
  maxLength : Length q c!"maxLength" a.maxLength
  minLength : Length q c!"minLength" a.minLength
  maxItems : Length q c!"maxItems" a.maxItems
  minItems : Length q c!"minItems" a.minItems
  multipleOf : ∃ x, Number q c!"multipleOf" x ∧ a.multipleOf = x.getD 0
  enum : Enum q a.enum
  uniqueItems : Switch q c!"uniqueItems" a.uniqueItems
  collectionFormat : Collection q a.collectionFormat
  allOf : a.allOf = []
  isSchema : a.isSchema = false

/-- The object `n` is what the dict `q` says, and so are its items. -/
inductive Described (env : Env ω) : Nat → Dict Str Tree → Prop
  | plain {n q} : Limits q (env.node n) →
      Dict.get? q c!"items" = none ∨ Dict.get? q c!"items" = some (.atom .none) →
      (env.node n).items = none → Described env n q
  | array {n q m d} : Limits q (env.node n) → Dict.get? q c!"items" = some (.dict d) →
      (env.node n).items = some m → (env.node m).name = none → Described env m d → Described env n q

/-- The parameter `p` is the one the dict `q` declares. -/
structure Declared (env : Env ω) (p : Decl) (q : Dict Str Tree) : Prop where
  name : Dict.get? q c!"name" = some (.atom (.str p.name))
  location : Dict.get? q c!"in" = some (.atom (.str p.in_))
  required : Switch q c!"required" p.required
  object : Described env p.obj q
  label : (env.node p.obj).name = some (some p.name)
  body : (∃ d, Dict.get? q c!"schema" = some (.dict d)) ↔ p.schema.isSome = true

/-- `MeansAs W c k i q`: the object `i` of class `c` is declared by the dict `q`, after `k` references: it is read from
`q` itself, or it is nothing but a reference to an object declared by `q`. -/
inductive MeansAs (W : MergeRefs.World) (c : Nat) : Nat → Nat → Dict Str Tree → Prop
  | inline {i q} : Dict.get? q c!"$ref" = none → parse v20 c (.dict q) = some (W.content i) → MeansAs W c 0 i q
  | ref {k i r j q} : r ≠ [] → W.content i = .obj c (assemble (v20 c) [(c!"$ref", .atom (.str r))]) →
      W.resolve r = .ok j → MeansAs W c k j q → MeansAs W c (k + 1) i q

/-- the Parameter object `i` is declared by the dict `q` -/
abbrev Means (W : MergeRefs.World) : Nat → Nat → Dict Str Tree → Prop := MeansAs W cParameter

/-- the name written in a dict -/
def nameIn (q : Dict Str Tree) : Option Str :=
  match Dict.get? q c!"name" with
  | some (.atom (.str s)) => some s
  | _ => none

/-- those with a name that has not occurred -/
def unnamed (seen : List (Option Str)) : List (Dict Str Tree) → List (Dict Str Tree)
  | [] => []
  | q :: l => if nameIn q ∈ seen then unnamed seen l else q :: unnamed (nameIn q :: seen) l

/-- the declarations in force: the own ones, then those of the path item with another name; all of the path item if
there are no own ones -/
def inForce (own up : List (Dict Str Tree)) : List (Dict Str Tree) :=
  if own = [] then up else own ++ unnamed (own.map nameIn) up

end Spec.Described
