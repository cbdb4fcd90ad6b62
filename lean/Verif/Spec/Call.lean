import Verif.Model.Call
/-!
# Where the arguments of a call belong

The Swagger 2.0 reading of a parameter declaration: which value it gets, and what the value
becomes in the request.
-/

namespace Spec.Calls
open Py Prim Call

variable {ω : Type}

/-- the value a parameter gets: the one supplied, else the default, else none -/
def given (env : Env ω) (k : Dict Str Val) (p : Decl) : Option Val :=
  match Dict.get? k p.name with
  | some v => some v
  | none => if (env.node p.obj).defaultSet then some (env.node p.obj).default else none

/-- a required parameter without value -/
def Missing (env : Env ω) (k : Dict Str Val) (p : Decl) : Prop :=
  p.required = true ∧ Dict.get? k p.name = none ∧ (env.node p.obj).defaultSet = false

/-- a part of a request -/
inductive Entry (ω : Type) where
  | header (t : Str)
  | query (ts : List Str)
  | path (t : Str)
  | body (c : Prim ω)
  | formData (ts : List Str)
  | file (a : FileArg ω)

/-- the parameter is a list of files -/
def fileList (env : Env ω) (p : Decl) : Prop :=
  ∃ it, (env.node p.obj).items = some it ∧ (env.node it).type = some c!"file"

/-- What a converted argument becomes. -/
inductive Becomes (env : Env ω) (leaf : Prim ω → Except Exc Str) (p : Decl) : Prim ω → Entry ω → Prop where
  /-- files go to the file part, whatever the location -/
  | aFile (c) : (env.node p.obj).type = some c!"file" → Becomes env leaf p c (.file (.prim c))
  /-- so do lists of files in a query or form -/
  | files (f l) : (env.node p.obj).type ≠ some c!"file" → p.in_ = c!"query" ∨ p.in_ = c!"formData" →
      fileList env p → Becomes env leaf p (.array f l) (.file (.prim (.array f l)))
  /-- other arrays become the texts of their collection format -/
  | queryArray (f l ts it) : (env.node p.obj).type ≠ some c!"file" → p.in_ = c!"query" →
      (env.node p.obj).items = some it → (env.node it).type ≠ some c!"file" →
      urlTexts leaf f l = .ok ts → Becomes env leaf p (.array f l) (.query ts)
  | formArray (f l ts it) : (env.node p.obj).type ≠ some c!"file" → p.in_ = c!"formData" →
      (env.node p.obj).items = some it → (env.node it).type ≠ some c!"file" →
      urlTexts leaf f l = .ok ts → Becomes env leaf p (.array f l) (.formData ts)
  /-- what is no array becomes its text -/
  | query (c t) : (env.node p.obj).type ≠ some c!"file" → p.in_ = c!"query" →
      (∀ f l, c ≠ .array f l) → text leaf c = .ok t → Becomes env leaf p c (.query [t])
  | form (c t) : (env.node p.obj).type ≠ some c!"file" → p.in_ = c!"formData" →
      (∀ f l, c ≠ .array f l) → text leaf c = .ok t → Becomes env leaf p c (.formData [t])
  | header (c t) : (env.node p.obj).type ≠ some c!"file" → p.in_ = c!"header" →
      text leaf c = .ok t → Becomes env leaf p c (.header t)
  | path (c t) : (env.node p.obj).type ≠ some c!"file" → p.in_ = c!"path" →
      text leaf c = .ok t → Becomes env leaf p c (.path t)
  | inFile (c t) : (env.node p.obj).type ≠ some c!"file" → p.in_ = c!"file" →
      text leaf c = .ok t → Becomes env leaf p c (.file (.text t))
  /-- a body is kept as it is -/
  | body (c) : (env.node p.obj).type ≠ some c!"file" → p.in_ = c!"body" → Becomes env leaf p c (.body c)

/-- The parameter contributes the entry `e` to the request. -/
def Sends (env : Env ω) (leaf : Prim ω → Except Exc Str) (fuel : Nat) (k : Dict Str Val) (p : Decl)
    (e : Entry ω) : Prop :=
  ∃ v c, given env k p = some v ∧ prim env fuel p v = .ok c ∧ Becomes env leaf p c e

/-- the parameter has no value, or one that can be sent -/
def Fine (env : Env ω) (leaf : Prim ω → Except Exc Str) (fuel : Nat) (k : Dict Str Val) (p : Decl) : Prop :=
  given env k p = none ∨ ∃ e, Sends env leaf fuel k p e

/-- the entries sent, in the order of the declarations -/
def Entries (env : Env ω) (leaf : Prim ω → Except Exc Str) (fuel : Nat) (k : Dict Str Val) :
    List Decl → List (Str × Entry ω) → Prop
  | [], es => es = []
  | p :: ps, es =>
    ¬ Missing env k p ∧
    ((given env k p = none ∧ Entries env leaf fuel k ps es) ∨
      ∃ e es', es = (p.name, e) :: es' ∧ Sends env leaf fuel k p e ∧ Entries env leaf fuel k ps es')

/-! ## the parts of a request made of entries -/

/-- the query: the pairs of the query entries, in order -/
def queryOf (es : List (Str × Entry ω)) : List (Str × Str) :=
  es.flatMap fun e => match e.2 with | .query ts => ts.map fun t => (e.1, t) | _ => []

/-- the form: the pairs of the form entries, in order -/
def formOf (es : List (Str × Entry ω)) : List (Str × Str) :=
  es.flatMap fun e => match e.2 with | .formData ts => ts.map fun t => (e.1, t) | _ => []

/-- the last entry named `n` of the kind picked by `f` -/
def lastOf {α : Type} (f : Entry ω → Option α) (n : Str) (es : List (Str × Entry ω)) : Option α :=
  (es.filterMap fun e => if e.1 = n then f e.2 else none).getLast?

def headerOf : Entry ω → Option Str | .header t => some t | _ => none
def pathOf : Entry ω → Option Str | .path t => some t | _ => none
def bodyOf : Entry ω → Option (Prim ω) | .body c => some c | _ => none
def fileOf : Entry ω → Option (FileArg ω) | .file a => some a | _ => none

end Spec.Calls
