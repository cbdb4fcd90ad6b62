import Verif.Model.Effective
/-!
# From Schema objects of a document to the objects of a conversion

`Resolve` (`pyswagger/scanner/v2_0/resolve.py`) gives every Schema object its field `ref_obj`, and `Primitive.produce`
(`pyswagger/primitives/__init__.py`:164-243) reads the fields of Schema objects. This module says which attribute is
which field of `Prim.Node`, as `Effective.nodeOf` does for other objects; attributes of a type not foreseen by
Swagger 2.0 are taken for missing here, too. `MergeRefs.World.resolve` is `App.resolve` of the reference after
`NormalizeRef` (`pyswagger/scanner/v2_0/norm_ref.py`:22-24), for documents that share a base.
-/

namespace Schemas
open Py Tree Doc Prim Effective

variable {ω : Type}

/-- the texts in a list -/
def texts (l : List Tree) : List Str := l.filterMap text?

/-- The attributes of a Schema object that conversion reads (`pyswagger/spec/v2_0/objects.py`:31-57, 63-92). It has no
`collectionFormat`; `name` is set by `PatchObject` (`pyswagger/scanner/v2_0/patch_obj.py`:84-90). -/
def nodeOf (fs : List (Str × Tree)) (name : Option Str) (items : Option Nat) (allOf : List Nat)
    (properties : Dict Str Nat) (additional : Addp) : Node where
  type := text? (attr fs c!"type")
  format := text? (attr fs c!"format")
  items := items
  default := toVal (attr fs c!"default")
  defaultSet := !isNull (attr fs c!"default")
  maximum := number? (attr fs c!"maximum")
  exclusiveMaximum := !falsy (attr fs c!"exclusiveMaximum")
  minimum := number? (attr fs c!"minimum")
  exclusiveMinimum := !falsy (attr fs c!"exclusiveMinimum")
  maxLength := length? (attr fs c!"maxLength")
  minLength := length? (attr fs c!"minLength")
  maxItems := length? (attr fs c!"maxItems")
  minItems := length? (attr fs c!"minItems")
  multipleOf := (number? (attr fs c!"multipleOf")).getD 0
  enum := toVals (listed (attr fs c!"enum"))
  uniqueItems := !falsy (attr fs c!"uniqueItems")
  collectionFormat := none
  isSchema := true
  required := texts (listed (attr fs c!"required"))
  allOf := allOf
  properties := properties
  additional := additional
  discriminator := text? (attr fs c!"discriminator")
  readOnly := !falsy (attr fs c!"readOnly")
  name := some name

/-- `pyswagger/scanner/v2_0/resolve.py`:13-29 on one Schema object: its `ref_obj`; `none` if an exception is raised.
A copy made by `merge` has the same `$ref` and the same `ref_obj` (`pyswagger/spec/base.py`:288-308: internal fields
are merged like others). A reference that is no text is not followed here. -/
def resolved (W : MergeRefs.World) (fs : List (Str × Tree)) : Option (Option Nat) :=
  match MergeRefs.refText (.obj cSchema fs) with
  | none => some none
  | some r =>
    match W.resolve r with
    | .error _ => none
    | .ok j => if cls? (W.content j) = some cSchema then some (some j) else none

/-- one object or `None`, as an attribute of an object of a conversion; `P` says what an object is -/
inductive One (P : Nat → Tree → Prop) : Option Nat → Tree → Prop
  | none {t} : isNull t = true → One P none t
  | some {m t} : P m t → One P (some m) t

/-- a list of objects -/
inductive Many (P : Nat → Tree → Prop) : List Nat → List Tree → Prop
  | nil : Many P [] []
  | cons {m t ms ts} : P m t → Many P ms ts → Many P (m :: ms) (t :: ts)

/-- objects by names -/
inductive Named (P : Nat → Tree → Prop) : List (Str × Nat) → List (Str × Tree) → Prop
  | nil : Named P [] []
  | cons {k m t ms ts} : P m t → Named P ms ts → Named P ((k, m) :: ms) ((k, t) :: ts)

/-- `additionalProperties` -/
inductive Further (P : Nat → Tree → Prop) : Addp → Tree → Prop
  | none {t} : isNull t = true → Further P .no t
  | bool {b} : Further P (if b then .yes else .no) (.atom (.bool b))
  | schema {m t} : P m t → Further P (.schema m) t

/-- the entries of a dict, nothing else has any -/
def entries : Tree → List (Str × Tree)
  | .dict d => d
  | _ => []

/-- The object `n` of `env` is the given Schema object; `ref m` is the attribute `ref_obj` of the object `m`. -/
inductive Shows (env : Env ω) (ref : Nat → Option Nat) (W : MergeRefs.World) : Nat → Tree → Prop
  | intro {n fs name it al ps ad} : env.node n = nodeOf fs name it al ps ad →
      One (Shows env ref W) it (attr fs c!"items") → Many (Shows env ref W) al (listed (attr fs c!"allOf")) →
      Named (Shows env ref W) ps (entries (attr fs c!"properties")) →
      Further (Shows env ref W) ad (attr fs c!"additionalProperties") →
      resolved W fs = some (ref n) → Shows env ref W n (.obj cSchema fs)

/-- `pyswagger/utils.py`:265-273 without a guard given: `env.deref` follows the attribute `ref_obj`. -/
def Derefs (env : Env ω) (ref : Nat → Option Nat) : Prop :=
  ∀ n, (∀ m, env.deref n = .ok m → ∃ fuel g, Utils.deref fuel ref n = some (.ok (m, g))) ∧
    ∀ e, env.deref n = .error e → ∃ fuel, Utils.deref fuel ref n = some (.error e)

end Schemas
