import Verif.Spec.Wire
import Verif.Spec.Upgrade12
/-!
# What a 1.2 document says about the values of a parameter (C89)

After the data types of Swagger 1.2 (4.3): how the text of a parameter is read, and which values are allowed. Shared with
the models: the records of a 1.2 document, and `str.lower` and `float` of Python.
-/

namespace Spec.Data12
open Py Upgrade Spec.Conform Spec.Upgrade12

/-- the number a limit is; 1.2 writes limits as texts -/
def Limit (env : Env) (v : Val) (m : Rat) : Prop := env.float v = .ok (.fin m)

/-- the number lies within the limits -/
structure Between (env : Env) (min max : Val) (r : Rat) : Prop where
  max : ∀ m, Limit env max m → r ≤ m
  min : ∀ m, Limit env min m → m ≤ r

/-- The text is read as a value of a primitive type, and the value is allowed. -/
inductive Scalar (env : Env) (form : Str → Str → Prop) (type : Str) (format : Option Str) (enum min max : Val) : Str → Val → Prop
  | integer {t n} : type = c!"integer" → Json.readJson t = some (.int n) → Between env min max (n : Int) →
      Scalar env form type format enum min max t (.int n)
  | number {t v r} : type = c!"number" → Json.readJson t = some v → Numeral v r → Between env min max r →
      Scalar env form type format enum min max t v
  | boolean {t b} : type = c!"boolean" → Json.readJson t = some (.bool b) → Scalar env form type format enum min max t (.bool b)
  | string {t} : type = c!"string" → (∀ l, enum = .list l → l ≠ [] → .str t ∈ l) → (∀ f, format = some f → form f t) →
      Scalar env form type format enum min max t (.str t)

/-- The texts under the name of the parameter are read as a value, and the value is allowed: a value of its type; several
of them with commas in between, if several are allowed; or elements of an array. -/
inductive Sends (env : Env) (form : Str → Str → Prop) (p : Param) : List Str → Val → Prop
  | one {ty t v} : ¬ IsTrue p.allowMultiple ∨ p.blankItems = true → p.items = none → p.type = some ty →
      Scalar env form (env.lower ty) p.format p.enum p.minimum p.maximum t v → Sends env form p [t] v
  | multiple {ty} {ts : List Str} {vs : List Val} : IsTrue p.allowMultiple → p.items = none → p.type = some ty → ts ≠ [] →
      (∀ t ∈ ts, ',' ∉ t) → List.Forall₂ (Scalar env form (env.lower ty) p.format p.enum p.minimum p.maximum) ts vs →
      (p.uniqueItems = .bool true → vs.Nodup) → Sends env form p [Wire.between ',' ts] (.list vs)
  | array {ty j tj} {ts : List Str} {vs : List Val} : p.type = some ty → env.lower ty = c!"array" → p.items = some j → j.type = some tj →
      ts ≠ [] → (∀ t ∈ ts, ',' ∉ t) → List.Forall₂ (Scalar env form (env.lower tj) j.format .none .none .none) ts vs →
      (p.uniqueItems = .bool true → vs.Nodup) → Sends env form p [Wire.between ',' ts] (.list vs)

/-! ## the parameters within reach -/

/-- nothing is listed -/
def NoEnum (v : Val) : Prop := ∀ l, v = .list l → l = []

/-- a primitive type; values are listed for texts only, and not for those that are built as objects -/
inductive Basic (type : Str) (format : Option Str) (enum : Val) : Prop
  | integer : type = c!"integer" → NoEnum enum → Basic type format enum
  | number : type = c!"number" → NoEnum enum → Basic type format enum
  | boolean : type = c!"boolean" → NoEnum enum → Basic type format enum
  | string : type = c!"string" → (∀ f, format = some f → built f = true → NoEnum enum) → Basic type format enum

/-- no limit, or one that counts: a limit of `0` or an empty text is dropped, one of integers is cut to an integer -/
def Limited (env : Env) (type : Str) (v : Val) : Prop :=
  v = .none ∨ ¬ Falsy v ∧ (type = c!"integer" → ∀ m, Limit env v m → ∃ k : Int, m = k)

/-- The parameter is within reach; several values have no limits (they are dropped), elements of arrays may repeat. -/
inductive Reach (env : Env) (p : Param) : Prop
  | one (ty) : ¬ IsTrue p.allowMultiple ∨ p.blankItems = true → p.items = none → p.type = some ty →
      Basic (env.lower ty) p.format p.enum → Limited env (env.lower ty) p.minimum → Limited env (env.lower ty) p.maximum → Reach env p
  | multiple (ty) : IsTrue p.allowMultiple → p.blankItems = false → p.items = none → p.type = some ty →
      Basic (env.lower ty) p.format p.enum → p.minimum = .none → p.maximum = .none →
      p.uniqueItems = .none ∨ p.uniqueItems = .bool false → Reach env p
  | array (ty j tj) : p.type = some ty → env.lower ty = c!"array" → p.items = some j → j.type = some tj →
      Basic (env.lower tj) j.format .none → NoEnum p.enum → p.uniqueItems = .none ∨ p.uniqueItems = .bool false → Reach env p

/-- what is used of Python: `float(None)` is an error, `int` leaves whole numbers alone, `lower` small letters -/
structure Python (env : Env) : Prop where
  null : ∀ x, env.float .none ≠ .ok x
  whole : ∀ k : Int, env.int (.fin k) = .ok k
  small : env.lower c!"integer" = c!"integer"

end Spec.Data12
