import Verif.Spec.Model12
import Mathlib.Logic.Relation
/-!
# Which models of a 1.2 document lead to each other (C93)

After the data types and models of Swagger 1.2 (4.3, 5.2.7). Shared with the models: the records of a 1.2 document and the list of
primitive types of the library.
-/

namespace Spec.Refused12
open Py Upgrade Spec.Upgrade12 Spec.Model12

/-- the data type speaks of the model `i`: as its type, or by reference without another model as its type -/
def Speaks (env : Env) (d : DataType) (i : Str) : Prop := i ≠ [] ∧
  (d.type = some i ∧ env.prim i = false ∨ (∀ t, d.type = some t → env.prim t = true ∨ t = []) ∧ d.ref = some i)

/-- the model `m` of the resource `n` uses the model `m'` of the resource `n'`: for a property or for its items, or as one
that hands its properties down -/
inductive Uses (env : Env) (l : ResourceList) : Str × Model → Str × Model → Prop
  | property {n m m' k p i} : Has l n m → Has l n m' → m'.id = some i → Dict.get? m.properties k = some p → Speaks env p.toDataType i →
      Uses env l (n, m) (n, m')
  | items {n m m' k p it i} : Has l n m → Has l n m' → m'.id = some i → Dict.get? m.properties k = some p → p.items = some it →
      Speaks env (ofItems it) i → Uses env l (n, m) (n, m')
  | base {n m n' m'} : Has l n m → Base env l n m n' m' → Uses env l (n, m) (n', m')

/-- some model leads back to itself -/
def Circular (env : Env) (l : ResourceList) : Prop := ∃ x, Relation.TransGen (Uses env l) x x

/-- neither a list nor a dict -/
def Scalar : Val → Prop
  | .list _ | .dict _ | .other _ => False
  | _ => True

/-- models have lists of required properties, and texts (or other scalars) for what is said in one -/
def Kinds (l : ResourceList) : Prop := ∀ n m, Has l n m → (∃ xs, m.required = .list xs) ∧ Scalar m.discriminator ∧ Scalar m.description

end Spec.Refused12
