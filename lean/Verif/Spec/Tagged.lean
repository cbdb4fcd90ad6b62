import Verif.Spec.Conform
import Verif.Spec.Pointed
/-!
# The discriminators of a JSON value (C90)

A schema may name the property that tells which model an object is of, its `discriminator`. In Swagger 2.0 the value of the
property is the name of the definition; `model r X` says that the reference `r` is to the definition of the name `X`.
Nothing of the library is mentioned.
-/

namespace Spec.Tagged
open Py Tree Spec.SchemaDoc Spec.Conform

/-- the schema the references starting in a schema end at, and the last of the references -/
inductive Led (look : Str → Option (Dict Str Tree)) : Dict Str Tree → Str → Dict Str Tree → Prop
  | last {q d r} : refAt q = some r → look r = some d → refAt d = none → Led look q r d
  | next {q e d r r'} : refAt q = some r' → look r' = some e → Led look e r d → Led look q r d

/-- Wherever the value has an object for a schema that is given by a reference to a definition, the object holds the name
of the definition under the discriminator of the schema, and under those of the parts of its `allOf`. -/
inductive Tagged (look : Str → Option (Dict Str Tree)) (model : Str → Str → Prop) : Dict Str Tree → Val → Prop
  | single {q v} : (∀ vs, v ≠ .list vs) → (∀ es, v ≠ .dict es) → Tagged look model q v
  | array {q d i vs} : Leads look q d → Dict.get? d c!"items" = some (.dict i) → (∀ v ∈ vs, Tagged look model i v) →
      Tagged look model q (.list vs)
  | object {q d es} : Leads look q d →
      (∀ r X e k, Led look q r d → model r X → Member look d e → textAt e c!"discriminator" = some k →
        Dict.get? es k = some (.str X)) →
      (∀ e k s v, Member look d e → propertyAt e k = some (.dict s) → Dict.get? es k = some v → Tagged look model s v) →
      (∀ k v s, propertyAt d k = none → Dict.get? d c!"additionalProperties" = some (.dict s) →
        Dict.get? es k = some v → Tagged look model s v) →
      Tagged look model q (.dict es)

/-- the reference is to a definition of the document at `url`, by its name -/
def Definition (url r X : Str) : Prop := X ≠ [] ∧ Spec.Pointed.Names url r [c!"definitions", X]

end Spec.Tagged
