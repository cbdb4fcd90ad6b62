import Verif.Py.Dict
import Verif.Py.Value
import Verif.Py.Int
/-! # Following a pointer through a document (specification side of C46) -/

namespace Spec.Resolver
open Py

/-- Following the tokens `ts` from a value leads to `w`. A list takes what Python's `int` reads as
an index; negative ones count from the end. -/
inductive Path : Val → List Str → Val → Prop where
  | here (v) : Path v [] v
  | key (d k v ts w) : Dict.get? d k = some v → Path v ts w → Path (.dict d) (k :: ts) w
  | item (l t) (i : Nat) (v ts w) : intOf? t = some (i : Int) → l[i]? = some v → Path v ts w →
      Path (.list l) (t :: ts) w
  | back (l t) (i j : Nat) (v ts w) : intOf? t = some (-(j + 1 : Int)) → i + (j + 1) = l.length →
      l[i]? = some v → Path v ts w → Path (.list l) (t :: ts) w

/-- As `Path`, with the indices of RFC 6901 only. -/
inductive RfcPath : Val → List Str → Val → Prop where
  | here (v) : RfcPath v [] v
  | key (d k v ts w) : Dict.get? d k = some v → RfcPath v ts w → RfcPath (.dict d) (k :: ts) w
  | item (l) (i : Nat) (v ts w) : l[i]? = some v → RfcPath v ts w →
      RfcPath (.list l) (natStr i :: ts) w

/-- a document with content: not `None`, not empty, not zero -/
def Loaded (v : Val) : Prop :=
  v ≠ .none ∧ v ≠ .bool false ∧ v ≠ .int 0 ∧ v ≠ .float (.fin 0) ∧ v ≠ .str [] ∧ v ≠ .list [] ∧ v ≠ .dict []

end Spec.Resolver
