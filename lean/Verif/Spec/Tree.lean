import Verif.Model.Tree
import Verif.Spec.Rfc6901
/-! # Places in a document (specification side of C02, C03) -/

namespace Spec.Places
open Py Tree

/-- Following the tokens `ts` from a value leads to `u`, without going below objects whose class is
in `leaves`. -/
inductive At (leaves : List Nat) : Tree → List Str → Tree → Prop where
  | here (t) : At leaves t [] t
  | field (c fs n v ts u) : c ∉ leaves → (n, v) ∈ fs → At leaves v ts u →
      At leaves (.obj c fs) (n :: ts) u
  | item (l i v ts u) : l[i]? = some v → At leaves v ts u → At leaves (.list l) (natStr i :: ts) u
  | key (d k v ts u) : (k, v) ∈ d → At leaves v ts u → At leaves (.dict d) (k :: ts) u

/-- The JSON pointer with the given tokens, as a URI fragment without percent-encoding. -/
def pointer (ts : List Str) : Str := '#' :: ts.flatMap fun t => '/' :: rfcEscape t

def isObj : Tree → Bool
  | .obj _ _ => true
  | _ => false

end Spec.Places
