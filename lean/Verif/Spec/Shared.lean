import Verif.Spec.Refused
/-!
# Operations that two paths share

The words of C99: a path item is given as a reference to the one of another path.
-/

namespace Spec.Pointed
open Py Tree _root_.Doc

/-- The path `k` refers to the path `k'`, which has the operation `q` for the method `m`; `k` has none of its own. The operation has an id. -/
structure Lends (D : Tree) (url : Str) (k k' m : Str) (q : Dict Str Tree) (l : Index.Label) : Prop where
  other : k ≠ k'
  method : m ∈ Refused.methods
  refers : ∃ iq r, Written D [c!"paths", k] cPathItem iq ∧ Dict.get? iq c!"$ref" = some (Service.text r) ∧ Names url r [c!"paths", k'] ∧
    (Dict.get? iq m = none ∨ Dict.get? iq m = some (.atom .none))
  has : ∃ iq, Written D [c!"paths", k'] cPathItem iq ∧ Dict.get? iq m = some (.dict q)
  label : l.In q
  named : ∃ i, l.id = some i ∧ i ≠ []

/-- The operation has one tag at most. -/
structure Shares (D : Tree) (url : Str) (k k' m : Str) (q : Dict Str Tree) (l : Index.Label) : Prop extends Lends D url k k' m q l where
  tags : l.tags.length ≤ 1

end Spec.Pointed
