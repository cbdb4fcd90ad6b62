import Verif.Model.MergeRefs
import Verif.Spec.Merge
/-!
# Reference chains (C52)
-/

namespace Spec.MergeRefs
open Py Tree _root_.Doc _root_.MergeRefs

/-- how a chain of references ends -/
inductive End where
  | done
  | raised (e : Exc)
  deriving DecidableEq

/-- the value of a field -/
def valueOf (n : Str) : Tree → Option Tree
  | .obj _ fs => Dict.get? fs n
  | _ => none

/-- the object has the (non-empty) reference `r` -/
def RefTo (t : Tree) (r : Str) : Prop := r ≠ [] ∧ valueOf c!"$ref" t = some (.atom (.str r))

/-- `Chain W c visited cur rest e`: from the object `cur`, references lead to the objects `rest`, all
of class `c` and not met before; then there is no further reference, or it leads to an object met
before (`done`), or it cannot be resolved or leads to an object of another class (`raised`). -/
inductive Chain (W : World) (c : Nat) : List Nat → Nat → List Nat → End → Prop
  | stop {vis cur} : (∀ r, ¬ RefTo (W.content cur) r) → Chain W c vis cur [] .done
  | dangling {vis cur r e} : RefTo (W.content cur) r → W.resolve r = .error e →
      Chain W c vis cur [] (.raised e)
  | mismatch {vis cur r j} : RefTo (W.content cur) r → W.resolve r = .ok j →
      cls? (W.content j) ≠ some c → Chain W c vis cur [] (.raised .TypeError)
  | cycle {vis cur r j} : RefTo (W.content cur) r → W.resolve r = .ok j →
      cls? (W.content j) = some c → j ∈ vis → Chain W c vis cur [] .done
  | step {vis cur r j rest e} : RefTo (W.content cur) r → W.resolve r = .ok j →
      cls? (W.content j) = some c → j ∉ vis → Chain W c (j :: vis) j rest e →
      Chain W c vis cur (j :: rest) e

/-- `v` is the value of the field in the first of the objects that sets it -/
def FirstSet (n : Str) (dflt : Tree) (os : List Tree) (v : Tree) : Prop :=
  ∃ before o after, os = before ++ o :: after ∧ valueOf n o = some v ∧ isDefault dflt v = false ∧
    ∀ b ∈ before, ∃ x, valueOf n b = some x ∧ isDefault dflt x = true

/-- none of the objects sets the field -/
def NoneSet (n : Str) (dflt : Tree) (os : List Tree) : Prop :=
  ∀ b ∈ os, ∃ x, valueOf n b = some x ∧ isDefault dflt x = true

end Spec.MergeRefs
