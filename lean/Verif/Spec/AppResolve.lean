import Verif.Model.AppResolve
import Verif.Spec.Tree
/-! # What references mean (specification side of C47) -/

namespace Spec.AppResolve
open Py Utils Tree Spec.Places

/-- The meaning `den` of references (URL, tokens), and a set `R` of references to work with.
* reading an object afresh yields what the reference means;
* a reference further down means what is found there;
* a reference without URL is into the root document;
* the references inside of the objects meant are in `R`;
* no pointer of `R` is, as a text, the beginning of another one unless its tokens are, too. -/
structure Meaning (a : AppResolve.App) (den : Str → List Str → Except Exc Tree) (R : Str → List Str → Prop) :
    Prop where
  fresh : ∀ u ts p, u ≠ [] → R u ts → a.fresh u (pointer ts) p = den u ts
  below : ∀ u ts us t, den u ts = .ok t → den u (ts ++ us) = Tree.resolve us t
  root : ∀ ts, den [] ts = Tree.resolve ts a.root
  refs : ∀ u ts t r, R u ts → den u ts = .ok t → r ∈ a.refs t →
    ∃ v us, jr_split a.path2url a.abspath r = .ok (v, pointer us) ∧ R v us
  separate : ∀ u ts us, R u ts → R u us → pointer ts <+: pointer us → ts <+: us

/-- The cache holds what the references mean. -/
def Coherent (den : Str → List Str → Except Exc Tree) (R : Str → List Str → Prop) (objs : AppResolve.Objs) : Prop :=
  ∀ u, match Dict.get? objs u with
  | none => True
  | some (.whole t) => den u [] = .ok t
  | some (.parts d) => ∀ k v, (k, v) ∈ d → ∃ ks, k = pointer ks ∧ R u ks ∧ den u ks = .ok v

/-- The cache has an object at or above the reference. -/
def Covers (objs : AppResolve.Objs) (u : Str) (ts : List Str) : Prop :=
  match Dict.get? objs u with
  | none => False
  | some (.whole _) => True
  | some (.parts d) => ∃ ks, ks <+: ts ∧ pointer ks ∈ Dict.keys d

end Spec.AppResolve
