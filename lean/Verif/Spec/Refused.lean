import Verif.Spec.Pointed
import Verif.Spec.Index
import Verif.Spec.Composed
import Mathlib.Logic.Relation
/-!
# What a document is refused for (C92)

Said about the dicts written in the document and their places.
-/

namespace Spec.Refused
open Py Tree _root_.Doc Spec.Pointed

/-- some schema requires a property that it marks as read-only -/
def Faulty (D : Tree) : Prop := ∃ ts q l k ps d, Written D ts cSchema q ∧
  Dict.get? q c!"required" = some (.list l) ∧ Service.text k ∈ l ∧
  Dict.get? q c!"properties" = some (.dict ps) ∧ Dict.get? ps k = some (.dict d) ∧
  Dict.get? d c!"readOnly" = some (.atom (.bool true))

/-- in the schema at the place `ts`, or in one inside of it, there is a reference to the place `us` -/
def Refers (D : Tree) (url : Str) (ts us : List Str) : Prop := (∃ q, Written D ts cSchema q) ∧
  ∃ vs d r, Written D (ts ++ vs) cSchema d ∧ Dict.get? d c!"$ref" = some (Service.text r) ∧ Names url r us

/-- some schema leads back to itself along references -/
def Circular (D : Tree) (url : Str) : Prop := ∃ ts, Relation.TransGen (Refers D url) ts ts

/-- the methods of a path item -/
def methods : List Str := [c!"get", c!"put", c!"post", c!"delete", c!"options", c!"head", c!"patch"]

/-- the operation `q` is written for the method `m` of the path `k` -/
def Operation (sq : Dict Str Tree) (k m : Str) (q : Dict Str Tree) : Prop := m ∈ methods ∧ ∃ paths iq,
  Dict.get? sq c!"paths" = some (.dict paths) ∧ Dict.get? paths k = some (.dict iq) ∧ Dict.get? iq m = some (.dict q)

/-- two operations have the same name -/
def Clash (sep : Str) (sq : Dict Str Tree) : Prop := ∃ k m q k' m' q' n, (k, m) ≠ (k', m') ∧ Operation sq k m q ∧
  Operation sq k' m' q' ∧ Index.Calls sep q n ∧ Index.Calls sep q' n

/-- nothing, or a list -/
def ListAt (q : Dict Str Tree) (n : Str) : Prop := Dict.get? q n = none ∨ ∃ l, Dict.get? q n = some (.list l)

/-- Values of the types the standard asks for, as far as they decide whether an application is made; path items are written in
place; parameters and responses are written in place or as mere references; the parts of a schema fit together. -/
structure Sound (D : Tree) (url : Str) (sq : Dict Str Tree) : Prop where
  labels : ∀ k m q, Operation sq k m q → ∃ l : Index.Label, l.In q
  lists : ∀ k m q, Operation sq k m q → ListAt q c!"produces" ∧ ListAt q c!"consumes" ∧ ListAt q c!"schemes"
  schemes : ListAt sq c!"schemes"
  host : ∃ s, Service.Maybe sq c!"host" s
  basePath : ∃ s, Service.Maybe sq c!"basePath" s
  items : ∀ ts q, Written D ts cPathItem q → Dict.get? q c!"$ref" = none
  inPlace : ∀ ts c q, Written D ts c q → c = cParameter ∨ c = cResponse → Dict.get? q c!"$ref" = none ∨
    ∃ r, q = [(c!"$ref", r)]
  styled : Styled D
  parts : Composed.Matching D url

/-- the same for what validation reads -/
structure Regular (D : Tree) (url : Str) (sq : Dict Str Tree) : Prop extends Sound D url sq where
  required : ∀ ts q, Written D ts cSchema q → ∃ ks, Service.Texts q c!"required" ks
  readOnly : ∀ ts q, Written D ts cSchema q → Dict.get? q c!"readOnly" = none ∨ Dict.get? q c!"readOnly" = some (.atom .none) ∨
    ∃ b, Dict.get? q c!"readOnly" = some (.atom (.bool b))

end Spec.Refused
