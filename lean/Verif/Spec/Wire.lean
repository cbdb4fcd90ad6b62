import Verif.Spec.Conform
import Verif.Spec.Json
/-!
# What a text in a request says (C81)

How a server that knows the document reads the text of a parameter: numbers and booleans as JSON writes them, strings
as they are, arrays cut at the separator of the collection format. Everything is said about the dict written in the
document; nothing of the library is mentioned.
-/

namespace Spec.Wire
open Py Tree Spec.Conform

/-- the collection format: `csv` unless a text is written -/
def Collects (q : Dict Str Tree) (f : Str) : Prop :=
  Dict.get? q c!"collectionFormat" = none ∧ f = c!"csv" ∨ Dict.get? q c!"collectionFormat" = some (.atom (.str f))

/-- the separator between the elements of an array -/
def Separates (q : Dict Str Tree) (s : Char) : Prop :=
  ∃ f, Collects q f ∧ (f, s) ∈ [(c!"csv", ','), (c!"ssv", ' '), (c!"tsv", '\t'), (c!"pipes", '|')]

/-- texts with a separator in between -/
def between (s : Char) : List Str → Str
  | [] => []
  | [t] => t
  | t :: l => t ++ s :: between s l

/-- The text is read as the value. An array has at least one element and the separator is in none of them; so there is
one way to cut the text. -/
inductive Reads : Dict Str Tree → Str → Val → Prop
  | integer {q t n} : textAt q c!"type" = some c!"integer" → Json.readJson t = some (.int n) → Reads q t (.int n)
  | number {q t v r} : textAt q c!"type" = some c!"number" → Json.readJson t = some v → Numeral v r → Reads q t v
  | boolean {q t b} : textAt q c!"type" = some c!"boolean" → Json.readJson t = some (.bool b) → Reads q t (.bool b)
  | string {q t} : textAt q c!"type" = some c!"string" → Reads q t (.str t)
  | array {q i s} {ts : List Str} {vs : List Val} : textAt q c!"type" = some c!"array" →
      Dict.get? q c!"items" = some (.dict i) → Separates q s → ts ≠ [] → (∀ t ∈ ts, s ∉ t) → ts.length = vs.length →
      (∀ (k : Nat) t v, ts[k]? = some t → vs[k]? = some v → Reads i t v) → Reads q (between s ts) (.list vs)

/-- The texts under one name are read as the value: a single text, or with the format `multi` one text per element. -/
inductive ReadsAll (q : Dict Str Tree) : List Str → Val → Prop
  | one {t v} : Reads q t v → ReadsAll q [t] v
  | multi {i} {ts : List Str} {vs : List Val} : Collects q c!"multi" → textAt q c!"type" = some c!"array" →
      Dict.get? q c!"items" = some (.dict i) → ts.length = vs.length →
      (∀ (k : Nat) t v, ts[k]? = some t → vs[k]? = some v → Reads i t v) → ReadsAll q ts (.list vs)

mutual
/-- there is a null in the value -/
def nulls : Val → Bool
  | .none => true
  | .list l => nullItems l
  | .dict d => nullPairs d
  | _ => false
def nullItems : List Val → Bool
  | [] => false
  | v :: l => nulls v || nullItems l
def nullPairs : List (Str × Val) → Bool
  | [] => false
  | (_, v) :: d => nulls v || nullPairs d
end

/-- the parameters, headers and items objects within reach: closed under items -/
structure Within (S : Dict Str Tree → Prop) : Prop where
  simple : ∀ q, S q → Simple q
  typed : ∀ q, S q → ∃ t, textAt q c!"type" = some t ∧ t ≠ c!"object"
  noRef : ∀ q, S q → Spec.SchemaDoc.refAt q = none
  items : ∀ q d, S q → Dict.get? q c!"items" = some (.dict d) → S d
  values : ∀ q, S q → ∀ t ∈ Spec.SchemaDoc.listAt q c!"enum", ∀ c fs, t ≠ .obj c fs
  collects : ∀ q, S q → ∃ f, Collects q f

end Spec.Wire
