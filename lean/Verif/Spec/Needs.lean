import Verif.Model.Prim
/-!
# Which conversions a conversion can lead to

The relation says, from the fields of the schemas and the shape of the value alone, which other
values may have to be converted against which other schemas. Of the model only the data types
(`Env`, `Node`, `Addp`) are used.
-/

namespace Needs
open Py Prim

variable {ω : Type}

/-- what a value is cut into when a schema with items is applied: the elements of a list, the keys
of a dict, the pieces of a text between any of the four separators -/
def pieces : Val → List Val
  | .list l => l
  | .dict d => d.map fun e => .str e.1
  | .str s => [',', ' ', '\t', '|'].flatMap fun c => (splitChar c s).map .str
  | _ => []

/-- the objects applied together with `id`: what its `$ref` leads to, and the objects listed in
`allOf`, again with their `$ref`s followed -/
inductive Together (env : Env ω) (id : Nat) : Nat → Prop where
  | self {t : Nat} : env.deref id = .ok t → Together env id t
  | allOf {t a t' : Nat} : Together env id t → a ∈ (env.node t).allOf → env.deref a = .ok t' →
      Together env id t'
  | again {t t' : Nat} : Together env id t → env.deref t = .ok t' → Together env id t'

/-- the value actually converted: the default stands for `None` -/
def given (env : Env ω) (id : Nat) (v : Val) : Val :=
  if v = .none then (env.node id).default else v

/-- `Leads env q p`: converting the value `p.2` against the object `p.1` may require to convert
`q.2` against `q.1` -/
inductive Leads (env : Env ω) : Nat × Val → Nat × Val → Prop where
  /-- an element -/
  | item {id t it : Nat} {v e : Val} : Together env id t → (env.node t).items = some it →
      e ∈ pieces (given env id v) → Leads env (it, e) (id, v)
  /-- a supplied property -/
  | property {id t p : Nat} {v x : Val} {k : Str} {d : List (Str × Val)} : Together env id t →
      (k, p) ∈ (env.node t).properties → given env id v = .dict d → (k, x) ∈ d →
      Leads env (p, x) (id, v)
  /-- the default of a property -/
  | default {id t p : Nat} {v : Val} {k : Str} {d : List (Str × Val)} : Together env id t →
      (k, p) ∈ (env.node t).properties → given env id v = .dict d →
      (env.node p).defaultSet = true → Leads env (p, (env.node p).default) (id, v)
  /-- an additional property -/
  | additional {id t p : Nat} {v x : Val} {k : Str} {d : List (Str × Val)} : Together env id t →
      (env.node t).additional = .schema p → given env id v = .dict d → (k, x) ∈ d →
      Leads env (p, x) (id, v)

/-- none of the functions given from outside exhausts the stack -/
structure Quiet (env : Env ω) : Prop where
  deref : ∀ i, env.deref i ≠ .error .RecursionError
  toInt : ∀ v, env.toInt v ≠ .error .RecursionError
  toFloat : ∀ v, env.toFloat v ≠ .error .RecursionError
  atom : ∀ k i v, env.atom k i v ≠ .error .RecursionError
  mismatch : ∀ h i r, env.mismatch h i r ≠ .error .RecursionError

mutual
/-- a value without a dict anywhere in it -/
def noDict : Val → Bool
  | .list l => noDicts l
  | .dict _ => false
  | _ => true
/-- `noDict` of every element -/
def noDicts : List Val → Bool
  | [] => true
  | v :: l => noDict v && noDicts l
end

mutual
/-- a value without a text or a dict anywhere in it -/
def noText : Val → Bool
  | .list l => noTexts l
  | .dict _ => false
  | .str _ => false
  | _ => true
/-- `noText` of every element -/
def noTexts : List Val → Bool
  | [] => true
  | v :: l => noText v && noTexts l
end

end Needs
