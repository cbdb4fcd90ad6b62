import Verif.Spec.Composed
import Verif.Spec.Rendered
import Verif.Spec.Described
/-!
# What may be generated for a schema of a document (C95)

Said about the schemas written in the document and their places. Of the models only the options of `Renderer` and the record of
limits `Render.Node` are used.
-/

namespace Spec.Generated
open Py Tree _root_.Doc Prim Spec.Pointed Spec.Composed Spec.Rendered
open Spec.Merge (In)
open Spec.Described (Text Number Length Switch Values)

/-- the fields with one value -/
def facets : List Str := [c!"type", c!"format", c!"maximum", c!"exclusiveMaximum", c!"minimum", c!"exclusiveMinimum", c!"maxLength",
  c!"minLength", c!"maxItems", c!"minItems", c!"multipleOf"]

/-- one value where one is expected, lists for `required` and `enum` -/
def Typed (D : Tree) : Prop := ∀ ts n t, Says D ts n t → (n ∈ facets → ∃ a, t = .atom a) ∧ (n = c!"required" ∨ n = c!"enum" → ∃ l, t = .list l)

/-- a schema written as a property or as items of another has no parts of its own -/
def Flat (D : Tree) : Prop := ∀ ts q vs q' us, Written D ts cSchema q → ((∃ n, vs = [c!"properties", n]) ∨ vs = [c!"items"]) →
  Written D (ts ++ vs) cSchema q' → ∀ url, ¬ Lists D url (ts ++ vs) us

/-- What the schema at `ts` and its parts say together: a facet of the schema itself or else of a part, and the elements of all lists
of allowed values (in Python's sense of equality). -/
structure Combined (D : Tree) (url : Str) (ts : List Str) (q : Dict Str Tree) : Prop where
  own : ∀ n ∈ facets, ∀ t, Says D ts n t → Dict.get? q n = some t
  part : ∀ n ∈ facets, (∀ t, ¬ Says D ts n t) → ∀ t, Dict.get? q n = some t → ∃ us, Part D url ts us ∧ Says D us n t
  nothing : ∀ n ∈ facets, Dict.get? q n = none → ∀ us t, Within D url ts us → ¬ Says D us n t
  enum : ∀ e, (∃ l, Dict.get? q c!"enum" = some (.list l) ∧ In e l) ↔
    ∃ us l, Within D url ts us ∧ Says D us c!"enum" (.list l) ∧ In e l

/-- the schema at `ts` or a part requires the property `n` -/
def Requires (D : Tree) (url : Str) (ts : List Str) (n : Str) : Prop :=
  ∃ us l, Within D url ts us ∧ Says D us c!"required" (.list l) ∧ .atom (.str n) ∈ l

/-- the limits written in `q` -/
structure Facets (q : Dict Str Tree) (a : Render.Node) : Prop where
  type : Text q c!"type" a.type
  format : Text q c!"format" a.format
  maximum : Number q c!"maximum" a.maximum
  exclusiveMaximum : Switch q c!"exclusiveMaximum" a.exclusiveMaximum
  minimum : Number q c!"minimum" a.minimum
  exclusiveMinimum : Switch q c!"exclusiveMinimum" a.exclusiveMinimum
  maxLength : Length q c!"maxLength" a.maxLength
  minLength : Length q c!"minLength" a.minLength
  maxItems : Length q c!"maxItems" a.maxItems
  minItems : Length q c!"minItems" a.minItems
  multipleOf : ∃ x, Number q c!"multipleOf" x ∧ a.multipleOf = x.getD 0
  multipleInt : a.multipleInt = true ↔ ∃ k, Dict.get? q c!"multipleOf" = some (.atom (.int k))
  enum : match Dict.get? q c!"enum" with
    | some (.list l) => Values l a.enum
    | _ => a.enum = []

/-- false as a condition -/
def Empty (v : Val) : Prop := v = .none ∨ v = .bool false ∨ v = .int 0 ∨ v = .float (.fin 0) ∨ v = .str [] ∨ v = .list [] ∨ v = .dict []

/-- `x` with the digits after the point cut off -/
def Cut (x : Rat) (j : Int) : Prop := (0 ≤ x → (j : Rat) ≤ x ∧ x < j + 1) ∧ (x < 0 → x ≤ j ∧ (j : Rat) - 1 < x)

/-- the numbers generated within the limits `a`: on a line of 2^53 points, cut down to a multiple -/
def Float (a : Render.Node) (x : Rat) : Prop :=
  ∃ (lo hi : Rat) (k : Nat), LimitOr a.minimum (1 / 2 ^ 1022) lo ∧ LimitOr a.maximum ((2 - 1 / 2 ^ 52) * 2 ^ 1023) hi ∧ k < 2 ^ 53 ∧
    (a.multipleOf = 0 → x = lo + (hi - lo) * ((k : Rat) / 2 ^ 53)) ∧
    (a.multipleOf ≠ 0 → ∃ j : Int, Cut ((lo + (hi - lo) * ((k : Rat) / 2 ^ 53)) / a.multipleOf) j ∧ x = j * a.multipleOf) ∧
    (a.exclusiveMinimum = true → lo < x)

/-- What is generated within the limits `a` for a type and a format when no allowed value is taken. The formats byte, date, date-time,
uuid and the type file are left open. -/
inductive Free (opt : Render.Opt) (a : Render.Node) : Str → Option Str → Val → Prop
  | integer {f d n} : f ∈ [none, some c!"", some c!"int32", some c!"int64"] → Drawn a d → RoundedTo a d n → Free opt a c!"integer" f (.int n)
  | number {f x} : f ∈ [none, some c!"", some c!"float", some c!"double"] → Float a x → Free opt a c!"number" f (.float (.fin x))
  | string {f s} : f ∈ [none, some c!"", some c!"password"] → (∀ c ∈ s, Letter c) →
      LengthBetween a.minLength a.maxLength opt.maxStrLength s.length → Free opt a c!"string" f (.str s)
  | email {s} : Email s → Free opt a c!"string" (some c!"email") (.str s)
  | boolean {f b} : f ∈ [none, some c!""] → Free opt a c!"boolean" f (.bool b)

/-- the types and formats that are known, besides object and array -/
def Known (type : Str) (f : Option Str) : Prop :=
  (type = c!"integer" ∧ f ∈ [none, some c!"", some c!"int32", some c!"int64"]) ∨
  (type = c!"number" ∧ f ∈ [none, some c!"", some c!"float", some c!"double"]) ∨
  (type = c!"string" ∧ f ∈ [none, some c!"", some c!"password", some c!"byte", some c!"date", some c!"date-time", some c!"uuid",
    some c!"email"]) ∨
  (type = c!"boolean" ∧ f ∈ [none, some c!""]) ∨ (type = c!"file" ∧ f ∈ [none, some c!""])

/-- those that are left open -/
def Open (type : Str) (f : Option Str) : Prop :=
  (type = c!"string" ∧ f ∈ [some c!"byte", some c!"date", some c!"date-time", some c!"uuid"]) ∨ (type = c!"file" ∧ f ∈ [none, some c!""])

/-- What is generated for a schema that is neither object nor array: an allowed value that is not empty (`true` for a boolean), or,
without such, anything within the limits. -/
def Leaf (opt : Render.Opt) (a : Render.Node) (type : Str) (v : Val) : Prop :=
  Known type a.format ∧
  ((type ∈ [c!"integer", c!"number", c!"string"] ∧ v ∈ a.enum ∧ ¬ Empty v) ∨
   (type = c!"boolean" ∧ v = .bool true ∧ ∃ w ∈ a.enum, ¬ Empty w) ∨
   ((a.enum = [] ∨ ∃ w ∈ a.enum, Empty w) ∧ Free opt a type a.format v) ∨
   Open type a.format)

/-- the lower limit exceeds the upper one -/
def Crossed (min max : Option Nat) (dflt : Nat) : Prop := ∃ lo hi, LimitOr min 0 lo ∧ LimitOr max dflt hi ∧ hi < lo

/-- `v` fits the schema at the place: the one that references lead to, with its parts. -/
inductive Fits (D : Tree) (url : Str) (opt : Render.Opt) : List Str → Val → Prop
  | object {ts us q d} (place : Str → List Str) : Leads D url ts us → Combined D url us q → Text q c!"type" (some c!"object") →
      Dict.WF d →
      (∀ n vs, Within D url us vs → Defines D vs n → Requires D url us n ∨ n ∈ Dict.keys opt.objectTemplate ∨ opt.maxProperty = true →
        n ∈ Dict.keys d) →
      (∀ n ∈ Dict.keys d, Within D url us (place n) ∧ Defines D (place n) n ∧ (Defines D us n → place n = us)) →
      (∀ n v w, Dict.get? d n = some v → Dict.get? opt.objectTemplate n = some w → v = w) →
      (∀ n v, Dict.get? d n = some v → Dict.get? opt.objectTemplate n = none → opt.minimalProperty = true → opt.maxProperty = false →
        Requires D url us n) →
      (∀ n v, Dict.get? d n = some v → Dict.get? opt.objectTemplate n = none → Fits D url opt (place n ++ [c!"properties", n]) v) →
      Fits D url opt ts (.dict d)
  | array {ts us q a l} (place : List Str) : Leads D url ts us → Combined D url us q → Facets q a → a.type = some c!"array" →
      LengthBetween a.minItems a.maxItems opt.maxArrayLength l.length →
      (l ≠ [] → Within D url us place ∧ HasItems D place ∧ (HasItems D us → place = us)) →
      (∀ v ∈ l, Fits D url opt (place ++ [c!"items"]) v) → Fits D url opt ts (.list l)
  | leaf {ts us q a type v} : Leads D url ts us → Combined D url us q → Facets q a → a.type = some type → type ≠ c!"object" →
      type ≠ c!"array" → Leaf opt a type v → Fits D url opt ts v

/-- the exception `e` has a reason in the schema at the place, or in one of those that it needs -/
inductive Fails (D : Tree) (url : Str) (opt : Render.Opt) : List Str → Exc → Prop
  | circle {ts} : (∀ us, ¬ Leads D url ts us) → Fails D url opt ts .CycleDetectionError
  | untyped {ts us q} : Leads D url ts us → Combined D url us q → Text q c!"type" none → Fails D url opt ts .Exception
  | unknown {ts us q a type} : Leads D url ts us → Combined D url us q → Facets q a → a.type = some type → type ≠ c!"object" →
      type ≠ c!"array" → ¬ Known type a.format → Fails D url opt ts .Exception
  | integer {ts us q a} : Leads D url ts us → Combined D url us q → Facets q a → a.type = some c!"integer" → (∀ d, ¬ Drawn a d) →
      Fails D url opt ts .ValueError
  | string {ts us q a} : Leads D url ts us → Combined D url us q → Facets q a → a.type = some c!"string" →
      Crossed a.minLength a.maxLength opt.maxStrLength → Fails D url opt ts .ValueError
  | left {ts us q a type e} : Leads D url ts us → Combined D url us q → Facets q a → a.type = some type → Open type a.format →
      Fails D url opt ts e
  | array {ts us q a} : Leads D url ts us → Combined D url us q → Facets q a → a.type = some c!"array" →
      Crossed a.minItems a.maxItems opt.maxArrayLength → Fails D url opt ts .ValueError
  | bare {ts us q} : Leads D url ts us → Combined D url us q → Text q c!"type" (some c!"array") →
      (∀ vs, Within D url us vs → ¬ HasItems D vs) → Fails D url opt ts .AttributeError
  | item {ts us q vs e} : Leads D url ts us → Combined D url us q → Text q c!"type" (some c!"array") → Within D url us vs →
      HasItems D vs → (HasItems D us → vs = us) → Fails D url opt (vs ++ [c!"items"]) e → Fails D url opt ts e
  | property {ts us q vs n e} : Leads D url ts us → Combined D url us q → Text q c!"type" (some c!"object") → Within D url us vs →
      Defines D vs n → (Defines D us n → vs = us) → n ∉ Dict.keys opt.objectTemplate →
      Requires D url us n ∨ opt.maxProperty = true ∨ opt.minimalProperty = false →
      Fails D url opt (vs ++ [c!"properties", n]) e → Fails D url opt ts e

end Spec.Generated
