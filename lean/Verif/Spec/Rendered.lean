import Verif.Model.Render
/-!
# What the renderer may produce

Written without the functions of `Model/Render.lean`: only its data types (objects, options) are
used.
-/

namespace Spec.Rendered
open Py Prim

/-- the letters a-z and A-Z -/
def Letter (c : Char) : Prop := ('a' ≤ c ∧ c ≤ 'z') ∨ ('A' ≤ c ∧ c ≤ 'Z')

/-- letters, digits, `_` and `-` -/
def NameChar (c : Char) : Prop := Letter c ∨ ('0' ≤ c ∧ c ≤ '9') ∨ c = '_' ∨ c = '-'

/-- a word of an e-mail address: 1 to 30 characters between two letters -/
def Word (s : Str) : Prop :=
  ∃ a m b, s = a :: m ++ [b] ∧ Letter a ∧ Letter b ∧ 1 ≤ m.length ∧ m.length ≤ 30 ∧ ∀ c ∈ m, NameChar c

/-- a part of a host name: a letter and between 2 and `max` characters -/
def HostPart (max : Nat) (s : Str) : Prop :=
  ∃ a m, s = a :: m ∧ Letter a ∧ 2 ≤ m.length ∧ m.length ≤ max ∧ ∀ c ∈ m, NameChar c

/-- an e-mail address: one to four words, separated by dots, `@`, and two parts of a host name -/
def Email (s : Str) : Prop :=
  ∃ (names : List Str) (h r : Str), s = join c!"." names ++ c!"@" ++ h ++ c!"." ++ r ∧ 1 ≤ names.length ∧ names.length ≤ 4 ∧
    (∀ w ∈ names, Word w) ∧ HostPart 100 h ∧ HostPart 30 r

/-- `m` is the limit given; if there is none, or it is 0, it is `d`. -/
def LimitOr {α : Type} [OfNat α 0] (limit : Option α) (d m : α) : Prop :=
  (limit = some m ∧ m ≠ 0) ∨ ((limit = none ∨ limit = some 0) ∧ m = d)

/-- the bound for integers without limit -/
def Big (format : Option Str) (b : Int) : Prop :=
  ((format = none ∨ format = some c!"int32") ∧ b = 2 ^ 30) ∨
  (format ≠ none ∧ format ≠ some c!"int32" ∧ b = 2 ^ 62)

/-- the integers that are drawn for an integer schema -/
def Drawn (o : Render.Node) (n : Int) : Prop :=
  ∃ b lo hi : Int, Big o.format b ∧ LimitOr o.minimum (-b : Int) (lo : Rat) ∧
    LimitOr o.maximum b (hi : Rat) ∧
    (if o.exclusiveMinimum then lo < n else lo ≤ n) ∧ (if o.exclusiveMaximum then n < hi else n ≤ hi)

/-- What becomes of a drawn integer: with an integer `multipleOf` it is rounded down to a multiple
(up, if the divisor is negative). -/
def RoundedTo (o : Render.Node) (d n : Int) : Prop :=
  ((o.multipleInt = false ∨ o.multipleOf = 0) → n = d) ∧
  (∀ m : Int, o.multipleInt = true → o.multipleOf = m → m ≠ 0 →
    m ∣ n ∧ (0 < m → n ≤ d ∧ d < n + m) ∧ (m < 0 → d ≤ n ∧ n + m < d))

/-- the length lies between the limits; 0 is no limit -/
def LengthBetween (min max : Option Nat) (dflt n : Nat) : Prop :=
  ∃ lo hi, LimitOr min 0 lo ∧ LimitOr max dflt hi ∧ lo ≤ n ∧ n ≤ hi

/-- The result of rendering the declared properties in order. `made name p v` says that `v` is a
value rendered for property `p`. Result: the pairs, and how many of them were rendered. -/
inductive Declared (opt : Render.Opt) (required : List Str) (made : Nat → Val → Prop) :
    List (Str × Nat) → List (Str × Val) → Nat → Prop where
  | nil : Declared opt required made [] [] 0
  | template (name : Str) (p : Nat) (v : Val) (l : List (Str × Nat)) (d : List (Str × Val)) (n : Nat) :
      Dict.get? opt.objectTemplate name = some v → Declared opt required made l d n →
      Declared opt required made ((name, p) :: l) ((name, v) :: d) n
  | skip (name : Str) (p : Nat) (l : List (Str × Nat)) (d : List (Str × Val)) (n : Nat) :
      Dict.get? opt.objectTemplate name = none → opt.maxProperty = false → name ∉ required →
      Declared opt required made l d n → Declared opt required made ((name, p) :: l) d n
  | made (name : Str) (p : Nat) (v : Val) (l : List (Str × Nat)) (d : List (Str × Val)) (n : Nat) :
      Dict.get? opt.objectTemplate name = none →
      (opt.maxProperty = true ∨ name ∈ required ∨ opt.minimalProperty = false) → made p v →
      Declared opt required made l d n → Declared opt required made ((name, p) :: l) ((name, v) :: d) (n + 1)

/-- The additional properties: `n` new names of at most `len` letters, different from those in
`used` and from each other, with rendered values. -/
inductive More (len : Nat) (made : Val → Prop) : List Str → List (Str × Val) → Prop where
  | nil (used : List Str) : More len made used []
  | cons (used : List Str) (name : Str) (v : Val) (d : List (Str × Val)) :
      name ∉ used → name.length ≤ len → (∀ c ∈ name, Letter c) → made v →
      More len made (name :: used) d → More len made used ((name, v) :: d)

/-- a property may be rendered, unless it is in the template -/
def May (opt : Render.Opt) (required : List Str) (name : Str) : Prop :=
  Dict.get? opt.objectTemplate name = none ∧
    (opt.maxProperty = true ∨ name ∈ required ∨ opt.minimalProperty = false)

/-- The additional properties of an object of which `n` declared properties were rendered: with a
schema for them and a `minProperties`, as many as are missing to a total between the limits;
`rounds` are those granted to the search for a new name. -/
def Extra (opt : Render.Opt) (rounds : Nat) (o : Render.Node) (made : Nat → Val → Prop) (used : List Str) (n : Nat)
    (d : List (Str × Val)) : Prop :=
  (∀ p, o.additional = .schema p → ∃ lo hi total : Nat, o.minProperties = some lo ∧ lo ≠ 0 ∧
    LimitOr o.maxProperties opt.maxPropCount hi ∧ lo ≤ total ∧ total ≤ hi ∧ d.length = total - n ∧
    (d ≠ [] → 0 < rounds) ∧ More opt.maxNameLength (made p) used d) ∧
  ((∀ p, o.additional ≠ .schema p) → d = [])

/-- What adding properties to an object can raise, of which `n` declared properties were rendered:
`TypeError` without a `minProperties` (or one of 0), `ValueError` if it exceeds the upper limit,
and, while properties are missing and a name is left, what rendering the value raises. -/
def ExtraRaises (opt : Render.Opt) (rounds : Nat) (o : Render.Node) (made : Nat → Ends Val → Prop) (used : List Str)
    (n : Nat) (e : Exc) : Prop :=
  ∃ p, o.additional = .schema p ∧
    (((o.minProperties = none ∨ o.minProperties = some 0) ∧ e = .TypeError) ∨
     ∃ lo hi, o.minProperties = some lo ∧ lo ≠ 0 ∧ LimitOr o.maxProperties opt.maxPropCount hi ∧
      ((hi < lo ∧ e = .ValueError) ∨
       ∃ total d name, lo ≤ total ∧ total ≤ hi ∧ d.length < total - n ∧ 0 < rounds ∧
        More opt.maxNameLength (fun v => made p (.value v)) used d ∧
        name ∉ used ++ d.map Prod.fst ∧ name.length ≤ opt.maxNameLength ∧ (∀ c ∈ name, Letter c) ∧
        made p (.raises e)))

/-- a parameter that is not to be rendered -/
def Excluded (exclude : List Str) (p : Render.Param) : Prop := ∃ n ∈ exclude, p.name = some n

/-- a parameter without value in the template -/
def Plain (opt : Render.Opt) (p : Render.Param) : Prop :=
  ∀ n, p.name = some n → Dict.get? opt.parameterTemplate n = none

/-- The parameters of an operation in order, each with its value if it gets one. `made p v` says
that `v` is a value rendered for `p`. -/
inductive Chosen (opt : Render.Opt) (exclude : List Str) (made : Render.Param → Val → Prop) :
    List Render.Param → List (Option Str × Val) → Prop where
  | nil : Chosen opt exclude made [] []
  | excluded (p : Render.Param) (l : List Render.Param) (ev : List (Option Str × Val)) : Excluded exclude p →
      Chosen opt exclude made l ev → Chosen opt exclude made (p :: l) ev
  | template (p : Render.Param) (n : Str) (v : Val) (l : List Render.Param) (ev : List (Option Str × Val)) :
      ¬ Excluded exclude p → p.name = some n → Dict.get? opt.parameterTemplate n = some v →
      Chosen opt exclude made l ev → Chosen opt exclude made (p :: l) ((p.name, v) :: ev)
  | skip (p : Render.Param) (l : List Render.Param) (ev : List (Option Str × Val)) :
      ¬ Excluded exclude p → Plain opt p → opt.maxParameter = false → p.required = false →
      Chosen opt exclude made l ev → Chosen opt exclude made (p :: l) ev
  | made (p : Render.Param) (v : Val) (l : List Render.Param) (ev : List (Option Str × Val)) :
      ¬ Excluded exclude p → Plain opt p →
      (opt.maxParameter = true ∨ p.required = true ∨ opt.minimalParameter = false) → made p v →
      Chosen opt exclude made l ev → Chosen opt exclude made (p :: l) ((p.name, v) :: ev)

end Spec.Rendered
