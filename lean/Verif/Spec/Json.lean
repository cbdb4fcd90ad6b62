import Verif.Py.Value
import Verif.Py.Dict
import Verif.Py.Int
/-!
# RFC 8259: a reader of JSON texts

`readJson s` is the value a JSON text stands for, `none` for any other text. Of equal names in an
object the last one counts. A `\u` escape of half a surrogate pair without the other half is not
accepted (RFC 8259, section 8.2, calls the behaviour of such texts unpredictable).
-/

namespace Spec.Json
open Py

/-- insignificant white space -/
def isWs (c : Char) : Bool := c = ' ' || c = '\t' || c = '\n' || c = '\r'

def skip (s : Str) : Str := s.dropWhile isWs

/-! ## numbers -/

/-- the parts of a number -/
structure Number where
  neg : Bool
  int : Str
  frac : Option Str
  /-- is the exponent negative, and its digits -/
  exp : Option (Bool × Str)

/-- digits and nothing else, at least one -/
def isDigits (s : Str) : Bool := !s.isEmpty && s.all fun c => '0' ≤ c && c ≤ '9'

/-- the number with these decimal digits -/
def natVal (s : Str) : Nat := (digitsVal 0 s).getD 0

/-- a fraction after the integer part -/
def withFrac (int : Str) : Option Str → Rat
  | none => (natVal int : Rat)
  | some f => (natVal (int ++ f) : Rat) / ((10 ^ f.length : Nat) : Rat)

/-- multiplied with the power of ten of an exponent -/
def withExp (q : Rat) : Option (Bool × Str) → Rat
  | none => q
  | some (false, e) => q * ((10 ^ natVal e : Nat) : Rat)
  | some (true, e) => q / ((10 ^ natVal e : Nat) : Rat)

/-- the value of a number that has a fraction or an exponent -/
def Number.rat (x : Number) : Rat :=
  let q := withExp (withFrac x.int x.frac) x.exp
  if x.neg then -q else q

/-- a number without fraction and exponent is an integer -/
def Number.val (x : Number) : Val :=
  match x.frac, x.exp with
  | none, none => .int (if x.neg then -(natVal x.int : Int) else natVal x.int)
  | _, _ => .float (.fin x.rat)

def isDigit (c : Char) : Bool := '0' ≤ c && c ≤ '9'

/-- `frac`: a point and digits, if there are -/
def readFrac (s : Str) : Option Str × Str :=
  match s with
  | '.' :: s' =>
    if isDigits (s'.takeWhile isDigit) then (some (s'.takeWhile isDigit), s'.dropWhile isDigit) else (none, s)
  | _ => (none, s)

/-- the sign of an exponent -/
def readSign : Str → Bool × Str
  | '-' :: s => (true, s)
  | '+' :: s => (false, s)
  | s => (false, s)

/-- `exp`: the letter e, a sign and digits, if there are -/
def readExp (s : Str) : Option (Bool × Str) × Str :=
  match s with
  | c :: s' =>
    if c = 'e' ∨ c = 'E' then
      let (neg, d) := readSign s'
      if isDigits (d.takeWhile isDigit) then (some (neg, d.takeWhile isDigit), d.dropWhile isDigit) else (none, s)
    else (none, s)
  | [] => (none, s)

/-- a minus sign, if there is one -/
def readMinus : Str → Bool × Str
  | '-' :: s => (true, s)
  | s => (false, s)

/-- no superfluous leading zero -/
def plainInt (s : Str) : Bool := isDigits s && (s.length = 1 || s.head? ≠ some '0')

def readNumber (s : Str) : Option (Number × Str) :=
  let (neg, s) := readMinus s
  let int := s.takeWhile isDigit
  if plainInt int then
    let (frac, s) := readFrac (s.dropWhile isDigit)
    let (exp, s) := readExp s
    some (⟨neg, int, frac, exp⟩, s)
  else none

/-! ## strings -/

/-- a character, or a UTF-16 code unit written as an escape -/
inductive Item where
  | char (c : Char)
  | unit (n : Nat)
  deriving DecidableEq

def hexDigit? (c : Char) : Option Nat :=
  if '0' ≤ c ∧ c ≤ '9' then some (c.toNat - 48)
  else if 'a' ≤ c ∧ c ≤ 'f' then some (c.toNat - 87)
  else if 'A' ≤ c ∧ c ≤ 'F' then some (c.toNat - 55)
  else none

def hex4? (a b c d : Char) : Option Nat :=
  match hexDigit? a, hexDigit? b, hexDigit? c, hexDigit? d with
  | some a, some b, some c, some d => some (a * 4096 + b * 256 + c * 16 + d)
  | _, _, _, _ => none

/-- the two-character escapes -/
def short? (c : Char) : Option Char :=
  if c = '"' then some '"' else if c = '\\' then some '\\' else if c = '/' then some '/'
  else if c = 'b' then some '\x08' else if c = 'f' then some '\x0c' else if c = 'n' then some '\n'
  else if c = 'r' then some '\r' else if c = 't' then some '\t' else none

/-- the items up to the closing quotation mark, and the rest -/
def readItems : Str → Option (List Item × Str)
  | [] => none
  | '"' :: s => some ([], s)
  | '\\' :: 'u' :: a :: b :: c :: d :: s =>
    match hex4? a b c d, readItems s with
    | some n, some (l, s) => some (.unit n :: l, s)
    | _, _ => none
  | '\\' :: c :: s =>
    match short? c, readItems s with
    | some c, some (l, s) => some (.char c :: l, s)
    | _, _ => none
  | c :: s =>
    if c = '\\' ∨ c.toNat < 32 then none
    else match readItems s with
      | some (l, s) => some (.char c :: l, s)
      | none => none

/-- code units to characters: a high and a low surrogate are one character -/
def combine : List Item → Option Str
  | [] => some []
  | .char c :: l => (combine l).map (c :: ·)
  | .unit h :: l =>
    if 0xd800 ≤ h ∧ h < 0xdc00 then
      match l with
      | .unit n :: l =>
        if 0xdc00 ≤ n ∧ n < 0xe000 then
          (combine l).map (Char.ofNat (0x10000 + (h - 0xd800) * 1024 + (n - 0xdc00)) :: ·)
        else none
      | _ => none
    else if 0xdc00 ≤ h ∧ h < 0xe000 then none
    else (combine l).map (Char.ofNat h :: ·)

/-- the text after an opening quotation mark -/
def readString (s : Str) : Option (Str × Str) :=
  match readItems s with
  | some (l, s) => (combine l).map fun t => (t, s)
  | none => none

/-! ## values -/

mutual
/-- a value at the beginning of the text; the number bounds the nesting -/
def readValue : Nat → Str → Option (Val × Str)
  | 0, _ => none
  | n + 1, s =>
    match s with
    | '"' :: s => (readString s).map fun x => (.str x.1, x.2)
    | '[' :: s =>
      match skip s with
      | ']' :: s => some (.list [], s)
      | s => readElements n [] s
    | '{' :: s =>
      match skip s with
      | '}' :: s => some (.dict [], s)
      | s => readMembers n [] s
    | 't' :: 'r' :: 'u' :: 'e' :: s => some (.bool true, s)
    | 'f' :: 'a' :: 'l' :: 's' :: 'e' :: s => some (.bool false, s)
    | 'n' :: 'u' :: 'l' :: 'l' :: s => some (.none, s)
    | s => (readNumber s).map fun x => (x.1.val, x.2)
/-- the elements of an array up to the closing bracket; `l`: those before -/
def readElements : Nat → List Val → Str → Option (Val × Str)
  | 0, _, _ => none
  | n + 1, l, s =>
    match readValue n s with
    | none => none
    | some (v, s) =>
      match skip s with
      | ']' :: s => some (.list (l ++ [v]), s)
      | ',' :: s => readElements n (l ++ [v]) (skip s)
      | _ => none
/-- the members of an object up to the closing brace; `d`: those before -/
def readMembers : Nat → Dict Str Val → Str → Option (Val × Str)
  | 0, _, _ => none
  | n + 1, d, s =>
    match s with
    | '"' :: s =>
      match readString s with
      | none => none
      | some (k, s) =>
        match skip s with
        | ':' :: s =>
          match readValue n (skip s) with
          | none => none
          | some (v, s) =>
            match skip s with
            | '}' :: s => some (.dict (Dict.set d k v), s)
            | ',' :: s => readMembers n (Dict.set d k v) (skip s)
            | _ => none
        | _ => none
    | _ => none
end

/-- The value a JSON text stands for. A text is at most as deep as it is long. -/
def readJson (s : Str) : Option Val :=
  match readValue (s.length + 1) (skip s) with
  | some (v, s) => if skip s = [] then some v else none
  | none => none

/-- the text is a JSON number with a fraction or an exponent, of this value -/
def FloatText (s : Str) (q : Rat) : Prop :=
  ∃ x : Number, plainInt x.int = true ∧ (∀ f, x.frac = some f → isDigits f = true) ∧
    (∀ b e, x.exp = some (b, e) → isDigits e = true) ∧ ¬ (x.frac = none ∧ x.exp = none) ∧ x.rat = q ∧
    ∃ sign letter, sign ∈ [c!"", c!"+"] ∧ letter ∈ ['e', 'E'] ∧
      s = (if x.neg then c!"-" else []) ++ x.int ++
        (match x.frac with
          | some f => '.' :: f
          | none => []) ++
        (match x.exp with
          | some (true, e) => letter :: '-' :: e
          | some (false, e) => letter :: (sign ++ e)
          | none => [])

mutual
/-- A value JSON can express: finite floats whose text is a JSON number of that value, distinct names in
every object, no foreign objects. -/
def Plain (repr : Rat → Str) : Val → Prop
  | .float (.fin q) => FloatText (repr q) q
  | .float _ => False
  | .list l => PlainItems repr l
  | .dict d => (d.map Prod.fst).Nodup ∧ PlainPairs repr d
  | .other _ => False
  | _ => True
def PlainItems (repr : Rat → Str) : List Val → Prop
  | [] => True
  | v :: l => Plain repr v ∧ PlainItems repr l
def PlainPairs (repr : Rat → Str) : List (Str × Val) → Prop
  | [] => True
  | (_, v) :: d => Plain repr v ∧ PlainPairs repr d
end

mutual
/-- `Plain`, but for NaN and infinities -/
def Almost (repr : Rat → Str) : Val → Prop
  | .float (.fin q) => FloatText (repr q) q
  | .list l => AlmostItems repr l
  | .dict d => (d.map Prod.fst).Nodup ∧ AlmostPairs repr d
  | .other _ => False
  | _ => True
def AlmostItems (repr : Rat → Str) : List Val → Prop
  | [] => True
  | v :: l => Almost repr v ∧ AlmostItems repr l
def AlmostPairs (repr : Rat → Str) : List (Str × Val) → Prop
  | [] => True
  | (_, v) :: d => Almost repr v ∧ AlmostPairs repr d
end

mutual
/-- is there a NaN or an infinity in it -/
def nonfinite : Val → Bool
  | .float (.fin _) => false
  | .float _ => true
  | .list l => nonfiniteItems l
  | .dict d => nonfinitePairs d
  | _ => false
def nonfiniteItems : List Val → Bool
  | [] => false
  | v :: l => nonfinite v || nonfiniteItems l
def nonfinitePairs : List (Str × Val) → Bool
  | [] => false
  | (_, v) :: d => nonfinite v || nonfinitePairs d
end

example : readJson c!" {\"a\" : [1, -2.50, 1e+3, \"x\\ud83d\\ude00\\n\"], \"b\":null,\"a\":true}\n" =
    some (.dict [(c!"a", .bool true), (c!"b", .none)]) := by decide +kernel
example : readJson c!"[1, -2.50, 1e+3, \"x\\ud83d\\ude00\\n\"]" =
    some (.list [.int 1, .float (.fin ⟨-5, 2, by decide, by decide⟩), .float (.fin ⟨1000, 1, by decide, by decide⟩), .str c!"x😀\n"]) := by
  decide +kernel
example : readJson c!"01" = none ∧ readJson c!"1." = none ∧ readJson c!"NaN" = none ∧ readJson c!"[1,]" = none ∧
    readJson c!"'a'" = none ∧ readJson c!"\"a" = none ∧ readJson c!"1 2" = none := by decide +kernel

end Spec.Json
