import Verif.Py.Bytes
import Verif.Py.Dict
/-!
# `urllib.parse.quote_plus`, `urllib.parse.urlencode`, `str.format`

CPython 3.7 - 3.9.
-/

namespace Py

/-- The bytes `quote` never escapes: ASCII letters, digits, `_.-~` (`_ALWAYS_SAFE`). -/
def alwaysSafe (b : UInt8) : Bool :=
  (65 ≤ b.toNat && b.toNat ≤ 90) || (97 ≤ b.toNat && b.toNat ≤ 122) ||
  (48 ≤ b.toNat && b.toNat ≤ 57) || b.toNat = 95 || b.toNat = 46 || b.toNat = 45 || b.toNat = 126

/-- An upper-case hexadecimal digit. -/
def hexUpper (n : Nat) : Char := if n < 10 then Char.ofNat (48 + n) else Char.ofNat (55 + n)

/-- `quote_from_bytes` for one byte: `'%{:02X}'` unless safe. `sp` says whether the blank is in
`safe`. -/
def quoteByte (sp : Bool) (b : UInt8) : Str :=
  if alwaysSafe b || (sp && b.toNat = 32) then [Char.ofNat b.toNat]
  else ['%', hexUpper (b.toNat / 16), hexUpper (b.toNat % 16)]

/-- `quote(s, safe)` with `safe` either `''` or `' '`. -/
def quote (sp : Bool) (s : Str) : Str := (utf8 s).flatMap (quoteByte sp)

/-- `quote_plus(s)`: blanks become `+`. -/
def quote_plus (s : Str) : Str :=
  if ' ' ∉ s then quote false s
  else (quote true s).map (fun c => if c = ' ' then '+' else c)

/-- `urlencode(query)` for a list of pairs of strings. -/
def urlencode (l : List (Str × Str)) : Str :=
  join c!"&" (l.map (fun kv => quote_plus kv.1 ++ ['='] ++ quote_plus kv.2))

/-! ## `str.format(**kw)`

Replacement fields using attribute or index access, conversions or format specifications
(`.`, `[`, `!`, `:` in the field) are delegated to the parameter `ext`, of which nothing is
assumed. -/

/-- Value of the simple field `name`: an empty or all-digit name is positional, and there are no
positional arguments. -/
def formatField (kw : Dict Str Str) (name : Str) : Except Exc Str :=
  if name.all (fun c => '0' ≤ c && c ≤ '9') then .error .IndexError
  else match Dict.get? kw name with
    | some v => .ok v
    | none => .error .KeyError

/-- State of the scanner of `str.format`. -/
inductive FmtState where
  | lit | opened | closed | field (name : Str)

/-- The scanner of `str.format`; `out` is what has been produced so far. -/
def formatGo (ext : Str → Str → Except Exc Str) (kw : Dict Str Str) :
    FmtState → Str → Str → Except Exc Str
  | .lit, out, [] => .ok out
  | .opened, _, [] => .error .ValueError
  | .closed, _, [] => .error .ValueError
  | .field _, _, [] => .error .ValueError
  | .lit, out, c :: s =>
    if c = '{' then formatGo ext kw .opened out s
    else if c = '}' then formatGo ext kw .closed out s
    else formatGo ext kw .lit (out ++ [c]) s
  | .closed, out, c :: s =>
    if c = '}' then formatGo ext kw .lit (out ++ ['}']) s else .error .ValueError
  | .opened, out, c :: s =>
    if c = '{' then formatGo ext kw .lit (out ++ ['{']) s
    else if c = '}' then (formatField kw []).bind fun v => formatGo ext kw .lit (out ++ v) s
    else if c = '.' ∨ c = '[' ∨ c = '!' ∨ c = ':' then ext out (c :: s)
    else formatGo ext kw (.field [c]) out s
  | .field name, out, c :: s =>
    if c = '{' then .error .ValueError
    else if c = '}' then (formatField kw name).bind fun v => formatGo ext kw .lit (out ++ v) s
    else if c = '.' ∨ c = '[' ∨ c = '!' ∨ c = ':' then ext out (name ++ c :: s)
    else formatGo ext kw (.field (name ++ [c])) out s

/-- `s.format(**kw)` -/
def format (ext : Str → Str → Except Exc Str) (kw : Dict Str Str) (s : Str) : Except Exc Str :=
  formatGo ext kw .lit [] s

end Py
