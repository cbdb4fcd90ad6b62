/-!
# Python substrate: exceptions, strings

Python `str` is modelled as `List Char` (`Str`): a sequence of code points.
Exceptions are values of `Exc`; a function that can raise returns `Except Exc α`.
-/

namespace Py

/-- A Python string: a list of code points. -/
abbrev Str := List Char

open Lean in
/-- `c!"abc"` is the literal `['a','b','c'] : List Char`. -/
macro:max "c!" s:str : term => do
  let arr : Array (TSyntax `term) := (s.getString.toList.map fun c => Syntax.mkCharLit c).toArray
  `(([$arr,*] : List Char))

/-- Exception classes raised by pyswagger (`pyswagger/errs.py`:4-6) and by the Python
builtins it uses. Messages are not modelled. -/
inductive Exc where
  | ValueError | KeyError | TypeError | AttributeError | IndexError
  | NotImplementedError | StopIteration | ReferenceError | NameError | OSError
  | Exception | AssertionError
  | SchemaError | ValidationError | CycleDetectionError
  | RecursionError | OverflowError
  deriving DecidableEq, Repr

deriving instance DecidableEq for Except

/-! ## String methods -/

/-- `s.startswith(p)` -/
def startsWith (s p : Str) : Bool := p.isPrefixOf s

/-- `s.endswith(p)` -/
def endsWith (s p : Str) : Bool := p.isSuffixOf s

/-- `sep.join(l)` -/
def join (sep : Str) : List Str → Str
  | [] => []
  | [x] => x
  | x :: y :: rest => x ++ sep ++ join sep (y :: rest)

/-- Put a character in front of the first piece of a split result. -/
def consHead (c : Char) : List Str → List Str
  | [] => [[c]]
  | p :: ps => (c :: p) :: ps

/-- `s.split(c)` for a one-character separator. -/
def splitChar (c : Char) : Str → List Str
  | [] => [[]]
  | x :: xs => if x = c then [] :: splitChar c xs else consHead x (splitChar c xs)

/-- Worker of `split`: `skip` characters are still part of the separator just found. -/
def splitGo (sep : Str) : Nat → Str → List Str
  | _, [] => [[]]
  | skip + 1, _ :: xs => splitGo sep skip xs
  | 0, x :: xs =>
    if sep.isPrefixOf (x :: xs) then [] :: splitGo sep (sep.length - 1) xs
    else consHead x (splitGo sep 0 xs)

/-- `s.split(sep)` for a non-empty separator (Python raises `ValueError` for the empty one):
leftmost, non-overlapping occurrences. -/
def split (sep s : Str) : List Str := splitGo sep 0 s

/-- Worker of `replace`. -/
def replaceGo (old new : Str) : Nat → Str → Str
  | _, [] => []
  | skip + 1, _ :: xs => replaceGo old new skip xs
  | 0, x :: xs =>
    if old.isPrefixOf (x :: xs) then new ++ replaceGo old new (old.length - 1) xs
    else x :: replaceGo old new 0 xs

/-- `s.replace(old, new)` for a non-empty `old`: leftmost, non-overlapping occurrences. -/
def replace (s old new : Str) : Str := replaceGo old new 0 s

/-- The text after the last occurrence of `sep`, if there is one. -/
def afterLast? (sep : Str) : Str → Option Str
  | [] => none
  | x :: xs =>
    match afterLast? sep xs with
    | some r => some r
    | none => if sep.isPrefixOf (x :: xs) then some ((x :: xs).drop sep.length) else none

/-- `s.rsplit(sep, 1)[-1]` for a non-empty separator. -/
def rsplitLast (sep s : Str) : Str := (afterLast? sep s).getD s

end Py
