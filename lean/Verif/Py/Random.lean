import Verif.Py.Basic
/-!
# Programs that draw random numbers

A program that uses Python's `random` is a tree of choices. A statement about all its outcomes is
a statement about every run, whatever the generator returns; probabilities are not modelled.
-/

namespace Py

/-- `pick n k` draws one of `0, ..., n` and goes on with `k`; `stuck` has used up the rounds
granted to a `while` loop. -/
inductive Gen (α : Type) where
  | ret (a : α)
  | fail (e : Exc)
  | stuck
  | pick (n : Nat) (k : Nat → Gen α)

namespace Gen

/-- sequencing -/
def bind {α β : Type} : Gen α → (α → Gen β) → Gen β
  | ret a, f => f a
  | fail e, _ => fail e
  | stuck, _ => stuck
  | pick n k, f => pick n fun i => bind (k i) f

instance : Monad Gen where
  pure := ret
  bind := bind

end Gen

/-- What a run can end in: a value, an exception, or it is still running. -/
inductive Ends (α : Type) where
  | value (a : α)
  | raises (e : Exc)
  | running
  deriving DecidableEq

/-- `Run g r`: some sequence of draws makes `g` end in `r`. -/
inductive Run {α : Type} : Gen α → Ends α → Prop where
  | ret (a : α) : Run (.ret a) (.value a)
  | fail (e : Exc) : Run (.fail e) (.raises e)
  | stuck : Run .stuck .running
  | pick (n : Nat) (k : Nat → Gen α) (i : Nat) (r : Ends α) : i ≤ n → Run (k i) r → Run (.pick n k) r

/-- `random.randint(a, b)`; an empty range raises `ValueError`. -/
def randint (a b : Int) : Gen Int :=
  if b < a then .fail .ValueError else .pick (b - a).toNat fun i => .ret (a + i)

/-- `random.randint(a, b)` on numbers that need not be integers: those raise `ValueError`, whole
floats are taken as integers (CPython 3.7-3.9, `Lib/random.py` `randrange`). -/
def randintQ (a b : Rat) : Gen Int :=
  if a.den ≠ 1 ∨ b.den ≠ 1 then .fail .ValueError else randint a.num b.num

/-- `random.choice(l)`; `d` is never returned when the list is not empty, an empty list raises
`IndexError`. -/
def choice {α : Type} (d : α) (l : List α) : Gen α :=
  if l.isEmpty then .fail .IndexError else .pick (l.length - 1) fun i => .ret (l.getD i d)

/-- `random.random()`: a multiple of 2^-53 in [0, 1) -/
def random : Gen Rat := .pick (2 ^ 53 - 1) fun i => .ret ((i : Rat) / 2 ^ 53)

/-- `[g for _ in range(n)]` -/
def times {α : Type} (g : Gen α) : Nat → Gen (List α)
  | 0 => .ret []
  | n + 1 => g.bind fun a => (times g n).bind fun l => .ret (a :: l)

end Py
