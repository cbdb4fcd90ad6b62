import Verif.Py.Basic
/-!
# Decimal integers

`str(n)` and `int(s)` of Python. `int` also accepts surrounding white space, underscores between
digits and non-ASCII digits; those spellings are not modelled (they count as malformed).
-/

namespace Py

/-- `str(n)` of a natural number -/
def natStr (n : Nat) : Str :=
  if n < 10 then [Nat.digitChar n] else natStr (n / 10) ++ [Nat.digitChar (n % 10)]

/-- `str(n)` -/
def intStr : Int → Str
  | .ofNat n => natStr n
  | .negSucc n => '-' :: natStr (n + 1)

/-- the value of a digit -/
def digitVal? (c : Char) : Option Nat := if '0' ≤ c ∧ c ≤ '9' then some (c.toNat - 48) else none

/-- the value of a sequence of digits read after `acc` -/
def digitsVal : Nat → Str → Option Nat
  | acc, [] => some acc
  | acc, c :: s =>
    match digitVal? c with
    | some d => digitsVal (acc * 10 + d) s
    | none => none

/-- unsigned decimal -/
def natOf? : Str → Option Nat
  | [] => none
  | s => digitsVal 0 s

/-- `int(s)`; `none` is `ValueError` -/
def intOf? : Str → Option Int
  | '-' :: s => (natOf? s).map fun n => -(n : Int)
  | '+' :: s => (natOf? s).map fun n => (n : Int)
  | s => (natOf? s).map fun n => (n : Int)

theorem digitVal_digitChar : ∀ n : Fin 10, digitVal? (Nat.digitChar n.1) = some n.1 := by decide

theorem digitChar_sign : ∀ n : Fin 10, Nat.digitChar n.1 ≠ '-' ∧ Nat.digitChar n.1 ≠ '+' := by decide

theorem digitsVal_append (s t : Str) (a : Nat) :
    digitsVal a (s ++ t) = (digitsVal a s).bind fun b => digitsVal b t := by
  induction s generalizing a with
  | nil => rfl
  | cons c s ih =>
    simp only [List.cons_append, digitsVal]
    cases digitVal? c with
    | none => rfl
    | some d => exact ih _

theorem digitsVal_natStr (n : Nat) : digitsVal 0 (natStr n) = some n := by
  induction n using Nat.strongRecOn with
  | _ n ih =>
    rw [natStr]
    by_cases h : n < 10
    · rw [if_pos h]
      simp only [digitsVal, digitVal_digitChar ⟨n, h⟩]
      simp
    · rw [if_neg h, digitsVal_append, ih (n / 10) (by omega)]
      simp only [Option.bind_some, digitsVal, digitVal_digitChar ⟨n % 10, by omega⟩]
      congr 1
      omega

theorem natStr_cons (n : Nat) : ∃ c s, natStr n = c :: s ∧ c ≠ '-' ∧ c ≠ '+' := by
  induction n using Nat.strongRecOn with
  | _ n ih =>
    rw [natStr]
    by_cases h : n < 10
    · rw [if_pos h]
      exact ⟨_, _, rfl, digitChar_sign ⟨n, h⟩⟩
    · rw [if_neg h]
      obtain ⟨c, s, e, hc⟩ := ih (n / 10) (by omega)
      rw [e]
      exact ⟨c, _, rfl, hc⟩

theorem natOf_natStr (n : Nat) : natOf? (natStr n) = some n := by
  obtain ⟨c, s, e, _⟩ := natStr_cons n
  have h := digitsVal_natStr n
  rw [e] at h ⊢
  exact h

/-- reading back the text of a natural number -/
theorem intOf_natStr (n : Nat) : intOf? (natStr n) = some (n : Int) := by
  have h := natOf_natStr n
  obtain ⟨c, s, e, h1, h2⟩ := natStr_cons n
  rw [e] at h ⊢
  unfold intOf?
  split
  · next e => cases e; exact absurd rfl h1
  · next e => cases e; exact absurd rfl h2
  · rw [h]; rfl

/-- reading back the text of an integer -/
theorem intOf_intStr (n : Int) : intOf? (intStr n) = some n := by
  cases n with
  | ofNat n => exact intOf_natStr n
  | negSucc n =>
    simp only [intStr, intOf?, natOf_natStr, Int.negSucc_eq]
    rfl

theorem natStr_inj {m n : Nat} (h : natStr m = natStr n) : m = n := by
  have := congrArg natOf? h
  rw [natOf_natStr, natOf_natStr] at this
  exact Option.some.inj this

end Py
