import Verif.Py.Json
import Verif.Spec.Json
import Verif.Proofs.Dict
import Mathlib.Tactic.Ring
import Mathlib.Tactic.NormNum
/-! # Helper lemmas: a JSON text written by `json.dumps` reads back (C70) -/

namespace Proofs.Json
open Py Py.Json Spec.Json

/-! ## strings -/

theorem digitChar_hex : ∀ d : Fin 16, hexDigit? (Nat.digitChar d.1) = some d.1 := by decide

theorem hex4_pad {n : Nat} (h : n < 0x10000) : ∃ a b c d, Uuid.hexPad 4 n = [a, b, c, d] ∧ hex4? a b c d = some n := by
  refine ⟨_, _, _, _, rfl, ?_⟩
  unfold hex4?
  rw [digitChar_hex ⟨n / 16 / 16 / 16 % 16, Nat.mod_lt _ (by omega)⟩, digitChar_hex ⟨n / 16 / 16 % 16, Nat.mod_lt _ (by omega)⟩,
    digitChar_hex ⟨n / 16 % 16, Nat.mod_lt _ (by omega)⟩, digitChar_hex ⟨n % 16, Nat.mod_lt _ (by omega)⟩]
  simp only [Option.some.injEq]
  omega

theorem readItems_u4 {n : Nat} (h : n < 0x10000) {l : List Item} {s r : Str} (hs : readItems s = some (l, r)) :
    readItems (u4 n ++ s) = some (.unit n :: l, r) := by
  obtain ⟨a, b, c, d, h1, h2⟩ := hex4_pad h
  simp only [u4, h1, List.cons_append, List.nil_append]
  rw [readItems, h2, hs]

theorem readItems_short {e c : Char} (he : e ≠ 'u') (h : short? e = some c) {l : List Item} {s r : Str}
    (hs : readItems s = some (l, r)) : readItems ('\\' :: e :: s) = some (.char c :: l, r) := by
  rw [readItems]
  · rw [h, hs]
  · rintro a b c d t h' ; exact absurd h' he

theorem readItems_plain {c : Char} (h1 : c ≠ '"') (h2 : c ≠ '\\') (h3 : ¬ c.toNat < 32) {l : List Item} {s r : Str}
    (hs : readItems s = some (l, r)) : readItems (c :: s) = some (.char c :: l, r) := by
  rw [readItems]
  · rw [if_neg (by simp only [h2, false_or]; exact h3), hs]
  · exact h1
  · rintro a b c d t h' ; exact absurd h' h2
  · rintro a t h' ; exact absurd h' h2

theorem char_bounds (c : Char) : c.toNat < 0xd800 ∨ (0xdfff < c.toNat ∧ c.toNat < 0x110000) := c.valid

theorem combine_unit {h : Nat} {l : List Item} (h1 : ¬ (0xd800 ≤ h ∧ h < 0xdc00)) (h2 : ¬ (0xdc00 ≤ h ∧ h < 0xe000)) :
    combine (.unit h :: l) = (combine l).map (Char.ofNat h :: ·) := by
  rw [combine.eq_def]
  simp only [h1, h2, if_false]

theorem combine_pair {h n : Nat} {l : List Item} (h1 : 0xd800 ≤ h ∧ h < 0xdc00) (h2 : 0xdc00 ≤ n ∧ n < 0xe000) :
    combine (.unit h :: .unit n :: l) =
      (combine l).map (Char.ofNat (0x10000 + (h - 0xd800) * 1024 + (n - 0xdc00)) :: ·) := by
  rw [combine.eq_def]
  simp only [h1, h2, and_self, if_true]

/-- an escaped character is read as itself -/
theorem esc_read (c : Char) : ∃ is : List Item,
    (∀ s l r, readItems s = some (l, r) → readItems (escChar c ++ s) = some (is ++ l, r)) ∧
    (∀ l t, combine l = some t → combine (is ++ l) = some (c :: t)) := by
  have one : ∀ l t, combine l = some t → combine ([Item.char c] ++ l) = some (c :: t) := by
    intro l t h; simp [combine, h]
  have sh : ∀ e : Char, e ≠ 'u' → short? e = some c → escChar c = ['\\', e] →
      ∃ is : List Item, (∀ s l r, readItems s = some (l, r) → readItems (escChar c ++ s) = some (is ++ l, r)) ∧
      (∀ l t, combine l = some t → combine (is ++ l) = some (c :: t)) := by
    intro e h1 h2 h3
    exact ⟨[.char c], fun s l r hs => by rw [h3]; exact readItems_short h1 h2 hs, one⟩
  by_cases e1 : c = '"'
  · exact sh '"' (by decide) (by subst e1; decide) (by subst e1; decide)
  by_cases e2 : c = '\\'
  · exact sh '\\' (by decide) (by subst e2; decide) (by subst e2; decide)
  by_cases e3 : c = '\n'
  · exact sh 'n' (by decide) (by subst e3; decide) (by subst e3; decide)
  by_cases e4 : c = '\r'
  · exact sh 'r' (by decide) (by subst e4; decide) (by subst e4; decide)
  by_cases e5 : c = '\t'
  · exact sh 't' (by decide) (by subst e5; decide) (by subst e5; decide)
  by_cases e6 : c = '\x0c'
  · exact sh 'f' (by decide) (by subst e6; decide) (by subst e6; decide)
  by_cases e7 : c = '\x08'
  · exact sh 'b' (by decide) (by subst e7; decide) (by subst e7; decide)
  by_cases e8 : ' ' ≤ c ∧ c ≤ '~'
  · refine ⟨[.char c], fun s l r hs => ?_, one⟩
    have : escChar c = [c] := by simp only [escChar, e1, e2, e3, e4, e5, e6, e7, e8, if_false, if_true, and_self]
    rw [this]
    refine readItems_plain e1 e2 ?_ hs
    have : (32 : Nat) ≤ c.toNat := e8.1
    omega
  have hb := char_bounds c
  by_cases e9 : c.toNat < 0x10000
  · have : escChar c = u4 c.toNat := by simp only [escChar, e1, e2, e3, e4, e5, e6, e7, e8, e9, if_false, if_true]
    refine ⟨[.unit c.toNat], fun s l r hs => by rw [this]; exact readItems_u4 e9 hs, ?_⟩
    intro l t h
    rw [List.singleton_append, combine_unit (by omega) (by omega), h, Option.map_some, Char.ofNat_toNat]
  · have : escChar c = u4 (0xd800 + (c.toNat - 0x10000) / 1024 % 1024) ++ u4 (0xdc00 + (c.toNat - 0x10000) % 1024) := by
      simp only [escChar, e1, e2, e3, e4, e5, e6, e7, e8, e9, if_false]
    refine ⟨[.unit (0xd800 + (c.toNat - 0x10000) / 1024 % 1024), .unit (0xdc00 + (c.toNat - 0x10000) % 1024)],
      fun s l r hs => ?_, ?_⟩
    · rw [this, List.append_assoc]
      exact readItems_u4 (by omega) (readItems_u4 (by omega) hs)
    · intro l t h
      have e : 0x10000 + (0xd800 + (c.toNat - 0x10000) / 1024 % 1024 - 0xd800) * 1024 +
          (0xdc00 + (c.toNat - 0x10000) % 1024 - 0xdc00) = c.toNat := by omega
      simp only [List.cons_append, List.nil_append]
      rw [combine_pair (by omega) (by omega), h, e, Option.map_some, Char.ofNat_toNat]

theorem items_read (s rest : Str) : ∃ l, readItems (s.flatMap escChar ++ '"' :: rest) = some (l, rest) ∧
    combine l = some s := by
  induction s with
  | nil => exact ⟨[], by simp [readItems], rfl⟩
  | cons c s ih =>
    obtain ⟨l, h1, h2⟩ := ih
    obtain ⟨is, g1, g2⟩ := esc_read c
    refine ⟨is ++ l, ?_, g2 l s h2⟩
    rw [List.flatMap_cons, List.append_assoc]
    exact g1 _ _ _ h1

/-- a quoted text is read as itself -/
theorem quote_read (s rest : Str) : ∃ t, quote s ++ rest = '"' :: t ∧ readString t = some (s, rest) := by
  obtain ⟨l, h1, h2⟩ := items_read s rest
  refine ⟨s.flatMap escChar ++ '"' :: rest, by simp [quote], ?_⟩
  simp [readString, h1, h2]

/-! ## numbers -/

/-- what follows a value inside of a text -/
def Delim (rest : Str) : Prop := rest = [] ∨ ∃ c r, rest = c :: r ∧ (c = ',' ∨ c = ']' ∨ c = '}')

theorem takeWhile_all {p : Char → Bool} {s rest : Str} (hs : s.all p = true) (hr : ∀ c, rest.head? = some c → p c = false) :
    (s ++ rest).takeWhile p = s ∧ (s ++ rest).dropWhile p = rest := by
  induction s with
  | nil =>
    cases rest with
    | nil => exact ⟨rfl, rfl⟩
    | cons c r =>
      have := hr c rfl
      simp [this]
  | cons c s ih =>
    simp only [List.all_cons, Bool.and_eq_true] at hs
    obtain ⟨h1, h2⟩ := ih hs.2
    simp [hs.1, h1, h2]

theorem isDigits_all {s : Str} (h : isDigits s = true) : s.all isDigit = true ∧ s ≠ [] := by
  simp only [isDigits, Bool.and_eq_true, Bool.not_eq_true', List.isEmpty_eq_false_iff] at h
  exact ⟨h.2, h.1⟩

theorem plainInt_digits {s : Str} (h : plainInt s = true) : isDigits s = true := by
  simp only [plainInt, Bool.and_eq_true] at h; exact h.1

/-- the text of the parts of a number -/
def intText (x : Number) : Str := (if x.neg then c!"-" else []) ++ x.int

def fracText : Option Str → Str
  | some f => '.' :: f
  | none => []

def expText (sign : Str) (letter : Char) : Option (Bool × Str) → Str
  | some (true, e) => letter :: '-' :: e
  | some (false, e) => letter :: (sign ++ e)
  | none => []

theorem head_not_digit {rest : Str} (h : Delim rest) : ∀ c, rest.head? = some c → isDigit c = false := by
  rintro c hc
  rcases h with rfl | ⟨d, r, rfl, h⟩
  · cases hc
  · cases hc; rcases h with rfl | rfl | rfl <;> decide

theorem readExp_text {exp : Option (Bool × Str)} (h : ∀ b e, exp = some (b, e) → isDigits e = true) {sign : Str}
    {letter : Char} (hs : sign ∈ [c!"", c!"+"]) (hl : letter ∈ ['e', 'E']) {rest : Str} (hr : Delim rest) :
    readExp (expText sign letter exp ++ rest) = (exp, rest) := by
  have hl' : letter = 'e' ∨ letter = 'E' := by simpa using hl
  cases exp with
  | none =>
    rcases hr with rfl | ⟨d, r, rfl, h⟩
    · rfl
    · simp only [expText, List.nil_append, readExp]
      rw [if_neg]
      rcases h with rfl | rfl | rfl <;> decide
  | some be =>
    obtain ⟨b, e⟩ := be
    have hd := h b e rfl
    obtain ⟨ha, hne⟩ := isDigits_all hd
    obtain ⟨t1, t2⟩ := takeWhile_all ha (head_not_digit hr)
    cases b with
    | true =>
      simp only [expText, List.cons_append, readExp, if_pos hl', readSign, t1, t2, hd, if_true]
    | false =>
      have hsign : readSign (sign ++ (e ++ rest)) = (false, e ++ rest) := by
        simp only [List.mem_cons, List.not_mem_nil, or_false] at hs
        rcases hs with rfl | rfl
        · obtain ⟨c, e', rfl⟩ := List.exists_cons_of_ne_nil hne
          simp only [List.all_cons, Bool.and_eq_true] at ha
          simp only [List.nil_append, List.cons_append]
          unfold readSign
          split
          · next h' => cases h'; exact absurd ha.1 (by decide)
          · next h' => cases h'; exact absurd ha.1 (by decide)
          · rfl
        · rfl
      simp only [expText, List.cons_append, List.append_assoc, readExp, if_pos hl', hsign, t1, t2, hd, if_true]

theorem exp_head {sign : Str} {letter : Char} (hl : letter ∈ ['e', 'E']) (exp : Option (Bool × Str)) {rest : Str}
    (hr : Delim rest) : ∀ c, (expText sign letter exp ++ rest).head? = some c → isDigit c = false ∧ c ≠ '.' := by
  intro c hc
  have hl' : letter = 'e' ∨ letter = 'E' := by simpa using hl
  have : ∀ c, rest.head? = some c → isDigit c = false ∧ c ≠ '.' := by
    rintro c hc
    rcases hr with rfl | ⟨d, r, rfl, h⟩
    · cases hc
    · cases hc; rcases h with rfl | rfl | rfl <;> decide
  cases exp with
  | none => exact this c hc
  | some be =>
    obtain ⟨b, e⟩ := be
    have : c = letter := by cases b <;> simpa [expText] using hc.symm
    rcases hl' with rfl | rfl <;> subst this <;> decide

theorem readNumber_text {x : Number} (h1 : plainInt x.int = true) (h2 : ∀ f, x.frac = some f → isDigits f = true)
    (h3 : ∀ b e, x.exp = some (b, e) → isDigits e = true) {sign : Str} {letter : Char} (hs : sign ∈ [c!"", c!"+"])
    (hl : letter ∈ ['e', 'E']) {rest : Str} (hr : Delim rest) :
    readNumber (intText x ++ fracText x.frac ++ expText sign letter x.exp ++ rest) = some (x, rest) := by
  obtain ⟨neg, int, frac, exp⟩ := x
  simp only at *
  have hi := isDigits_all (plainInt_digits h1)
  have he := exp_head (sign := sign) hl exp hr
  have hf : ∀ c, (fracText frac ++ (expText sign letter exp ++ rest)).head? = some c → isDigit c = false := by
    intro c hc
    cases frac with
    | none => exact (he c hc).1
    | some f => simp [fracText] at hc; subst hc; decide
  obtain ⟨t1, t2⟩ := takeWhile_all hi.1 hf
  have hm : readMinus (intText ⟨neg, int, frac, exp⟩ ++ fracText frac ++ expText sign letter exp ++ rest) =
      (neg, int ++ (fracText frac ++ (expText sign letter exp ++ rest))) := by
    simp only [intText, List.append_assoc]
    cases neg with
    | true => rfl
    | false =>
      obtain ⟨c, i', rfl⟩ := List.exists_cons_of_ne_nil hi.2
      have hc := hi.1
      simp only [List.all_cons, Bool.and_eq_true] at hc
      simp only [Bool.false_eq_true, if_false, List.nil_append, List.cons_append]
      unfold readMinus
      split
      · next h' => cases h'; exact absurd hc.1 (by decide)
      · rfl
  have hrf : readFrac (fracText frac ++ (expText sign letter exp ++ rest)) = (frac, expText sign letter exp ++ rest) := by
    cases frac with
    | none =>
      unfold readFrac
      split
      · next s' h' =>
        have := (he '.' (by simp only [fracText, List.nil_append] at h'; rw [h']; rfl)).2
        exact absurd rfl this
      · rfl
    | some f =>
      have hd := h2 f rfl
      obtain ⟨ha, hne⟩ := isDigits_all hd
      obtain ⟨t1, t2⟩ := takeWhile_all ha (fun c hc => (he c hc).1)
      simp only [fracText, List.cons_append, readFrac, t1, t2, hd, if_true]
  unfold readNumber
  rw [hm]
  simp only [t1, t2, h1, if_true, hrf, readExp_text h3 hs hl hr]

theorem natStr_digits (n : Nat) : isDigits (natStr n) = true ∧ natVal (natStr n) = n := by
  refine ⟨?_, by simp [natVal, digitsVal_natStr]⟩
  have hd : ∀ k : Fin 10, ('0' ≤ Nat.digitChar k.1 && Nat.digitChar k.1 ≤ '9') = true := by decide
  induction n using Nat.strongRecOn with
  | _ n ih =>
    rw [natStr]
    by_cases h : n < 10
    · rw [if_pos h]
      have := hd ⟨n, h⟩
      simp only [isDigits, List.isEmpty_cons, Bool.not_false, List.all_cons, List.all_nil, Bool.and_true, Bool.true_and]
      exact this
    · rw [if_neg h]
      have h1 := ih (n / 10) (by omega)
      have h2 := hd ⟨n % 10, by omega⟩
      simp only [isDigits, Bool.and_eq_true] at h1 ⊢
      refine ⟨by simp, ?_⟩
      rw [List.all_append, h1.2]
      simp only [List.all_cons, List.all_nil, Bool.and_true, Bool.true_and]
      exact h2

theorem natStr_head (n : Nat) (h : n ≠ 0) : (natStr n).head? ≠ some '0' := by
  induction n using Nat.strongRecOn with
  | _ n ih =>
    rw [natStr]
    by_cases h1 : n < 10
    · rw [if_pos h1]
      have : ∀ k : Fin 10, k.1 ≠ 0 → Nat.digitChar k.1 ≠ '0' := by decide
      simpa using this ⟨n, h1⟩ h
    · rw [if_neg h1]
      have := ih (n / 10) (by omega) (by omega)
      have hne := (isDigits_all (natStr_digits (n / 10)).1).2
      obtain ⟨c, s, e⟩ := List.exists_cons_of_ne_nil hne
      rw [e] at this ⊢
      simpa using this

theorem natStr_plain (n : Nat) : plainInt (natStr n) = true := by
  simp only [plainInt, (natStr_digits n).1, Bool.true_and, Bool.or_eq_true, decide_eq_true_eq]
  by_cases h : n = 0
  · subst h; left; simp [natStr]
  · right; exact natStr_head n h

theorem int_read (n : Int) {rest : Str} (hr : Delim rest) :
    ∃ x : Number, readNumber (intStr n ++ rest) = some (x, rest) ∧ x.val = .int n := by
  have key := fun (neg : Bool) (k : Nat) => readNumber_text (x := ⟨neg, natStr k, none, none⟩) (natStr_plain k)
    (by simp) (by simp) (sign := c!"") (letter := 'e') (by simp) (by simp) hr
  cases n with
  | ofNat k =>
    refine ⟨⟨false, natStr k, none, none⟩, ?_, ?_⟩
    · simpa [intText, fracText, expText, intStr] using key false k
    · simp [Number.val, (natStr_digits k).2]
  | negSucc k =>
    refine ⟨⟨true, natStr (k + 1), none, none⟩, ?_, ?_⟩
    · simpa [intText, fracText, expText, intStr] using key true (k + 1)
    · simp [Number.val, (natStr_digits (k + 1)).2, Int.negSucc_eq]

theorem float_read {s : Str} {q : Rat} (h : FloatText s q) {rest : Str} (hr : Delim rest) :
    ∃ x : Number, readNumber (s ++ rest) = some (x, rest) ∧ x.val = .float (.fin q) := by
  obtain ⟨x, h1, h2, h3, h4, h5, sign, letter, hs, hl, he⟩ := h
  refine ⟨x, ?_, ?_⟩
  · have := readNumber_text h1 h2 h3 hs hl hr
    rw [he]
    rw [← this]
    congr 2
  · unfold Number.val
    split
    · next a b => exact absurd ⟨a, b⟩ h4
    · rw [h5]

/-! ## values -/

/-- the first character of a number -/
def NumHead (c : Char) : Prop := isDigit c = true ∨ c = '-'

theorem readValue_number {n : Nat} {c : Char} {s : Str} (h : NumHead c) :
    readValue (n + 1) (c :: s) = (readNumber (c :: s)).map fun x => (x.1.val, x.2) := by
  have : ∀ d : Char, ¬ NumHead d → c ≠ d := by
    rintro d hd rfl; exact hd h
  rw [readValue]
  · rintro t h'; exact this '"' (by unfold NumHead; decide) (by cases h'; rfl)
  · rintro t h'; exact this '[' (by unfold NumHead; decide) (by cases h'; rfl)
  · rintro t h'; exact this '{' (by unfold NumHead; decide) (by cases h'; rfl)
  · rintro t h'; exact this 't' (by unfold NumHead; decide) (by cases h'; rfl)
  · rintro t h'; exact this 'f' (by unfold NumHead; decide) (by cases h'; rfl)
  · rintro t h'; exact this 'n' (by unfold NumHead; decide) (by cases h'; rfl)

theorem int_head (n : Int) : ∃ c r, intStr n = c :: r ∧ NumHead c := by
  cases n with
  | ofNat k =>
    obtain ⟨h1, h2⟩ := isDigits_all (natStr_digits k).1
    obtain ⟨c, r, e⟩ := List.exists_cons_of_ne_nil h2
    refine ⟨c, r, by simp [intStr, e], .inl ?_⟩
    rw [e] at h1
    simp only [List.all_cons, Bool.and_eq_true] at h1
    exact h1.1
  | negSucc k => exact ⟨'-', natStr (k + 1), rfl, .inr rfl⟩

theorem float_head {s : Str} {q : Rat} (h : FloatText s q) : ∃ c r, s = c :: r ∧ NumHead c := by
  obtain ⟨x, h1, -, -, -, -, sign, letter, -, -, he⟩ := h
  obtain ⟨g1, g2⟩ := isDigits_all (plainInt_digits h1)
  obtain ⟨c, r, e⟩ := List.exists_cons_of_ne_nil g2
  rw [e] at g1 he
  simp only [List.all_cons, Bool.and_eq_true] at g1
  cases hn : x.neg with
  | true => rw [hn] at he; exact ⟨'-', _, he, .inr rfl⟩
  | false => rw [hn] at he; exact ⟨c, _, he, .inl g1.1⟩

theorem numHead_nonws {c : Char} (h : NumHead c) : isWs c = false ∧ c ≠ ']' ∧ c ≠ '}' := by
  have : ∀ d : Char, ¬ NumHead d → c ≠ d := by
    rintro d hd rfl; exact hd h
  have a1 := this ' ' (by unfold NumHead; decide)
  have a2 := this '\t' (by unfold NumHead; decide)
  have a3 := this '\n' (by unfold NumHead; decide)
  have a4 := this '\r' (by unfold NumHead; decide)
  refine ⟨by simp [isWs, a1, a2, a3, a4], this ']' (by unfold NumHead; decide), this '}' (by unfold NumHead; decide)⟩

theorem skip_cons {c : Char} {s : Str} (h : isWs c = false) : skip (c :: s) = c :: s := by
  simp [skip, h]

theorem bind_ok {α β : Type} {x : Except Exc α} {f : α → Except Exc β} {b : β} (h : (x >>= f) = .ok b) :
    ∃ a, x = .ok a ∧ f a = .ok b := by
  cases x with
  | error e => cases h
  | ok a => exact ⟨a, rfl, h⟩

/-- the first character of a text written by `dumps` -/
theorem dumps_head {repr : Rat → Str} {v : Val} {t : Str} (hp : Plain repr v) (h : dumps repr v = .ok t) :
    ∃ c r, t = c :: r ∧ isWs c = false ∧ c ≠ ']' ∧ c ≠ '}' := by
  cases v with
  | none => rw [dumps] at h; cases h; exact ⟨'n', _, rfl, by decide⟩
  | bool b => cases b <;> · rw [dumps] at h; cases h; exact ⟨_, _, rfl, by decide⟩
  | int n =>
    rw [dumps] at h; cases h
    obtain ⟨c, r, e, hc⟩ := int_head n
    exact ⟨c, r, e, numHead_nonws hc⟩
  | float x =>
    rw [dumps] at h; cases h
    cases x with
    | fin q =>
      rw [Plain] at hp
      obtain ⟨c, r, e, hc⟩ := float_head hp
      exact ⟨c, r, e, numHead_nonws hc⟩
    | _ => simp [Plain] at hp
  | str s => rw [dumps] at h; cases h; exact ⟨'"', _, rfl, by decide⟩
  | list l =>
    cases l with
    | nil => rw [dumps] at h; cases h; exact ⟨'[', _, rfl, by decide⟩
    | cons v l =>
      rw [dumps] at h
      obtain ⟨a, -, h⟩ := bind_ok h
      obtain ⟨b, -, h⟩ := bind_ok h
      cases h; exact ⟨'[', _, rfl, by decide⟩
  | dict d =>
    cases d with
    | nil => rw [dumps] at h; cases h; exact ⟨'{', _, rfl, by decide⟩
    | cons kv d =>
      obtain ⟨k, v⟩ := kv
      rw [dumps] at h
      obtain ⟨a, -, h⟩ := bind_ok h
      obtain ⟨b, -, h⟩ := bind_ok h
      cases h; exact ⟨'{', _, rfl, by decide⟩
  | other i => simp [Plain] at hp

theorem delim_items {repr : Rat → Str} {l : List Val} {t : Str} (h : dumpsItems repr l = .ok t) (rest : Str) :
    Delim (t ++ rest) := by
  cases l with
  | nil => rw [dumpsItems] at h; cases h; exact .inr ⟨_, _, rfl, by simp⟩
  | cons v l =>
    rw [dumpsItems] at h
    obtain ⟨a, -, h⟩ := bind_ok h
    obtain ⟨b, -, h⟩ := bind_ok h
    cases h; exact .inr ⟨',', _, rfl, by simp⟩

theorem delim_pairs {repr : Rat → Str} {l : List (Str × Val)} {t : Str} (h : dumpsPairs repr l = .ok t) (rest : Str) :
    Delim (t ++ rest) := by
  cases l with
  | nil => rw [dumpsPairs] at h; cases h; exact .inr ⟨_, _, rfl, by simp⟩
  | cons v l =>
    obtain ⟨k, v⟩ := v
    rw [dumpsPairs] at h
    obtain ⟨a, -, h⟩ := bind_ok h
    obtain ⟨b, -, h⟩ := bind_ok h
    cases h; exact .inr ⟨',', _, rfl, by simp⟩

/-- after an element of an array -/
def afterElement (n : Nat) (acc : List Val) (s : Str) : Option (Val × Str) :=
  match skip s with
  | ']' :: s => some (.list acc, s)
  | ',' :: s => readElements n acc (skip s)
  | _ => none

/-- after a member of an object -/
def afterMember (n : Nat) (d : Dict Str Val) (s : Str) : Option (Val × Str) :=
  match skip s with
  | '}' :: s => some (.dict d, s)
  | ',' :: s => readMembers n d (skip s)
  | _ => none

theorem readElements_of {n : Nat} {acc : List Val} {s s' : Str} {v : Val} (h : readValue n s = some (v, s')) :
    readElements (n + 1) acc s = afterElement n (acc ++ [v]) s' := by
  rw [readElements, h]; rfl

theorem readMembers_of {n : Nat} {d : Dict Str Val} {k a s' : Str} {v : Val} (hd : ∃ c r, a = c :: r ∧ isWs c = false)
    (h : readValue n a = some (v, s')) :
    readMembers (n + 1) d (quote k ++ c!": " ++ a) = afterMember n (Dict.set d k v) s' := by
  obtain ⟨t, e, ht⟩ := quote_read k (c!": " ++ a)
  obtain ⟨c, r, rfl, hc⟩ := hd
  rw [List.append_assoc, e, readMembers]
  have h1 : skip (c!": " ++ c :: r) = ':' :: ' ' :: c :: r := rfl
  have h2 : skip (' ' :: c :: r) = c :: r := by
    rw [show skip (' ' :: c :: r) = skip (c :: r) from rfl, skip_cons hc]
  simp only [ht, h1, h2, h]
  rfl

mutual
theorem dumps_read {repr : Rat → Str} : ∀ (v : Val) (_ : Plain repr v) (t : Str) (_ : dumps repr v = .ok t) (rest : Str)
    (_ : Delim rest) (n : Nat) (_ : t.length < n), readValue n (t ++ rest) = some (v, rest)
  | .none, _, t, h, rest, _, n, hn => by
    obtain ⟨n, rfl⟩ : ∃ m, n = m + 1 := ⟨n - 1, by omega⟩
    rw [dumps] at h; cases h
    simp [readValue]
  | .bool b, _, t, h, rest, _, n, hn => by
    obtain ⟨n, rfl⟩ : ∃ m, n = m + 1 := ⟨n - 1, by omega⟩
    cases b <;> · rw [dumps] at h; cases h; simp [readValue]
  | .int k, _, t, h, rest, hr, n, hn => by
    obtain ⟨n, rfl⟩ : ∃ m, n = m + 1 := ⟨n - 1, by omega⟩
    rw [dumps] at h; cases h
    obtain ⟨c, r, e, hc⟩ := int_head k
    obtain ⟨x, h1, h2⟩ := int_read k hr
    rw [e] at h1 ⊢
    rw [List.cons_append] at h1 ⊢
    rw [readValue_number hc, h1, Option.map_some, h2]
  | .float x, hp, t, h, rest, hr, n, hn => by
    obtain ⟨n, rfl⟩ : ∃ m, n = m + 1 := ⟨n - 1, by omega⟩
    rw [dumps] at h; cases h
    cases x with
    | fin q =>
      rw [Plain] at hp
      obtain ⟨c, r, e, hc⟩ := float_head hp
      obtain ⟨x, h1, h2⟩ := float_read hp hr
      simp only [floatstr]
      rw [e] at h1 ⊢
      rw [List.cons_append] at h1 ⊢
      rw [readValue_number hc, h1, Option.map_some, h2]
    | _ => simp [Plain] at hp
  | .str s, _, t, h, rest, _, n, hn => by
    obtain ⟨n, rfl⟩ : ∃ m, n = m + 1 := ⟨n - 1, by omega⟩
    rw [dumps] at h; cases h
    obtain ⟨t, e, ht⟩ := quote_read s rest
    rw [e, readValue, ht, Option.map_some]
  | .list [], _, t, h, rest, _, n, hn => by
    obtain ⟨n, rfl⟩ : ∃ m, n = m + 1 := ⟨n - 1, by omega⟩
    rw [dumps] at h; cases h
    rfl
  | .list (v :: l), hp, t, h, rest, _, n, hn => by
    rw [dumps] at h
    obtain ⟨a, ha, h⟩ := bind_ok h
    obtain ⟨b, hb, h⟩ := bind_ok h
    cases h
    simp only [List.length_cons, List.length_append] at hn
    obtain ⟨n, rfl⟩ : ∃ m, n = m + 2 := ⟨n - 2, by omega⟩
    rw [Plain, PlainItems] at hp
    obtain ⟨c, r, e, hc, hc', -⟩ := dumps_head hp.1 ha
    have hl : b ≠ [] := by
      rintro rfl
      cases l with
      | nil => rw [dumpsItems] at hb; cases hb
      | cons v l =>
        rw [dumpsItems] at hb
        obtain ⟨_, -, hb⟩ := bind_ok hb
        obtain ⟨_, -, hb⟩ := bind_ok hb
        cases hb
    have hl : 0 < b.length := List.length_pos_iff.2 hl
    have i1 := dumps_read v hp.1 a ha (b ++ rest) (delim_items hb rest) n (by omega)
    have i2 := dumpsItems_read l hp.2 b hb rest n (by omega) [v]
    have e1 : readValue (n + 2) ('[' :: (a ++ b) ++ rest) = readElements (n + 1) [] (a ++ (b ++ rest)) := by
      simp only [List.cons_append, List.append_assoc]
      rw [readValue]
      simp only [e, List.cons_append, skip_cons hc]
      split
      · next h' => exact absurd (by cases h'; rfl) hc'
      · rfl
    rw [e1, readElements_of i1]
    exact i2
  | .dict [], _, t, h, rest, _, n, hn => by
    obtain ⟨n, rfl⟩ : ∃ m, n = m + 1 := ⟨n - 1, by omega⟩
    rw [dumps] at h; cases h
    rfl
  | .dict ((k, v) :: d), hp, t, h, rest, _, n, hn => by
    rw [dumps] at h
    obtain ⟨a, ha, h⟩ := bind_ok h
    obtain ⟨b, hb, h⟩ := bind_ok h
    cases h
    simp only [List.length_cons, List.length_append] at hn
    obtain ⟨n, rfl⟩ : ∃ m, n = m + 2 := ⟨n - 2, by omega⟩
    rw [Plain, PlainPairs] at hp
    obtain ⟨c, r, e, hc, -, -⟩ := dumps_head hp.2.1 ha
    have i1 := dumps_read v hp.2.1 a ha (b ++ rest) (delim_pairs hb rest) n (by omega)
    have i2 := dumpsPairs_read d hp.2.2 b hb rest n (by omega) [(k, v)] (by simpa using hp.1)
    have e1 : readValue (n + 2) ('{' :: (quote k ++ c!": " ++ a ++ b) ++ rest) =
        readMembers (n + 1) [] (quote k ++ c!": " ++ (a ++ (b ++ rest))) := by
      rw [readValue.eq_def]
      simp only [List.cons_append, List.append_assoc, quote]
      rfl
    rw [e1, readMembers_of ⟨c, r ++ (b ++ rest), by rw [e]; rfl, hc⟩ i1]
    exact i2
  | .other _, hp, t, h, rest, _, n, hn => by simp [Plain] at hp
theorem dumpsItems_read {repr : Rat → Str} : ∀ (l : List Val) (_ : PlainItems repr l) (t : Str)
    (_ : dumpsItems repr l = .ok t) (rest : Str) (n : Nat) (_ : t.length ≤ n + 1) (acc : List Val),
    afterElement n acc (t ++ rest) = some (.list (acc ++ l), rest)
  | [], _, t, h, rest, n, hn, acc => by
    rw [dumpsItems] at h; cases h
    rw [List.append_nil]; rfl
  | v :: l, hp, t, h, rest, n, hn, acc => by
    rw [dumpsItems] at h
    obtain ⟨a, ha, h⟩ := bind_ok h
    obtain ⟨b, hb, h⟩ := bind_ok h
    cases h
    simp only [List.length_cons, List.length_append, List.length_nil] at hn
    rw [PlainItems] at hp
    obtain ⟨c, r, e, hc, -, -⟩ := dumps_head hp.1 ha
    have hl : b ≠ [] := by
      rintro rfl
      cases l with
      | nil => rw [dumpsItems] at hb; cases hb
      | cons v l =>
        rw [dumpsItems] at hb
        obtain ⟨_, -, hb⟩ := bind_ok hb
        obtain ⟨_, -, hb⟩ := bind_ok hb
        cases hb
    have hl : 0 < b.length := List.length_pos_iff.2 hl
    obtain ⟨n, rfl⟩ : ∃ m, n = m + 1 := ⟨n - 1, by omega⟩
    have i1 := dumps_read v hp.1 a ha (b ++ rest) (delim_items hb rest) n (by omega)
    have i2 := dumpsItems_read l hp.2 b hb rest n (by omega) (acc ++ [v])
    have e1 : afterElement (n + 1) acc (c!", " ++ a ++ b ++ rest) = readElements (n + 1) acc (a ++ (b ++ rest)) := by
      have : skip (' ' :: (a ++ (b ++ rest))) = a ++ (b ++ rest) := by
        rw [e]; exact skip_cons (s := r ++ (b ++ rest)) hc
      simp only [List.append_assoc, List.cons_append, List.nil_append]
      rw [afterElement]
      have h2 : skip (',' :: ' ' :: (a ++ (b ++ rest))) = ',' :: ' ' :: (a ++ (b ++ rest)) := rfl
      simp only [h2, this]
    rw [e1, readElements_of i1, i2, List.append_assoc]
    rfl
theorem dumpsPairs_read {repr : Rat → Str} : ∀ (l : List (Str × Val)) (_ : PlainPairs repr l) (t : Str)
    (_ : dumpsPairs repr l = .ok t) (rest : Str) (n : Nat) (_ : t.length ≤ n + 1) (acc : Dict Str Val)
    (_ : ((acc ++ l).map Prod.fst).Nodup), afterMember n acc (t ++ rest) = some (.dict (acc ++ l), rest)
  | [], _, t, h, rest, n, hn, acc, hd => by
    rw [dumpsPairs] at h; cases h
    rw [List.append_nil]; rfl
  | (k, v) :: l, hp, t, h, rest, n, hn, acc, hd => by
    rw [dumpsPairs] at h
    obtain ⟨a, ha, h⟩ := bind_ok h
    obtain ⟨b, hb, h⟩ := bind_ok h
    cases h
    simp only [List.length_cons, List.length_append, List.length_nil] at hn
    rw [PlainPairs] at hp
    obtain ⟨c, r, e, hc, -, -⟩ := dumps_head hp.1 ha
    obtain ⟨n, rfl⟩ : ∃ m, n = m + 1 := ⟨n - 1, by omega⟩
    have i1 := dumps_read v hp.1 a ha (b ++ rest) (delim_pairs hb rest) n (by omega)
    have hk : Dict.set acc k v = acc ++ [(k, v)] := by
      apply Dict.set_of_not_mem
      intro hm
      rw [List.map_append, List.nodup_append] at hd
      exact hd.2.2 k hm k (by simp) rfl
    have i2 := dumpsPairs_read l hp.2 b hb rest n (by omega) (acc ++ [(k, v)]) (by simpa using hd)
    have e1 : afterMember (n + 1) acc (c!", " ++ quote k ++ c!": " ++ a ++ b ++ rest) =
        readMembers (n + 1) acc (quote k ++ c!": " ++ (a ++ (b ++ rest))) := by
      simp only [List.append_assoc, List.cons_append, List.nil_append, quote]
      rfl
    rw [e1, readMembers_of ⟨c, r ++ (b ++ rest), by rw [e]; rfl, hc⟩ i1, hk, i2, List.append_assoc]
    rfl
end

/-- What `dumps` writes reads back. -/
theorem dumps_readJson {repr : Rat → Str} {v : Val} (hp : Plain repr v) {t : Str} (h : dumps repr v = .ok t) :
    readJson t = some v := by
  have := dumps_read v hp t h [] (.inl rfl) (t.length + 1) (by omega)
  rw [List.append_nil] at this
  obtain ⟨c, r, e, hc, -⟩ := dumps_head hp h
  rw [readJson, show skip t = t by rw [e]; exact skip_cons hc, this]
  rfl

/-! ## the characters of the text -/

/-- printable ASCII -/
def Printable (s : Str) : Prop := ∀ c ∈ s, 32 ≤ c.toNat ∧ c.toNat < 127

theorem Printable.append {a b : Str} (ha : Printable a) (hb : Printable b) : Printable (a ++ b) := by
  intro c hc
  rcases List.mem_append.1 hc with h | h
  · exact ha c h
  · exact hb c h

theorem Printable.cons {c : Char} {b : Str} (hc : 32 ≤ c.toNat ∧ c.toNat < 127) (hb : Printable b) : Printable (c :: b) := by
  intro d hd
  rcases List.mem_cons.1 hd with rfl | h
  · exact hc
  · exact hb d h

theorem printable_u4 (n : Nat) : Printable (u4 n) := by
  have hd : ∀ k : Fin 16, 32 ≤ (Nat.digitChar k.1).toNat ∧ (Nat.digitChar k.1).toNat < 127 := by decide
  have : ∀ w n, Printable (Uuid.hexPad w n) := by
    intro w
    induction w with
    | zero => intro n c hc; simp [Uuid.hexPad] at hc
    | succ w ih =>
      intro n
      rw [Uuid.hexPad]
      exact (ih _).append (.cons (hd ⟨n % 16, Nat.mod_lt _ (by omega)⟩) (fun c hc => by cases hc))
  exact .cons (by decide) (.cons (by decide) (this 4 n))

theorem printable_escChar (c : Char) : Printable (escChar c) := by
  unfold escChar
  split_ifs with h1 h2 h3 h4 h5 h6 h7 h8 h9
  all_goals first
    | exact printable_u4 _
    | exact (printable_u4 _).append (printable_u4 _)
    | (unfold Printable; decide)
    | skip
  refine .cons ?_ (fun c hc => by cases hc)
  have a : (32 : Nat) ≤ c.toNat := h8.1
  have b : c.toNat ≤ (126 : Nat) := h8.2
  omega

theorem printable_quote (s : Str) : Printable (quote s) := by
  refine .cons (by decide) (Printable.append ?_ (by unfold Printable; decide))
  intro c hc
  obtain ⟨d, -, h⟩ := List.mem_flatMap.1 hc
  exact printable_escChar d c h

theorem printable_digits {s : Str} (h : s.all isDigit = true) : Printable s := by
  intro c hc
  have := List.all_eq_true.1 h c hc
  simp only [isDigit, Bool.and_eq_true, decide_eq_true_eq] at this
  have a : (48 : Nat) ≤ c.toNat := this.1
  have b : c.toNat ≤ (57 : Nat) := this.2
  omega

theorem printable_float {s : Str} {q : Rat} (h : FloatText s q) : Printable s := by
  obtain ⟨x, h1, h2, h3, -, -, sign, letter, hs, hl, rfl⟩ := h
  have hl : letter = 'e' ∨ letter = 'E' := by simpa using hl
  have hl : 32 ≤ letter.toNat ∧ letter.toNat < 127 := by rcases hl with rfl | rfl <;> decide
  have hs : sign = c!"" ∨ sign = c!"+" := by simpa using hs
  have hs : Printable sign := by rcases hs with rfl | rfl <;> (unfold Printable; decide)
  refine Printable.append (Printable.append (Printable.append ?_ ?_) ?_) ?_
  · cases x.neg <;> (unfold Printable; decide)
  · exact printable_digits (isDigits_all (plainInt_digits h1)).1
  · cases hf : x.frac with
    | none => intro c hc; cases hc
    | some f => exact .cons (by decide) (printable_digits (isDigits_all (h2 f hf)).1)
  · rcases he : x.exp with _ | ⟨_ | _, e⟩
    · intro c hc; cases hc
    · exact .cons hl (hs.append (printable_digits (isDigits_all (h3 _ e he)).1))
    · exact .cons hl (.cons (by decide) (printable_digits (isDigits_all (h3 _ e he)).1))

theorem printable_int (n : Int) : Printable (intStr n) := by
  have := fun k => printable_digits (isDigits_all (natStr_digits k).1).1
  cases n with
  | ofNat k => exact this k
  | negSucc k => exact .cons (by decide) (this (k + 1))

mutual
theorem dumps_printable {repr : Rat → Str} : ∀ (v : Val) (_ : Plain repr v) (t : Str) (_ : dumps repr v = .ok t),
    Printable t
  | .none, _, t, h => by rw [dumps] at h; cases h; unfold Printable; decide
  | .bool b, _, t, h => by cases b <;> (rw [dumps] at h; cases h; unfold Printable; decide)
  | .int k, _, t, h => by rw [dumps] at h; cases h; exact printable_int k
  | .float (.fin q), hp, t, h => by rw [dumps] at h; cases h; exact printable_float (by simpa [Plain, floatstr] using hp)
  | .float .pinf, hp, t, h => by simp [Plain] at hp
  | .float .ninf, hp, t, h => by simp [Plain] at hp
  | .float .nan, hp, t, h => by simp [Plain] at hp
  | .str s, _, t, h => by rw [dumps] at h; cases h; exact printable_quote s
  | .list [], _, t, h => by rw [dumps] at h; cases h; unfold Printable; decide
  | .list (v :: l), hp, t, h => by
    rw [dumps] at h
    obtain ⟨a, ha, h⟩ := bind_ok h
    obtain ⟨b, hb, h⟩ := bind_ok h
    cases h
    rw [Plain, PlainItems] at hp
    exact .cons (by decide) ((dumps_printable v hp.1 a ha).append (dumpsItems_printable l hp.2 b hb))
  | .dict [], _, t, h => by rw [dumps] at h; cases h; unfold Printable; decide
  | .dict ((k, v) :: d), hp, t, h => by
    rw [dumps] at h
    obtain ⟨a, ha, h⟩ := bind_ok h
    obtain ⟨b, hb, h⟩ := bind_ok h
    cases h
    rw [Plain, PlainPairs] at hp
    exact .cons (by decide) (Printable.append (Printable.append (Printable.append (printable_quote k)
      (by unfold Printable; decide)) (dumps_printable v hp.2.1 a ha)) (dumpsPairs_printable d hp.2.2 b hb))
  | .other _, hp, t, h => by simp [Plain] at hp
theorem dumpsItems_printable {repr : Rat → Str} : ∀ (l : List Val) (_ : PlainItems repr l) (t : Str)
    (_ : dumpsItems repr l = .ok t), Printable t
  | [], _, t, h => by rw [dumpsItems] at h; cases h; unfold Printable; decide
  | v :: l, hp, t, h => by
    rw [dumpsItems] at h
    obtain ⟨a, ha, h⟩ := bind_ok h
    obtain ⟨b, hb, h⟩ := bind_ok h
    cases h
    rw [PlainItems] at hp
    exact Printable.append (Printable.append (by unfold Printable; decide) (dumps_printable v hp.1 a ha))
      (dumpsItems_printable l hp.2 b hb)
theorem dumpsPairs_printable {repr : Rat → Str} : ∀ (l : List (Str × Val)) (_ : PlainPairs repr l) (t : Str)
    (_ : dumpsPairs repr l = .ok t), Printable t
  | [], _, t, h => by rw [dumpsPairs] at h; cases h; unfold Printable; decide
  | (k, v) :: l, hp, t, h => by
    rw [dumpsPairs] at h
    obtain ⟨a, ha, h⟩ := bind_ok h
    obtain ⟨b, hb, h⟩ := bind_ok h
    cases h
    rw [PlainPairs] at hp
    exact Printable.append (Printable.append (Printable.append (Printable.append (by unfold Printable; decide)
      (printable_quote k)) (by unfold Printable; decide)) (dumps_printable v hp.1 a ha))
      (dumpsPairs_printable l hp.2 b hb)
end

mutual
/-- a plain value has a text -/
theorem dumps_ok {repr : Rat → Str} : ∀ (v : Val) (_ : Plain repr v), ∃ t, dumps repr v = .ok t
  | .none, _ => ⟨_, by rw [dumps]⟩
  | .bool true, _ => ⟨_, by rw [dumps]⟩
  | .bool false, _ => ⟨_, by rw [dumps]⟩
  | .int k, _ => ⟨_, by rw [dumps]⟩
  | .float x, hp => ⟨_, by rw [dumps]⟩
  | .str s, _ => ⟨_, by rw [dumps]⟩
  | .list [], _ => ⟨_, by rw [dumps]⟩
  | .list (v :: l), hp => by
    rw [Plain, PlainItems] at hp
    obtain ⟨a, ha⟩ := dumps_ok v hp.1
    obtain ⟨b, hb⟩ := dumpsItems_ok l hp.2
    exact ⟨'[' :: (a ++ b), by rw [dumps, ha, hb]; rfl⟩
  | .dict [], _ => ⟨_, by rw [dumps]⟩
  | .dict ((k, v) :: d), hp => by
    rw [Plain, PlainPairs] at hp
    obtain ⟨a, ha⟩ := dumps_ok v hp.2.1
    obtain ⟨b, hb⟩ := dumpsPairs_ok d hp.2.2
    exact ⟨'{' :: (quote k ++ c!": " ++ a ++ b), by rw [dumps, ha, hb]; rfl⟩
  | .other _, hp => by simp [Plain] at hp
theorem dumpsItems_ok {repr : Rat → Str} : ∀ (l : List Val) (_ : PlainItems repr l), ∃ t, dumpsItems repr l = .ok t
  | [], _ => ⟨_, by rw [dumpsItems]⟩
  | v :: l, hp => by
    rw [PlainItems] at hp
    obtain ⟨a, ha⟩ := dumps_ok v hp.1
    obtain ⟨b, hb⟩ := dumpsItems_ok l hp.2
    exact ⟨c!", " ++ a ++ b, by rw [dumpsItems, ha, hb]; rfl⟩
theorem dumpsPairs_ok {repr : Rat → Str} : ∀ (l : List (Str × Val)) (_ : PlainPairs repr l),
    ∃ t, dumpsPairs repr l = .ok t
  | [], _ => ⟨_, by rw [dumpsPairs]⟩
  | (k, v) :: d, hp => by
    rw [PlainPairs] at hp
    obtain ⟨a, ha⟩ := dumps_ok v hp.1
    obtain ⟨b, hb⟩ := dumpsPairs_ok d hp.2
    exact ⟨c!", " ++ quote k ++ c!": " ++ a ++ b, by rw [dumpsPairs, ha, hb]; rfl⟩
end

/-! ## NaN and infinities -/

mutual
theorem plain_of_almost {repr : Rat → Str} : ∀ v, Almost repr v → nonfinite v = false → Plain repr v
  | .none, _, _ => by simp [Plain]
  | .bool _, _, _ => by simp [Plain]
  | .int _, _, _ => by simp [Plain]
  | .str _, _, _ => by simp [Plain]
  | .float (.fin q), h, _ => by simpa [Plain, Almost] using h
  | .float .pinf, _, h => by simp [nonfinite] at h
  | .float .ninf, _, h => by simp [nonfinite] at h
  | .float .nan, _, h => by simp [nonfinite] at h
  | .other _, h, _ => by simp [Almost] at h
  | .list l, h, h' => by
    rw [Plain]; rw [Almost] at h; rw [nonfinite] at h'
    exact plainItems_of_almost l h h'
  | .dict d, h, h' => by
    rw [Plain]; rw [Almost] at h; rw [nonfinite] at h'
    exact ⟨h.1, plainPairs_of_almost d h.2 h'⟩
theorem plainItems_of_almost {repr : Rat → Str} : ∀ l, AlmostItems repr l → nonfiniteItems l = false → PlainItems repr l
  | [], _, _ => by simp [PlainItems]
  | v :: l, h, h' => by
    rw [PlainItems]; rw [AlmostItems] at h
    simp only [nonfiniteItems, Bool.or_eq_false_iff] at h'
    exact ⟨plain_of_almost v h.1 h'.1, plainItems_of_almost l h.2 h'.2⟩
theorem plainPairs_of_almost {repr : Rat → Str} : ∀ l, AlmostPairs repr l → nonfinitePairs l = false → PlainPairs repr l
  | [], _, _ => by simp [PlainPairs]
  | (k, v) :: l, h, h' => by
    rw [PlainPairs]; rw [AlmostPairs] at h
    simp only [nonfinitePairs, Bool.or_eq_false_iff] at h'
    exact ⟨plain_of_almost v h.1 h'.1, plainPairs_of_almost l h.2 h'.2⟩
end

theorem almost_head {repr : Rat → Str} {v : Val} {t : Str} (hp : Almost repr v) (h : dumps repr v = .ok t) :
    ∃ c r, t = c :: r ∧ isWs c = false ∧ c ≠ ']' ∧ c ≠ '}' := by
  cases hn : nonfinite v with
  | false => exact dumps_head (plain_of_almost v hp hn) h
  | true =>
    cases v with
    | float x =>
      rw [dumps] at h; cases h
      cases x with
      | fin q => simp [nonfinite] at hn
      | _ => exact ⟨_, _, rfl, by decide⟩
    | list l =>
      cases l with
      | nil => rw [dumps] at h; cases h; exact ⟨'[', _, rfl, by decide⟩
      | cons v l =>
        rw [dumps] at h
        obtain ⟨a, -, h⟩ := bind_ok h
        obtain ⟨b, -, h⟩ := bind_ok h
        cases h; exact ⟨'[', _, rfl, by decide⟩
    | dict d =>
      cases d with
      | nil => rw [dumps] at h; cases h; exact ⟨'{', _, rfl, by decide⟩
      | cons kv d =>
        obtain ⟨k, v⟩ := kv
        rw [dumps] at h
        obtain ⟨a, -, h⟩ := bind_ok h
        obtain ⟨b, -, h⟩ := bind_ok h
        cases h; exact ⟨'{', _, rfl, by decide⟩
    | _ => simp [nonfinite] at hn

theorem readElements_none {n : Nat} {acc : List Val} {s : Str} (h : readValue n s = none) :
    readElements (n + 1) acc s = none := by
  rw [readElements, h]

theorem readMembers_none {n : Nat} {d : Dict Str Val} {k a : Str} (hd : ∃ c r, a = c :: r ∧ isWs c = false)
    (h : readValue n a = none) : readMembers (n + 1) d (quote k ++ c!": " ++ a) = none := by
  obtain ⟨t, e, ht⟩ := quote_read k (c!": " ++ a)
  obtain ⟨c, r, rfl, hc⟩ := hd
  rw [List.append_assoc, e, readMembers]
  have h1 : skip (c!": " ++ c :: r) = ':' :: ' ' :: c :: r := rfl
  have h2 : skip (' ' :: c :: r) = c :: r := by
    rw [show skip (' ' :: c :: r) = skip (c :: r) from rfl, skip_cons hc]
  simp only [ht, h1, h2, h]

theorem readElements_zero {acc : List Val} {s : Str} : readElements 0 acc s = none := by rw [readElements]
theorem readMembers_zero {acc : Dict Str Val} {s : Str} : readMembers 0 acc s = none := by rw [readMembers]

/-- more fuel does not change a result -/
theorem read_mono : ∀ n,
    (∀ s x, readValue n s = some x → readValue (n + 1) s = some x) ∧
    (∀ acc s x, readElements n acc s = some x → readElements (n + 1) acc s = some x) ∧
    (∀ d s x, readMembers n d s = some x → readMembers (n + 1) d s = some x) := by
  intro n
  induction n with
  | zero => refine ⟨?_, ?_, ?_⟩ <;> · intros; simp_all [readValue, readElements, readMembers]
  | succ n ih =>
    obtain ⟨i1, i2, i3⟩ := ih
    refine ⟨?_, ?_, ?_⟩
    · intro s x h
      rw [readValue.eq_def] at h ⊢
      dsimp only at h ⊢
      split at h
      all_goals first | exact h | skip
      · split at h
        · exact h
        · exact i2 _ _ _ h
      · split at h
        · exact h
        · exact i3 _ _ _ h
    · intro acc s x h
      rw [readElements] at h ⊢
      cases hv : readValue n s with
      | none => rw [hv] at h; cases h
      | some y =>
        rw [hv] at h; rw [i1 _ _ hv]
        dsimp only at h ⊢
        split at h
        · exact h
        · exact i2 _ _ _ h
        · cases h
    · intro acc s x h
      rw [readMembers.eq_def] at h ⊢
      dsimp only at h ⊢
      split at h
      · split at h
        · cases h
        · split at h
          · next k s2 _ s3 _ =>
            cases hv : readValue n (skip s3) with
            | none => rw [hv] at h; cases h
            | some y =>
              rw [hv] at h; rw [i1 _ _ hv]
              dsimp only at h ⊢
              split at h
              · exact h
              · exact i3 _ _ _ h
              · cases h
          · cases h
      · cases h

theorem read_mono_le {n m : Nat} (h : n ≤ m) {s : Str} {x : Val × Str} (hx : readValue n s = some x) :
    readValue m s = some x := by
  induction h with
  | refl => exact hx
  | step _ ih => exact (read_mono _).1 _ _ ih

/-- reading with any fuel gives the value or nothing -/
theorem dumps_read_any {repr : Rat → Str} {v : Val} (hp : Plain repr v) {t : Str} (h : dumps repr v = .ok t) {rest : Str}
    (hr : Delim rest) (n : Nat) : readValue n (t ++ rest) = some (v, rest) ∨ readValue n (t ++ rest) = none := by
  cases hx : readValue n (t ++ rest) with
  | none => exact .inr rfl
  | some x =>
    have h1 := read_mono_le (Nat.le_max_left n (t.length + 1)) hx
    rw [dumps_read v hp t h rest hr _ (Nat.lt_of_lt_of_le (Nat.lt_succ_self _) (Nat.le_max_right _ _))] at h1
    exact .inl h1.symm

mutual
theorem dumps_nonfinite {repr : Rat → Str} : ∀ (v : Val) (_ : Almost repr v) (_ : nonfinite v = true) (t : Str)
    (_ : dumps repr v = .ok t) (rest : Str) (_ : Delim rest) (n : Nat), readValue n (t ++ rest) = none
  | .none, _, hn, _, _, _, _, _ => by simp [nonfinite] at hn
  | .bool _, _, hn, _, _, _, _, _ => by simp [nonfinite] at hn
  | .int _, _, hn, _, _, _, _, _ => by simp [nonfinite] at hn
  | .str _, _, hn, _, _, _, _, _ => by simp [nonfinite] at hn
  | .other _, _, hn, _, _, _, _, _ => by simp [nonfinite] at hn
  | .float (.fin _), _, hn, _, _, _, _, _ => by simp [nonfinite] at hn
  | .float .pinf, _, _, t, h, rest, _, n => by
    rw [dumps] at h; cases h
    cases n with
    | zero => simp [readValue]
    | succ n => simp [floatstr, readValue, readNumber, readMinus, plainInt, isDigits, isDigit]
  | .float .ninf, _, _, t, h, rest, _, n => by
    rw [dumps] at h; cases h
    cases n with
    | zero => simp [readValue]
    | succ n => simp [floatstr, readValue, readNumber, readMinus, plainInt, isDigits, isDigit]
  | .float .nan, _, _, t, h, rest, _, n => by
    rw [dumps] at h; cases h
    cases n with
    | zero => simp [readValue]
    | succ n => simp [floatstr, readValue, readNumber, readMinus, plainInt, isDigits, isDigit]
  | .list [], _, hn, _, _, _, _, _ => by simp [nonfinite, nonfiniteItems] at hn
  | .list (v :: l), hp, hn, t, h, rest, _, n => by
    rw [dumps] at h
    obtain ⟨a, ha, h⟩ := bind_ok h
    obtain ⟨b, hb, h⟩ := bind_ok h
    cases h
    rw [Almost, AlmostItems] at hp
    cases n with
    | zero => rw [readValue]
    | succ n =>
    obtain ⟨c, r, e, hc, hc', -⟩ := almost_head hp.1 ha
    have e1 : readValue (n + 1) ('[' :: (a ++ b) ++ rest) = readElements n [] (a ++ (b ++ rest)) := by
      simp only [List.cons_append, List.append_assoc]
      rw [readValue]
      simp only [e, List.cons_append, skip_cons hc]
      split
      · next h' => exact absurd (by cases h'; rfl) hc'
      · rfl
    rw [e1]
    cases n with
    | zero => exact readElements_zero
    | succ n =>
    cases hv : nonfinite v with
    | true => exact readElements_none (dumps_nonfinite v hp.1 hv a ha _ (delim_items hb rest) n)
    | false =>
      rcases dumps_read_any (plain_of_almost v hp.1 hv) ha (delim_items hb rest) n with i | i
      · rw [readElements_of i]
        refine dumpsItems_nonfinite l hp.2 ?_ b hb rest n _
        simpa [nonfinite, nonfiniteItems, hv] using hn
      · exact readElements_none i
  | .dict [], _, hn, _, _, _, _, _ => by simp [nonfinite, nonfinitePairs] at hn
  | .dict ((k, v) :: d), hp, hn, t, h, rest, _, n => by
    rw [dumps] at h
    obtain ⟨a, ha, h⟩ := bind_ok h
    obtain ⟨b, hb, h⟩ := bind_ok h
    cases h
    rw [Almost, AlmostPairs] at hp
    cases n with
    | zero => rw [readValue]
    | succ n =>
    obtain ⟨c, r, e, hc, hc', -⟩ := almost_head hp.2.1 ha
    have e1 : readValue (n + 1) ('{' :: (quote k ++ c!": " ++ a ++ b) ++ rest) =
        readMembers n [] (quote k ++ c!": " ++ (a ++ (b ++ rest))) := by
      rw [readValue.eq_def]
      simp only [List.cons_append, List.append_assoc, quote]
      rfl
    rw [e1]
    cases n with
    | zero => exact readMembers_zero
    | succ n =>
    have hhd : ∃ c' r', a ++ (b ++ rest) = c' :: r' ∧ isWs c' = false := ⟨c, r ++ (b ++ rest), by rw [e]; rfl, hc⟩
    cases hv : nonfinite v with
    | true => exact readMembers_none hhd (dumps_nonfinite v hp.2.1 hv a ha _ (delim_pairs hb rest) n)
    | false =>
      rcases dumps_read_any (plain_of_almost v hp.2.1 hv) ha (delim_pairs hb rest) n with i | i
      · rw [readMembers_of hhd i]
        refine dumpsPairs_nonfinite d hp.2.2 ?_ b hb rest n _
        simpa [nonfinite, nonfinitePairs, hv] using hn
      · exact readMembers_none hhd i
theorem dumpsItems_nonfinite {repr : Rat → Str} : ∀ (l : List Val) (_ : AlmostItems repr l) (_ : nonfiniteItems l = true)
    (t : Str) (_ : dumpsItems repr l = .ok t) (rest : Str) (n : Nat) (acc : List Val),
    afterElement n acc (t ++ rest) = none
  | [], _, hn, _, _, _, _, _ => by simp [nonfiniteItems] at hn
  | v :: l, hp, hn, t, h, rest, n, acc => by
    rw [dumpsItems] at h
    obtain ⟨a, ha, h⟩ := bind_ok h
    obtain ⟨b, hb, h⟩ := bind_ok h
    cases h
    rw [AlmostItems] at hp
    obtain ⟨c, r, e, hc, -, -⟩ := almost_head hp.1 ha
    have e1 : afterElement n acc (c!", " ++ a ++ b ++ rest) = readElements n acc (a ++ (b ++ rest)) := by
      have : skip (' ' :: (a ++ (b ++ rest))) = a ++ (b ++ rest) := by
        rw [e]; exact skip_cons (s := r ++ (b ++ rest)) hc
      simp only [List.append_assoc, List.cons_append, List.nil_append]
      rw [afterElement]
      have h2 : skip (',' :: ' ' :: (a ++ (b ++ rest))) = ',' :: ' ' :: (a ++ (b ++ rest)) := rfl
      simp only [h2, this]
    rw [e1]
    cases n with
    | zero => exact readElements_zero
    | succ n =>
    cases hv : nonfinite v with
    | true => exact readElements_none (dumps_nonfinite v hp.1 hv a ha _ (delim_items hb rest) n)
    | false =>
      rcases dumps_read_any (plain_of_almost v hp.1 hv) ha (delim_items hb rest) n with i | i
      · rw [readElements_of i]
        refine dumpsItems_nonfinite l hp.2 ?_ b hb rest n _
        simpa [nonfiniteItems, hv] using hn
      · exact readElements_none i
theorem dumpsPairs_nonfinite {repr : Rat → Str} : ∀ (l : List (Str × Val)) (_ : AlmostPairs repr l)
    (_ : nonfinitePairs l = true) (t : Str) (_ : dumpsPairs repr l = .ok t) (rest : Str) (n : Nat) (acc : Dict Str Val),
    afterMember n acc (t ++ rest) = none
  | [], _, hn, _, _, _, _, _ => by simp [nonfinitePairs] at hn
  | (k, v) :: l, hp, hn, t, h, rest, n, acc => by
    rw [dumpsPairs] at h
    obtain ⟨a, ha, h⟩ := bind_ok h
    obtain ⟨b, hb, h⟩ := bind_ok h
    cases h
    rw [AlmostPairs] at hp
    obtain ⟨c, r, e, hc, -, -⟩ := almost_head hp.1 ha
    have e1 : afterMember n acc (c!", " ++ quote k ++ c!": " ++ a ++ b ++ rest) =
        readMembers n acc (quote k ++ c!": " ++ (a ++ (b ++ rest))) := by
      simp only [List.append_assoc, List.cons_append, List.nil_append, quote]
      rfl
    rw [e1]
    cases n with
    | zero => exact readMembers_zero
    | succ n =>
    have hhd : ∃ c' r', a ++ (b ++ rest) = c' :: r' ∧ isWs c' = false := ⟨c, r ++ (b ++ rest), by rw [e]; rfl, hc⟩
    cases hv : nonfinite v with
    | true => exact readMembers_none hhd (dumps_nonfinite v hp.1 hv a ha _ (delim_pairs hb rest) n)
    | false =>
      rcases dumps_read_any (plain_of_almost v hp.1 hv) ha (delim_pairs hb rest) n with i | i
      · rw [readMembers_of hhd i]
        refine dumpsPairs_nonfinite l hp.2 ?_ b hb rest n _
        simpa [nonfinitePairs, hv] using hn
      · exact readMembers_none hhd i
end

theorem nonfinite_readJson {repr : Rat → Str} {v : Val} (hp : Almost repr v) (hn : nonfinite v = true) {t : Str}
    (h : dumps repr v = .ok t) : readJson t = none := by
  have := dumps_nonfinite v hp hn t h [] (.inl rfl) (t.length + 1)
  rw [List.append_nil] at this
  obtain ⟨c, r, e, hc, -⟩ := almost_head hp h
  rw [readJson, show skip t = t by rw [e]; exact skip_cons hc, this]

end Proofs.Json
