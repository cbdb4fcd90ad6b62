import Verif.Proofs.Number
/-! `int(s)` and `float(s)` read the numbers of JSON texts. -/

namespace Proofs.JsonNumber
open Py Spec.Json

/-- the text of a number -/
def Written (x : Number) (s : Str) : Prop :=
  plainInt x.int = true ∧ (∀ f, x.frac = some f → isDigits f = true) ∧ (∀ b e, x.exp = some (b, e) → isDigits e = true) ∧
    ∃ sign letter, sign ∈ [c!"", c!"+"] ∧ letter ∈ ['e', 'E'] ∧
      s = (if x.neg then c!"-" else []) ++ x.int ++ (match x.frac with
          | some f => '.' :: f
          | none => []) ++ (match x.exp with
          | some (true, e) => letter :: '-' :: e
          | some (false, e) => letter :: (sign ++ e)
          | none => [])

theorem frac_cases (s : Str) : readFrac s = (none, s) ∨ ∃ s', s = '.' :: s' ∧
    isDigits (s'.takeWhile Spec.Json.isDigit) = true ∧
    readFrac s = (some (s'.takeWhile Spec.Json.isDigit), s'.dropWhile Spec.Json.isDigit) := by
  unfold readFrac
  split
  · next s' =>
    by_cases h : isDigits (s'.takeWhile Spec.Json.isDigit) = true
    · rw [if_pos h]; exact .inr ⟨s', rfl, h, rfl⟩
    · rw [if_neg h]; exact .inl rfl
  · exact .inl rfl

theorem frac_text (s : Str) : s = (match (readFrac s).1 with
    | some f => '.' :: f
    | none => []) ++ (readFrac s).2 ∧ ∀ f, (readFrac s).1 = some f → isDigits f = true := by
  rcases frac_cases s with h | ⟨s', rfl, h, h'⟩
  · rw [h]; exact ⟨rfl, fun f hf => by cases hf⟩
  · rw [h']
    refine ⟨by simp [List.takeWhile_append_dropWhile], ?_⟩
    intro f hf; cases hf; exact h

theorem sign_cases (s : Str) : (∃ s', s = '-' :: s' ∧ readSign s = (true, s')) ∨
    ∃ sign s', sign ∈ [c!"", c!"+"] ∧ s = sign ++ s' ∧ readSign s = (false, s') := by
  unfold readSign
  split
  · exact .inl ⟨_, rfl, rfl⟩
  · exact .inr ⟨c!"+", _, by simp, rfl, rfl⟩
  · exact .inr ⟨[], _, by simp, rfl, rfl⟩

theorem exp_text (s : Str) : ∃ sign letter, sign ∈ [c!"", c!"+"] ∧ letter ∈ ['e', 'E'] ∧
    s = (match (readExp s).1 with
      | some (true, e) => letter :: '-' :: e
      | some (false, e) => letter :: (sign ++ e)
      | none => []) ++ (readExp s).2 ∧ ∀ b e, (readExp s).1 = some (b, e) → isDigits e = true := by
  by_cases hn : readExp s = (none, s)
  · rw [hn]
    exact ⟨[], 'e', by simp, by simp, rfl, fun b e h => by cases h⟩
  cases s with
  | nil => exact absurd rfl hn
  | cons c s' =>
    unfold readExp at hn ⊢
    by_cases hc : c = 'e' ∨ c = 'E'
    · simp only [if_pos hc] at hn ⊢
      have hl : c ∈ ['e', 'E'] := by rcases hc with rfl | rfl <;> simp
      rcases sign_cases s' with ⟨d, rfl, hs⟩ | ⟨sign, d, hm, rfl, hs⟩
      · rw [hs] at hn ⊢
        by_cases h : isDigits (d.takeWhile Spec.Json.isDigit) = true
        · simp only [h, if_true]
          refine ⟨[], c, by simp, hl, by simp, ?_⟩
          intro b e he; cases he; exact h
        · simp only [h] at hn; exact absurd rfl hn
      · rw [hs] at hn ⊢
        by_cases h : isDigits (d.takeWhile Spec.Json.isDigit) = true
        · simp only [h, if_true]
          refine ⟨sign, c, hm, hl, by simp, ?_⟩
          intro b e he; cases he; exact h
        · simp only [h] at hn; exact absurd rfl hn
    · simp only [if_neg hc] at hn; exact absurd trivial hn

theorem mem_takeWhile {p : Char → Bool} {s : Str} {c : Char} (h : c ∈ s.takeWhile p) : p c = true := by
  induction s with
  | nil => cases h
  | cons a s ih =>
    rw [List.takeWhile_cons] at h
    by_cases ha : p a = true
    · rw [if_pos ha] at h
      rcases List.mem_cons.1 h with rfl | h
      · exact ha
      · exact ih h
    · rw [if_neg ha] at h; cases h

theorem number_text {s r : Str} {x : Number} (h : readNumber s = some (x, r)) : ∃ t, Written x t ∧ s = t ++ r := by
  unfold readNumber at h
  simp only at h
  by_cases hp : plainInt ((readMinus s).2.takeWhile Spec.Json.isDigit) = true
  · rw [if_pos hp] at h
    obtain ⟨f1, f2⟩ := frac_text ((readMinus s).2.dropWhile Spec.Json.isDigit)
    obtain ⟨sign, letter, e1, e2, e3, e4⟩ := exp_text (readFrac ((readMinus s).2.dropWhile Spec.Json.isDigit)).2
    simp only [Option.some.injEq, Prod.mk.injEq] at h
    obtain ⟨rfl, rfl⟩ := h
    refine ⟨_, ⟨hp, f2, e4, sign, letter, e1, e2, rfl⟩, ?_⟩
    dsimp only
    rw [List.append_assoc, ← e3, List.append_assoc, ← f1, List.append_assoc, List.takeWhile_append_dropWhile]
    unfold readMinus
    split <;> simp
  · rw [if_neg hp] at h; cases h

theorem elements_list {n : Nat} : ∀ {l : List Val} {s r : Str} {v : Val}, readElements n l s = some (v, r) → ∃ m, v = .list m := by
  induction n with
  | zero => intro l s r v h; simp [readElements] at h
  | succ n ih =>
    intro l s r v h
    rw [readElements] at h
    split at h
    · cases h
    · split at h
      · cases h; exact ⟨_, rfl⟩
      · exact ih h
      · cases h

theorem members_dict {n : Nat} : ∀ {l : Dict Str Val} {s r : Str} {v : Val}, readMembers n l s = some (v, r) → ∃ m, v = .dict m := by
  induction n with
  | zero => intro l s r v h; simp [readMembers] at h
  | succ n ih =>
    intro l s r v h
    rw [readMembers.eq_def] at h
    dsimp only at h
    split at h
    · split at h
      · cases h
      · split at h
        · split at h
          · cases h
          · split at h
            · cases h; exact ⟨_, rfl⟩
            · exact ih h
            · cases h
        · cases h
    · cases h

/-- a number, whatever the spelling -/
def isNumber : Val → Prop
  | .int _ => True
  | .float _ => True
  | _ => False

theorem value_number {n : Nat} {s r : Str} {v : Val} (h : readValue n s = some (v, r)) (hv : isNumber v) :
    ∃ x, readNumber s = some (x, r) ∧ v = x.val := by
  cases n with
  | zero => simp [readValue] at h
  | succ n =>
    rw [readValue.eq_def] at h
    dsimp only at h
    split at h
    · cases hr : readString _ with
      | none => rw [hr] at h; cases h
      | some p => rw [hr] at h; cases h; cases hv
    · split at h
      · cases h; cases hv
      · obtain ⟨m, rfl⟩ := elements_list h; cases hv
    · split at h
      · cases h; cases hv
      · obtain ⟨m, rfl⟩ := members_dict h; cases hv
    · cases h; cases hv
    · cases h; cases hv
    · cases h; cases hv
    · cases hr : readNumber s with
      | none => rw [hr] at h; cases h
      | some p => rw [hr] at h; cases h; exact ⟨p.1, rfl, rfl⟩

theorem ws_space {c : Char} (h : isWs c = true) : Uuid.isSpace c = true := by
  simp only [isWs, Bool.or_eq_true, decide_eq_true_eq] at h
  rcases h with ((rfl | rfl) | rfl) | rfl <;> decide

theorem dropWhile_all {p : Char → Bool} {a b : Str} (ha : ∀ c ∈ a, p c = true) : (a ++ b).dropWhile p = b.dropWhile p := by
  induction a with
  | nil => rfl
  | cons c a ih =>
    rw [List.cons_append, List.dropWhile_cons, if_pos (ha c (by simp))]
    exact ih fun x hx => ha x (by simp [hx])

theorem dropWhile_none {p : Char → Bool} {b r : Str} (hb : b ≠ []) (h : ∀ c ∈ b, p c = false) : (b ++ r).dropWhile p = b ++ r := by
  cases b with
  | nil => exact absurd rfl hb
  | cons c b => rw [List.cons_append, List.dropWhile_cons, if_neg (by simp [h c])]

theorem strip_between {p : Char → Bool} {a b c : Str} (ha : ∀ x ∈ a, p x = true) (hc : ∀ x ∈ c, p x = true) (hb : b ≠ [])
    (h : ∀ x ∈ b, p x = false) : Uuid.stripBy p (a ++ (b ++ c)) = Uuid.stripBy p b := by
  rw [stripBy_id h]
  unfold Uuid.stripBy
  rw [dropWhile_all ha, dropWhile_none hb h, List.reverse_append, dropWhile_all (by simpa using hc)]
  have := dropWhile_none (p := p) (b := b.reverse) (r := []) (by simpa using hb) (by simpa using h)
  rw [List.append_nil] at this
  rw [this, List.reverse_reverse]

theorem written_chars {x : Number} {s : Str} (h : Written x s) : s ≠ [] ∧ ∀ c ∈ s, Uuid.isSpace c = false ∧ c ≠ '_' := by
  obtain ⟨neg, a, f, ex⟩ := x
  obtain ⟨h1, h2, h3, sign, letter, hs, hl, rfl⟩ := h
  have ha : isDigits a = true := by
    simp only [plainInt, Bool.and_eq_true] at h1
    exact h1.1
  have hdg : ∀ e : Str, isDigits e = true → ∀ y ∈ e, Uuid.isSpace y = false ∧ y ≠ '_' := fun e he y hy =>
    ⟨(digit_plain ((isDigits_iff.1 he).2 y hy)).1, (digit_plain ((isDigits_iff.1 he).2 y hy)).2.1⟩
  have hletter : Uuid.isSpace letter = false ∧ letter ≠ '_' := by
    have : letter = 'e' ∨ letter = 'E' := by simpa using hl
    rcases this with rfl | rfl <;> decide
  have hsign : ∀ y ∈ sign, Uuid.isSpace y = false ∧ y ≠ '_' := by
    have : sign = [] ∨ sign = ['+'] := by simpa using hs
    rcases this with rfl | rfl
    · intro y hy; cases hy
    · intro y hy; rw [List.mem_singleton] at hy; subst hy; decide
  refine ⟨by simp [(isDigits_iff.1 ha).1], fun y hy => ?_⟩
  dsimp only at h2 h3 hy
  rw [List.mem_append, List.mem_append, List.mem_append] at hy
  rcases hy with ((hy | hy) | hy) | hy
  · cases neg
    · cases hy
    · simp only [if_true, List.mem_singleton] at hy; subst hy; decide
  · exact hdg a ha y hy
  · cases f with
    | none => cases hy
    | some f =>
      rcases List.mem_cons.1 hy with rfl | hy
      · decide
      · exact hdg f (h2 f rfl) y hy
  · match ex with
    | none => cases hy
    | some (true, e) =>
      simp only [List.mem_cons] at hy
      rcases hy with rfl | rfl | hy
      · exact hletter
      · decide
      · exact hdg e (h3 _ _ rfl) y hy
    | some (false, e) =>
      simp only [List.mem_cons, List.mem_append] at hy
      rcases hy with rfl | hy | hy
      · exact hletter
      · exact hsign y hy
      · exact hdg e (h3 _ _ rfl) y hy

theorem json_number {t : Str} {v : Val} (h : readJson t = some v) (hv : isNumber v) :
    ∃ x b, Written x b ∧ v = x.val ∧ intOfText t = intOfText b ∧ floatOfText t = floatOfText b := by
  unfold readJson at h
  split at h
  · next u s hu =>
    by_cases hs : skip s = []
    · rw [if_pos hs] at h
      cases h
      obtain ⟨x, h1, h2⟩ := value_number hu hv
      obtain ⟨b, h3, h4⟩ := number_text h1
      obtain ⟨hb, hc⟩ := written_chars h3
      have ht : t = t.takeWhile isWs ++ (b ++ s) := by
        rw [← h4]; exact (List.takeWhile_append_dropWhile).symm
      have ha : ∀ c ∈ t.takeWhile isWs, Uuid.isSpace c = true := fun c hc => ws_space (mem_takeWhile hc)
      have hd : ∀ c ∈ s, Uuid.isSpace c = true := by
        intro c hc
        refine ws_space ?_
        have : s.takeWhile isWs = s := by
          have h := List.takeWhile_append_dropWhile (p := isWs) (l := s)
          rw [show s.dropWhile isWs = [] from hs, List.append_nil] at h
          exact h
        rw [← this] at hc
        exact mem_takeWhile hc
      have hstrip := strip_between ha hd hb fun c h => (hc c h).1
      refine ⟨x, b, h3, h2, ?_, ?_⟩
      · unfold intOfText; rw [ht, hstrip]
      · unfold floatOfText; rw [ht, hstrip]
    · rw [if_neg hs] at h; cases h
  · cases h

/-- `int` reads what JSON calls an integer -/
theorem int_json {t : Str} {n : Int} (h : readJson t = some (.int n)) : intOfText t = some n ∧ floatOfText t = some (.fin n) := by
  obtain ⟨⟨neg, a, f, ex⟩, b, hw, hv, h1, h2⟩ := json_number h trivial
  rw [h1, h2]
  obtain ⟨hsp, hch⟩ := written_chars hw
  obtain ⟨g1, g2, g3, sign, letter, hs, hl, rfl⟩ := hw
  have ha : isDigits a = true := by
    simp only [plainInt, Bool.and_eq_true] at g1
    exact g1.1
  unfold Number.val at hv
  dsimp only at hv
  split at hv
  · dsimp only at *
    cases hv
    constructor
    · unfold intOfText
      rw [stripBy_id fun y hy => (hch y hy).1, dropUnderscores_id fun hy => (hch _ hy).2 rfl, Option.bind_some]
      simp only [List.append_nil]
      cases neg
      · exact (intOf_digits ha).1
      · exact (intOf_digits ha).2.2
    · have := floatOfText_parts (neg := neg) (a := a) (f := none) (r := []) (z := 0) ha (fun x h => by cases h) rfl
        (by intro c r h; cases h) (by intro r h; cases h) (by intro y h; cases h)
      simp only [fracText, List.append_nil] at this ⊢
      rw [this]
      have h0 : scale (natVal (a ++ [])) (0 - (([] : Str).length : Int)) = (natVal a : Rat) := by
        rw [scale_eq]; simp
      simp only [Option.getD_none, List.append_nil] at h0 ⊢
      rw [h0]
      cases neg <;> simp
  · cases hv

/-- `float` reads what JSON calls a number -/
theorem float_json {t : Str} {r : Rat} (h : readJson t = some (.float (.fin r))) : floatOfText t = some (.fin r) := by
  obtain ⟨x, b, hw, hv, -, h2⟩ := json_number h trivial
  rw [h2]
  unfold Number.val at hv
  split at hv
  · cases hv
  · next hn =>
    cases hv
    obtain ⟨g1, g2, g3, sign, letter, hs, hl, rfl⟩ := hw
    exact floatOfText_floatText ⟨x, g1, g2, g3, fun h => hn h.1 h.2, rfl, sign, letter, hs, hl, rfl⟩

end Proofs.JsonNumber
