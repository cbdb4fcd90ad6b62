import Verif.Model.Iso8601
import Verif.Spec.Iso8601
/-! # Lemmas about `from_iso8601` -/

namespace Utils
open Py Spec.Iso

theorem reDigits_iff {n : Nat} {s a b : Str} :
    reDigits n s = some (a, b) ↔ s = a ++ b ∧ Digits n a := by
  induction n generalizing s a b with
  | zero =>
    simp only [reDigits, Option.some.injEq, Prod.mk.injEq, Digits]
    constructor
    · rintro ⟨rfl, rfl⟩; simp
    · rintro ⟨rfl, h, _⟩; rw [List.length_eq_zero_iff] at h; subst h; simp
  | succ n ih =>
    cases s with
    | nil =>
      simp only [reDigits, reduceCtorEq, false_iff, Digits]
      rintro ⟨h, h2, _⟩
      have : a = [] := (List.append_eq_nil_iff.1 h.symm).1
      subst this; simp at h2
    | cons c s =>
      simp only [reDigits]
      split
      · rename_i hc
        split
        · rename_i u v huv
          obtain ⟨h1, h2⟩ := ih.1 huv
          constructor
          · intro h
            simp only [Option.some.injEq, Prod.mk.injEq] at h
            obtain ⟨rfl, rfl⟩ := h
            refine ⟨by rw [h1]; rfl, by simp [h2.1], ?_⟩
            intro x hx
            simp only [List.mem_cons] at hx
            rcases hx with rfl | hx
            · exact hc
            · exact h2.2 x hx
          · rintro ⟨h3, h4, h5⟩
            cases a with
            | nil => simp at h4
            | cons d a =>
              simp only [List.cons_append, List.cons.injEq] at h3
              have : reDigits n s = some (a, b) :=
                ih.2 ⟨h3.2, by simpa using h4, fun x hx => h5 x (by simp [hx])⟩
              rw [huv] at this
              simp only [Option.some.injEq, Prod.mk.injEq] at this
              rw [this.1, this.2, h3.1]
        · rename_i hn
          simp only [reduceCtorEq, false_iff]
          rintro ⟨h3, h4, h5⟩
          cases a with
          | nil => simp at h4
          | cons d a =>
            simp only [List.cons_append, List.cons.injEq] at h3
            have : reDigits n s = some (a, b) :=
              ih.2 ⟨h3.2, by simpa using h4, fun x hx => h5 x (by simp [hx])⟩
            rw [hn] at this; cases this
      · rename_i hc
        simp only [reduceCtorEq, false_iff]
        rintro ⟨h3, h4, h5⟩
        cases a with
        | nil => simp at h4
        | cons d a =>
          simp only [List.cons_append, List.cons.injEq] at h3
          exact hc (by rw [h3.1]; exact h5 d (by simp))

theorem reDigitsUpTo_spec (n : Nat) (s : Str) :
    s = (reDigitsUpTo n s).1 ++ (reDigitsUpTo n s).2 ∧
    (∃ k ≤ n, Digits k (reDigitsUpTo n s).1) ∧
    ((reDigitsUpTo n s).1.length = n ∨ ∀ c t, (reDigitsUpTo n s).2 = c :: t → c.isDigit = false) := by
  induction n generalizing s with
  | zero => simp [reDigitsUpTo, Digits]
  | succ n ih =>
    cases s with
    | nil => simp [reDigitsUpTo, Digits]
    | cons c s =>
      simp only [reDigitsUpTo]
      split
      · rename_i hc
        obtain ⟨h1, ⟨k, hk, h2⟩, h3⟩ := ih s
        refine ⟨by simp only [List.cons_append]; rw [← h1], ⟨k + 1, by omega, by simp [h2.1], ?_⟩, ?_⟩
        · intro x hx
          simp only [List.mem_cons] at hx
          rcases hx with rfl | hx
          · exact hc
          · exact h2.2 x hx
        · rcases h3 with h3 | h3
          · left; simp [h3]
          · right; exact h3
      · rename_i hc
        refine ⟨by simp, ⟨0, by omega, by simp [Digits]⟩, Or.inr ?_⟩
        rintro d t h
        simp only [List.cons.injEq] at h
        rw [← h.1]; simpa using hc

/-- the greedy choice is the longest: any other choice leaves a digit -/
theorem reDigitsUpTo_max {n k : Nat} {s a b : Str} (hs : s = a ++ b) (hk : k ≤ n) (ha : Digits k a) :
    (reDigitsUpTo n s = (a, b)) ∨
      ((reDigitsUpTo n s).2.length < b.length ∧ ∃ c t, b = c :: t ∧ c.isDigit = true) := by
  induction n generalizing s a k with
  | zero =>
    have : a = [] := by have := ha.1; rw [← List.length_eq_zero_iff]; omega
    subst this; left; simp [reDigitsUpTo, hs]
  | succ n ih =>
    cases a with
    | nil =>
      simp at hs; subst hs
      cases s with
      | nil => left; simp [reDigitsUpTo]
      | cons c s =>
        by_cases hc : c.isDigit = true
        · right
          refine ⟨?_, c, s, rfl, hc⟩
          have := (reDigitsUpTo_spec n s).1
          have hl := congrArg List.length this
          simp only [reDigitsUpTo, hc, if_true, List.length_cons]
          rw [List.length_append] at hl; omega
        · left; simp [reDigitsUpTo, hc]
    | cons d a =>
      simp only [List.cons_append] at hs
      subst hs
      have hd : d.isDigit = true := ha.2 d (by simp)
      have ha' : Digits (k - 1) a := ⟨by have := ha.1; simp at this; omega, fun x hx => ha.2 x (by simp [hx])⟩
      have := ih (s := a ++ b) (a := a) (k := k - 1) rfl (by omega) ha'
      simp only [reDigitsUpTo, hd, if_true]
      rcases this with h | h
      · left; rw [h]
      · right; exact h

/-! ## A parser for the documented texts -/

def pFrac (s : Str) : Option Str × Str := isoFraction s

/-- seconds with fraction -/
def pSec (s : Str) : Option (Str × Option Str) × Str :=
  match s with
  | ':' :: s' =>
    match reDigitsUpTo 2 s' with
    | ([], _) => (none, s)
    | (sec, rest) => (some (sec, (isoFraction rest).1), (isoFraction rest).2)
  | _ => (none, s)

def pTz (s : Str) : Option Tz × Str :=
  match s with
  | 'Z' :: s' => (some .utc, s')
  | c :: s' =>
    if c = '+' ∨ c = '-' then
      match reDigits 2 s' with
      | some (hh, ':' :: s2) =>
        match reDigits 2 s2 with
        | some (mm, rest) => (some (if c = '+' then .plus hh mm else .minus hh mm), rest)
        | none => (none, s)
      | _ => (none, s)
    else (none, s)
  | [] => (none, [])

def pTime (s : Str) : Option (TimeText × Str) := do
  let s ← reChar 'T' s
  let (h, s) ← reDigits 2 s
  let s ← reChar ':' s
  let (mi, s) ← reDigits 2 s
  some (⟨h, mi, (pSec s).1, (pTz (pSec s).2).1⟩, (pTz (pSec s).2).2)

def pText (s : Str) : Option (Text × Str) :=
  match isoDateMatch s with
  | none => none
  | some (g, s) =>
    match pTime s with
    | none => some (⟨g.year, g.month, g.day, none⟩, s)
    | some (t, s) => some (⟨g.year, g.month, g.day, some t⟩, s)

theorem reChar_iff {c : Char} {s t : Str} : reChar c s = some t ↔ s = c :: t := by
  cases s with
  | nil => simp [reChar]
  | cons x s =>
    simp only [reChar]
    by_cases h : x = c
    · subst h; simp
    · simp [h]

theorem isoDateMatch_iff {s rest : Str} {g : IsoGroups} :
    isoDateMatch s = some (g, rest) ↔
      ∃ y m d, s = y ++ '-' :: (m ++ '-' :: (d ++ rest)) ∧ Digits 4 y ∧ Digits 2 m ∧ Digits 2 d ∧
        g = { year := y, month := m, day := d } := by
  constructor
  · intro h
    simp only [isoDateMatch, bind, Option.bind_eq_some_iff, Prod.exists, Option.some.injEq,
      Prod.mk.injEq] at h
    obtain ⟨y, s1, h1, s2, h2, m, s3, h3, s4, h4, d, s5, h5, rfl, rfl⟩ := h
    rw [reDigits_iff] at h1 h3 h5
    rw [reChar_iff] at h2 h4
    refine ⟨y, m, d, ?_, h1.2, h3.2, h5.2, rfl⟩
    rw [h1.1, h2, h3.1, h4, h5.1]
  · rintro ⟨y, m, d, rfl, h1, h2, h3, rfl⟩
    simp only [isoDateMatch, bind, Option.bind_eq_some_iff, Prod.exists, Option.some.injEq,
      Prod.mk.injEq]
    exact ⟨y, _, reDigits_iff.2 ⟨rfl, h1⟩, _, reChar_iff.2 rfl, m, _, reDigits_iff.2 ⟨rfl, h2⟩, _,
      reChar_iff.2 rfl, d, _, reDigits_iff.2 ⟨rfl, h3⟩, rfl, rfl⟩

theorem isoFraction_sound (s : Str) : s = renderFrac (isoFraction s).1 ++ (isoFraction s).2 ∧
    ∀ f, (isoFraction s).1 = some f → ∃ k, 1 ≤ k ∧ k ≤ 6 ∧ Digits k f := by
  unfold isoFraction
  split
  · rename_i s'
    have := reDigitsUpTo_spec 6 s'
    split
    · simp [renderFrac]
    · rename_i f rest hne heq
      rw [heq] at this
      obtain ⟨h1, ⟨k, hk, h2⟩, _⟩ := this
      refine ⟨by simp only [renderFrac, List.cons_append]; rw [← h1], ?_⟩
      intro f' hf'
      simp only [Option.some.injEq] at hf'
      subst hf'
      refine ⟨k, ?_, hk, h2⟩
      have := h2.1
      cases f with
      | nil => exact (hne rfl).elim
      | cons c f => simp at this; omega
  · simp [renderFrac]


/-- fraction: the parser's choice is the longest -/
theorem isoFraction_max {s u : Str} {f : Option Str} (hs : s = renderFrac f ++ u)
    (hf : ∀ f', f = some f' → ∃ k, 1 ≤ k ∧ k ≤ 6 ∧ Digits k f') :
    isoFraction s = (f, u) ∨ ((isoFraction s).2.length < u.length ∧
      ∃ c t, u = c :: t ∧ (c.isDigit = true ∨ c = '.')) := by
  cases f with
  | none =>
    simp [renderFrac] at hs; subst hs
    unfold isoFraction
    split
    · rename_i s'
      have := reDigitsUpTo_spec 6 s'
      split
      · left; rfl
      · rename_i f rest hne heq
        right
        rw [heq] at this
        have hl := congrArg List.length this.1
        simp only [List.length_append] at hl
        refine ⟨by simp; omega, '.', s', rfl, Or.inr rfl⟩
    · left; rfl
  | some f =>
    obtain ⟨k, hk1, hk2, hd⟩ := hf f rfl
    simp only [renderFrac, List.cons_append] at hs
    subst hs
    simp only [isoFraction]
    have hne : f ≠ [] := by rintro rfl; have := hd.1; simp at this; omega
    rcases reDigitsUpTo_max (s := f ++ u) rfl hk2 hd with h | ⟨h, c, t, h1, h2⟩
    · rw [h]; left
      cases f with
      | nil => exact absurd rfl hne
      | cons x f => rfl
    · right
      have hsp := (reDigitsUpTo_spec 6 (f ++ u)).1
      cases hr : reDigitsUpTo 6 (f ++ u) with
      | mk a b =>
        rw [hr] at h hsp
        cases a with
        | nil =>
          simp only [List.nil_append] at hsp
          simp only at h
          rw [← hsp] at h; simp at h; omega
        | cons x a => exact ⟨h, c, t, h1, Or.inl h2⟩

theorem pSec_sound (s : Str) : s = renderSec (pSec s).1 ++ (pSec s).2 ∧
    ∀ sec f, (pSec s).1 = some (sec, f) → (Digits 1 sec ∨ Digits 2 sec) ∧
      ∀ f', f = some f' → ∃ k, 1 ≤ k ∧ k ≤ 6 ∧ Digits k f' := by
  unfold pSec
  split
  · rename_i s'
    have := reDigitsUpTo_spec 2 s'
    split
    · simp [renderSec]
    · rename_i sec rest hne heq
      rw [heq] at this
      obtain ⟨h1, ⟨k, hk, h2⟩, _⟩ := this
      have hfr := isoFraction_sound rest
      refine ⟨?_, ?_⟩
      · simp only [renderSec, List.cons_append, List.append_assoc]
        rw [← hfr.1, ← h1]
      · intro a b hab
        simp only [Option.some.injEq, Prod.mk.injEq] at hab
        obtain ⟨rfl, rfl⟩ := hab
        refine ⟨?_, hfr.2⟩
        have h3 := h2.1
        have : k = 1 ∨ k = 2 := by
          cases sec with
          | nil => exact (hne rfl).elim
          | cons c f => simp at h3; omega
        rcases this with rfl | rfl
        · exact Or.inl h2
        · exact Or.inr h2
  · simp [renderSec]

theorem pSec_max {s u : Str} {o : Option (Str × Option Str)} (hs : s = renderSec o ++ u)
    (ho : ∀ sec f, o = some (sec, f) → (Digits 1 sec ∨ Digits 2 sec) ∧
      ∀ f', f = some f' → ∃ k, 1 ≤ k ∧ k ≤ 6 ∧ Digits k f') :
    pSec s = (o, u) ∨ ((pSec s).2.length < u.length ∧
      ∃ c t, u = c :: t ∧ (c.isDigit = true ∨ c = '.' ∨ c = ':')) := by
  cases o with
  | none =>
    simp [renderSec] at hs; subst hs
    unfold pSec
    split
    · rename_i s'
      have := reDigitsUpTo_spec 2 s'
      split
      · left; rfl
      · rename_i f rest hne heq
        right
        rw [heq] at this
        have hl := congrArg List.length this.1
        have hl2 := congrArg List.length (isoFraction_sound rest).1
        simp only [List.length_append] at hl hl2
        refine ⟨by simp; omega, ':', s', rfl, Or.inr (Or.inr rfl)⟩
    · left; rfl
  | some p =>
    obtain ⟨sec, f⟩ := p
    obtain ⟨hsec, hf⟩ := ho sec f rfl
    simp only [renderSec, List.cons_append, List.append_assoc] at hs
    subst hs
    simp only [pSec]
    have hk : ∃ k, k ≤ 2 ∧ 1 ≤ k ∧ Digits k sec := by
      rcases hsec with h | h
      · exact ⟨1, by omega, by omega, h⟩
      · exact ⟨2, by omega, by omega, h⟩
    obtain ⟨k, hk1, hk2, hd⟩ := hk
    have hne : sec ≠ [] := by rintro rfl; have := hd.1; simp at this; omega
    rcases reDigitsUpTo_max (s := sec ++ (renderFrac f ++ u)) rfl hk1 hd with h | ⟨h, c, t, h1, h2⟩
    · rw [h]
      cases sec with
      | nil => exact absurd rfl hne
      | cons x sec =>
        simp only
        rcases isoFraction_max (s := renderFrac f ++ u) rfl hf with h' | ⟨h', c, t, h1, h2⟩
        · left; rw [h']
        · right; exact ⟨h', c, t, h1, by rcases h2 with h | h <;> simp [h]⟩
    · -- a digit follows: there is no fraction
      cases f with
      | some f' =>
        simp only [renderFrac, List.cons_append, List.cons.injEq] at h1
        rw [← h1.1] at h2
        exact absurd h2 (by decide)
      | none =>
        simp only [renderFrac, List.nil_append] at h h1 ⊢
        right
        have hsp := (reDigitsUpTo_spec 2 (sec ++ u)).1
        cases hr : reDigitsUpTo 2 (sec ++ u) with
        | mk a b =>
          rw [hr] at h hsp
          cases a with
          | nil =>
            simp only [List.nil_append] at hsp
            simp only at h
            rw [← hsp] at h; simp at h; omega
          | cons x a =>
            have hl2 := congrArg List.length (isoFraction_sound b).1
            simp only [List.length_append] at hl2
            simp only at h ⊢
            exact ⟨by omega, c, t, h1, Or.inl h2⟩

theorem pTz_sound (s : Str) : s = renderTz (pTz s).1 ++ (pTz s).2 ∧ ∀ z, (pTz s).1 = some z → z.WF := by
  unfold pTz
  split
  · simp [renderTz, Tz.render, Tz.WF]
  · rename_i c s' _
    split
    · rename_i hc
      split
      · rename_i hh s2 hr
        obtain ⟨h1, h2⟩ := reDigits_iff.1 hr
        split
        · rename_i mm rest hr2
          obtain ⟨h3, h4⟩ := reDigits_iff.1 hr2
          rcases hc with rfl | rfl
          · simp only [if_true, renderTz, Tz.render, Option.some.injEq]
            exact ⟨by rw [h1, h3]; simp, by rintro z rfl; exact ⟨h2, h4⟩⟩
          · simp only [Char.reduceEq, if_false, renderTz, Tz.render, Option.some.injEq]
            exact ⟨by rw [h1, h3]; simp, by rintro z rfl; exact ⟨h2, h4⟩⟩
        · simp [renderTz]
      · simp [renderTz]
    · simp [renderTz]
  · simp [renderTz]

theorem pTz_max {s u : Str} {o : Option Tz} (hs : s = renderTz o ++ u) (ho : ∀ z, o = some z → z.WF) :
    pTz s = (o, u) ∨ (pTz s).2.length < u.length := by
  cases o with
  | none =>
    simp [renderTz] at hs; subst hs
    have hl := congrArg List.length (pTz_sound s).1
    cases hp : pTz s with
    | mk a b =>
      rw [hp] at hl
      cases a with
      | none => have := (pTz_sound s).1; rw [hp] at this; simp [renderTz] at this; left; rw [this]
      | some z =>
        right
        have : 0 < (renderTz (some z)).length := by cases z <;> simp [renderTz, Tz.render]
        simp only [List.length_append] at hl
        simp only; omega
  | some z =>
    left
    have hz := ho z rfl
    cases z with
    | utc => simp only [renderTz, Tz.render, List.cons_append, List.nil_append] at hs; subst hs; rfl
    | plus hh mm =>
      simp only [renderTz, Tz.render, List.cons_append, List.append_assoc] at hs
      subst hs
      have h1 : reDigits 2 (hh ++ ':' :: (mm ++ u)) = some (hh, ':' :: (mm ++ u)) := reDigits_iff.2 ⟨rfl, hz.1⟩
      have h2 : reDigits 2 (mm ++ u) = some (mm, u) := reDigits_iff.2 ⟨rfl, hz.2⟩
      simp [pTz, h1, h2]
    | minus hh mm =>
      simp only [renderTz, Tz.render, List.cons_append, List.append_assoc] at hs
      subst hs
      have h1 : reDigits 2 (hh ++ ':' :: (mm ++ u)) = some (hh, ':' :: (mm ++ u)) := reDigits_iff.2 ⟨rfl, hz.1⟩
      have h2 : reDigits 2 (mm ++ u) = some (mm, u) := reDigits_iff.2 ⟨rfl, hz.2⟩
      simp [pTz, h1, h2]

theorem pTime_sound {s r : Str} {t : TimeText} (h : pTime s = some (t, r)) :
    s = 'T' :: t.render ++ r ∧ t.WF := by
  simp only [pTime, bind, Option.bind_eq_some_iff, Prod.exists, Option.some.injEq, Prod.mk.injEq] at h
  obtain ⟨s1, h1, h, s2, h2, s3, h3, mi, s4, h4, rfl, rfl⟩ := h
  rw [reChar_iff] at h1 h3
  rw [reDigits_iff] at h2 h4
  have hsec := pSec_sound s4
  have htz := pTz_sound (pSec s4).2
  refine ⟨?_, h2.2, h4.2, hsec.2, htz.2⟩
  rw [h1, h2.1, h3, h4.1]
  simp only [TimeText.render, List.cons_append, List.append_assoc]
  rw [← htz.1, ← hsec.1]

theorem pTime_max {s u : Str} {t : TimeText} (hs : s = 'T' :: t.render ++ u) (ht : t.WF) :
    ∃ t' r, pTime s = some (t', r) ∧ ((t' = t ∧ r = u) ∨ r.length < u.length) := by
  obtain ⟨hour, minute, sec, tz⟩ := t
  obtain ⟨h1, h2, h3, h4⟩ := ht
  simp only [TimeText.render, List.cons_append, List.append_assoc] at hs
  simp only at h1 h2 h3 h4
  have e1 : reDigits 2 (hour ++ ':' :: (minute ++ (renderSec sec ++ (renderTz tz ++ u)))) =
    some (hour, ':' :: (minute ++ (renderSec sec ++ (renderTz tz ++ u)))) := reDigits_iff.2 ⟨rfl, h1⟩
  have e2 : reDigits 2 (minute ++ (renderSec sec ++ (renderTz tz ++ u))) =
    some (minute, renderSec sec ++ (renderTz tz ++ u)) := reDigits_iff.2 ⟨rfl, h2⟩
  generalize hw : renderSec sec ++ (renderTz tz ++ u) = w at e1 e2 hs
  refine ⟨⟨hour, minute, (pSec w).1, (pTz (pSec w).2).1⟩, (pTz (pSec w).2).2, ?_, ?_⟩
  · subst hs
    simp [pTime, bind, reChar, e1, e2]
  · rcases pSec_max hw.symm h3 with h | ⟨h, c, t, hc, hd⟩
    · rw [h]
      rcases pTz_max (s := renderTz tz ++ u) rfl h4 with h' | h'
      · left; simp only [h', and_self]
      · right; simpa using h'
    · right
      have hnone : tz = none := by
        cases tz with
        | none => rfl
        | some z =>
          exfalso
          cases z <;> simp only [renderTz, Tz.render, List.cons_append, List.nil_append, List.cons.injEq] at hc <;>
            rw [← hc.1] at hd <;> revert hd <;> decide
      subst hnone
      simp only [renderTz, List.nil_append] at h
      have hl := congrArg List.length (pTz_sound (pSec w).2).1
      simp only [List.length_append] at hl
      omega

theorem pText_sound {s r : Str} {t : Text} (h : pText s = some (t, r)) : s = t.render ++ r ∧ t.WF := by
  unfold pText at h
  split at h
  · cases h
  · rename_i g s1 hg
    obtain ⟨y, m, d, hs, hy, hm, hd, rfl⟩ := isoDateMatch_iff.1 hg
    split at h
    · simp only [Option.some.injEq, Prod.mk.injEq] at h
      obtain ⟨rfl, rfl⟩ := h
      exact ⟨by rw [hs]; simp [Text.render, renderTime], hy, hm, hd, by simp⟩
    · rename_i tt s2 ht
      obtain ⟨h1, h2⟩ := pTime_sound ht
      simp only [Option.some.injEq, Prod.mk.injEq] at h
      obtain ⟨rfl, rfl⟩ := h
      exact ⟨by rw [hs, h1]; simp [Text.render, renderTime], hy, hm, hd, by rintro x hx; simp at hx; rw [← hx]; exact h2⟩

theorem pText_max {s u : Str} {t : Text} (hs : s = t.render ++ u) (ht : t.WF) :
    ∃ t' r, pText s = some (t', r) ∧ ((t' = t ∧ r = u) ∨ r.length < u.length) := by
  obtain ⟨y, m, d, time⟩ := t
  obtain ⟨h1, h2, h3, h4⟩ := ht
  simp only [Text.render, List.cons_append, List.append_assoc] at hs
  simp only at h1 h2 h3 h4
  have hd : isoDateMatch s = some ({ year := y, month := m, day := d }, renderTime time ++ u) :=
    isoDateMatch_iff.2 ⟨y, m, d, hs, h1, h2, h3, rfl⟩
  simp only [pText, hd]
  cases time with
  | none =>
    simp only [renderTime, List.nil_append]
    cases hp : pTime u with
    | none => exact ⟨_, _, rfl, Or.inl ⟨rfl, rfl⟩⟩
    | some p =>
      obtain ⟨t', r⟩ := p
      refine ⟨_, _, rfl, Or.inr ?_⟩
      have hl := congrArg List.length (pTime_sound hp).1
      simp only [List.cons_append, List.length_cons, List.length_append] at hl
      omega
  | some t =>
    obtain ⟨t', r, hp, hor⟩ := pTime_max (s := renderTime (some t) ++ u) rfl (h4 t rfl)
    rw [hp]
    refine ⟨_, _, rfl, ?_⟩
    rcases hor with ⟨rfl, rfl⟩ | h
    · left; exact ⟨rfl, rfl⟩
    · exact Or.inr h

/-- The parser returns the longest text. -/
theorem pText_longest {s : Str} {t : Text} (h : Longest s t) : ∃ r, pText s = some (t, r) := by
  obtain ⟨hwf, ⟨u, hu⟩, hmax⟩ := h
  obtain ⟨t', r, hp, hor⟩ := pText_max hu.symm hwf
  rcases hor with ⟨rfl, rfl⟩ | hlt
  · exact ⟨r, hp⟩
  · exfalso
    obtain ⟨h1, h2⟩ := pText_sound hp
    have := hmax t' h2 ⟨r, h1.symm⟩
    have e1 := congrArg List.length h1
    have e2 := congrArg List.length hu
    simp only [List.length_append] at e1 e2
    omega

theorem pText_isLongest {s r : Str} {t : Text} (h : pText s = some (t, r)) : Longest s t := by
  obtain ⟨h1, h2⟩ := pText_sound h
  refine ⟨h2, ⟨r, h1.symm⟩, ?_⟩
  rintro t' hwf ⟨u, hu⟩
  obtain ⟨t2, r2, hp, hor⟩ := pText_max hu.symm hwf
  rw [h] at hp
  simp only [Option.some.injEq, Prod.mk.injEq] at hp
  obtain ⟨rfl, rfl⟩ := hp
  rcases hor with ⟨rfl, rfl⟩ | hlt
  · omega
  · have e1 := congrArg List.length h1
    have e2 := congrArg List.length hu
    simp only [List.length_append] at e1 e2
    omega

theorem pText_none {s : Str} : pText s = none ↔ ¬ ∃ t : Text, t.WF ∧ t.render <+: s := by
  constructor
  · rintro h ⟨t, hwf, u, hu⟩
    obtain ⟨t', r, hp, _⟩ := pText_max hu.symm hwf
    rw [h] at hp; cases hp
  · intro h
    cases hp : pText s with
    | none => rfl
    | some p =>
      obtain ⟨h1, h2⟩ := pText_sound hp
      exact absurd ⟨p.1, h2, p.2, h1.symm⟩ h

end Utils
