import Verif.Spec.Rfc6901
import Verif.Model.JsonPointer
import Verif.Proofs.Str
/-! # Lemmas for C01 -/

namespace Proofs.JsonPointer
open Py Utils Spec

theorem jp_escape_eq (s : Str) : jp_escape s = rfcEscape s := by
  unfold jp_escape
  rw [replace_single, replace_single]
  induction s with
  | nil => rfl
  | cons c s ih =>
    by_cases h1 : c = '~'
    · subst h1; simp [rfcEscape]; exact ih
    · by_cases h2 : c = '/'
      · subst h2; simp [rfcEscape]; exact ih
      · simp only [List.flatMap_cons, h1, if_false, List.flatMap_append]
        rw [ih]
        simp [rfcEscape, h2]

theorem slash_not_mem_escape (s : Str) : '/' ∉ rfcEscape s := by
  induction s using rfcEscape.induct with
  | case1 => simp [rfcEscape]
  | case2 s ih => simp [rfcEscape, ih]
  | case3 s ih => simp [rfcEscape, ih]
  | case4 c s h1 h2 ih =>
    rw [rfcEscape]
    · simp only [List.mem_cons, not_or]; exact ⟨fun e => h2 e.symm, ih⟩
    · exact h1
    · exact h2

/-- first decode pass as a one-pass function -/
def dec1 : Str → Str
  | [] => []
  | '~' :: '1' :: s => '/' :: dec1 s
  | c :: s => c :: dec1 s

def dec0 : Str → Str
  | [] => []
  | '~' :: '0' :: s => '~' :: dec0 s
  | c :: s => c :: dec0 s

theorem replace_dec1 (s : Str) : replace s ['~','1'] ['/'] = dec1 s := by
  unfold replace
  induction s using dec1.induct with
  | case1 => rfl
  | case2 s ih => simp [replaceGo, dec1, ih]
  | case3 c s h ih =>
    rw [dec1]
    · have : List.isPrefixOf ['~','1'] (c :: s) = false := by
        rw [Bool.eq_false_iff]; intro hp
        obtain ⟨t, ht⟩ := List.isPrefixOf_iff_prefix.1 hp
        simp at ht
        exact h t ht.1.symm ht.2.symm
      simp only [replaceGo, this]; simpa using ih
    · exact h

theorem replace_dec0 (s : Str) : replace s ['~','0'] ['~'] = dec0 s := by
  unfold replace
  induction s using dec0.induct with
  | case1 => rfl
  | case2 s ih => simp [replaceGo, dec0, ih]
  | case3 c s h ih =>
    rw [dec0]
    · have : List.isPrefixOf ['~','0'] (c :: s) = false := by
        rw [Bool.eq_false_iff]; intro hp
        obtain ⟨t, ht⟩ := List.isPrefixOf_iff_prefix.1 hp
        simp at ht
        exact h t ht.1.symm ht.2.symm
      simp only [replaceGo, this]; simpa using ih
    · exact h

/-- `dec1` keeps a leading '0' (so `~0` is not created or destroyed across the two passes). -/
theorem dec1_head (s : Str) (t : Str) : dec1 s = '0' :: t ↔ ∃ u, s = '0' :: u ∧ dec1 u = t := by
  match s with
  | [] => simp [dec1]
  | '~' :: '1' :: s => simp [dec1]
  | c :: s =>
    by_cases hc : c = '~'
    · subst hc
      cases s with
      | nil => simp [dec1]
      | cons d s =>
        by_cases hd : d = '1'
        · subst hd; simp [dec1]
        · rw [dec1]
          · simp
          · intro s' _ h; simp at h; exact hd h.1
    · rw [dec1]
      · constructor
        · intro h; simp at h; exact ⟨s, by simp [h.1], h.2⟩
        · rintro ⟨u, h, rfl⟩; simp at h; simp [h.1, h.2]
      · intro s' h; exact absurd h hc

theorem dec_eq (s : Str) : dec0 (dec1 s) = rfcUnescape s := by
  induction s using rfcUnescape.induct with
  | case1 => rfl
  | case2 s ih => simp [dec1, dec0, rfcUnescape, ih]
  | case3 s ih => simp [dec1, dec0, rfcUnescape, ih]
  | case4 c s h0 h1 ih =>
    rw [rfcUnescape]
    · rw [dec1]
      · rw [dec0]
        · rw [ih]
        · intro t hc ht
          obtain ⟨u, hu, _⟩ := (dec1_head s t).1 ht
          exact h0 u hc hu
      · exact h1
    · exact h0
    · exact h1

theorem jp_decode_eq (s : Str) : jp_decode s = rfcUnescape s := by
  unfold jp_decode; rw [replace_dec1, replace_dec0, dec_eq]

theorem unescape_escape (s : Str) : rfcUnescape (rfcEscape s) = s := by
  induction s using rfcEscape.induct with
  | case1 => rfl
  | case2 s ih => simp [rfcEscape, rfcUnescape, ih]
  | case3 s ih => simp [rfcEscape, rfcUnescape, ih]
  | case4 c s h1 h2 ih =>
    rw [rfcEscape]
    · rw [rfcUnescape]
      · rw [ih]
      · intro t hc; exact absurd hc h1
      · intro t hc; exact absurd hc h1
    · exact h1
    · exact h2

theorem escape_ne_nil {s : Str} (h : s ≠ []) : rfcEscape s ≠ [] := by
  intro e
  have := unescape_escape s
  rw [e] at this
  exact h this.symm

theorem split_tail (ts : List Str) (a : Str) :
    splitChar '/' (join ['/'] (a :: ts.map jp_escape)) =
      splitChar '/' a ++ ts.map rfcEscape := by
  induction ts generalizing a with
  | nil => simp [join]
  | cons t ts ih =>
    simp only [List.map_cons]
    rw [join_cons _ _ _ (by simp)]
    have e : a ++ ['/'] ++ join ['/'] (jp_escape t :: ts.map jp_escape)
        = a ++ '/' :: join ['/'] (jp_escape t :: ts.map jp_escape) := by simp
    rw [e, splitChar_append_sep, ih, jp_escape_eq,
      splitChar_of_not_mem (slash_not_mem_escape t)]
    simp

theorem map_decode_escape (ts : List Str) : (ts.map rfcEscape).map jp_decode = ts := by
  rw [List.map_map]
  conv => rhs; rw [← List.map_id ts]
  apply List.map_congr_left
  intro t _
  simp [jp_decode_eq, unescape_escape]

end Proofs.JsonPointer
