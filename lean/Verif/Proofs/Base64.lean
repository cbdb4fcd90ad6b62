import Verif.Py.Base64
import Verif.Spec.Base64
/-! # base64 decoding inverts encoding -/

namespace Py
open Spec

theorem b64Val_b64Char (u : Bool) {n : Nat} (h : n < 64) : b64Val u (b64Char u n) = some n := by
  have : ∀ u : Bool, ∀ n : Fin 64, b64Val u (b64Char u n.val) = some n.val := by decide +kernel
  exact this u ⟨n, h⟩

theorem b64Char_ne_pad (u : Bool) {n : Nat} (h : n < 64) : b64Char u n ≠ '=' := by
  have : ∀ u : Bool, ∀ n : Fin 64, b64Char u n.val ≠ '=' := by decide +kernel
  exact this u ⟨n, h⟩

theorem b64decode_b64encode (u : Bool) (b : Bytes) : b64decode u (b64encode u b) = some b := by
  fun_induction b64encode u b with
  | case1 => rfl
  | case2 a =>
    have ha := a.toNat_lt
    rw [b64decode, b64Val_b64Char u (by omega), b64Val_b64Char u (by omega)]
    have : (a.toNat / 4 * 64 + a.toNat % 4 * 16) / 16 = a.toNat := by omega
    simp [this]
  | case3 a b =>
    have ha := a.toNat_lt
    have hb := b.toNat_lt
    rw [b64decode, b64Val_b64Char u (by omega), b64Val_b64Char u (by omega), b64Val_b64Char u (by omega)]
    · have h1 : ((a.toNat / 4 * 64 + (a.toNat % 4 * 16 + b.toNat / 16)) * 64 + b.toNat % 16 * 4) / 1024 = a.toNat := by omega
      have h2 : ((a.toNat / 4 * 64 + (a.toNat % 4 * 16 + b.toNat / 16)) * 64 + b.toNat % 16 * 4) / 4 % 256 = b.toNat := by omega
      simp [h1, h2]
    · exact b64Char_ne_pad u (by omega)
  | case4 a b c rest ih =>
    have ha := a.toNat_lt
    have hb := b.toNat_lt
    have hc := c.toNat_lt
    rw [b64decode, b64Val_b64Char u (by omega), b64Val_b64Char u (by omega), b64Val_b64Char u (by omega), b64Val_b64Char u (by omega), ih]
    · have h1 : (((a.toNat / 4 * 64 + (a.toNat % 4 * 16 + b.toNat / 16)) * 64 + (b.toNat % 16 * 4 + c.toNat / 64)) * 64 + c.toNat % 64) / 65536 = a.toNat := by omega
      have h2 : (((a.toNat / 4 * 64 + (a.toNat % 4 * 16 + b.toNat / 16)) * 64 + (b.toNat % 16 * 4 + c.toNat / 64)) * 64 + c.toNat % 64) / 256 % 256 = b.toNat := by omega
      have h3 : (((a.toNat / 4 * 64 + (a.toNat % 4 * 16 + b.toNat / 16)) * 64 + (b.toNat % 16 * 4 + c.toNat / 64)) * 64 + c.toNat % 64) % 256 = c.toNat := by omega
      simp [h1, h2, h3]
    · intro h _ _; exact absurd h (b64Char_ne_pad u (by omega))
    · intro h _; exact absurd h (b64Char_ne_pad u (by omega))

/-- the text uses only characters of the alphabet and padding -/
theorem mem_b64encode (u : Bool) (b : Bytes) {c : Char} (h : c ∈ b64encode u b) :
    c = '=' ∨ ∃ n < 64, b64Val u c = some n := by
  fun_induction b64encode u b with
  | case1 => simp at h
  | case2 a =>
    have ha := a.toNat_lt
    simp only [List.mem_cons, List.not_mem_nil, or_false] at h
    rcases h with rfl | rfl | rfl | rfl
    · exact Or.inr ⟨_, by omega, b64Val_b64Char u (by omega)⟩
    · exact Or.inr ⟨_, by omega, b64Val_b64Char u (by omega)⟩
    · exact Or.inl rfl
    · exact Or.inl rfl
  | case3 a b =>
    have ha := a.toNat_lt
    have hb := b.toNat_lt
    simp only [List.mem_cons, List.not_mem_nil, or_false] at h
    rcases h with rfl | rfl | rfl | rfl
    · exact Or.inr ⟨_, by omega, b64Val_b64Char u (by omega)⟩
    · exact Or.inr ⟨_, by omega, b64Val_b64Char u (by omega)⟩
    · exact Or.inr ⟨_, by omega, b64Val_b64Char u (by omega)⟩
    · exact Or.inl rfl
  | case4 a b c rest ih =>
    have ha := a.toNat_lt
    have hb := b.toNat_lt
    have hc := c.toNat_lt
    simp only [List.mem_cons] at h
    rcases h with rfl | rfl | rfl | rfl | h
    · exact Or.inr ⟨_, by omega, b64Val_b64Char u (by omega)⟩
    · exact Or.inr ⟨_, by omega, b64Val_b64Char u (by omega)⟩
    · exact Or.inr ⟨_, by omega, b64Val_b64Char u (by omega)⟩
    · exact Or.inr ⟨_, by omega, b64Val_b64Char u (by omega)⟩
    · exact ih h

end Py
