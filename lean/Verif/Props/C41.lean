import Verif.Model.Byte
import Verif.Spec.Base64
import Verif.Proofs.Base64
import Verif.Proofs.Quote
/-!
# C41: byte values survive base64 exchange
-/

namespace Props.C41
open Py Prim.Byte

/-- the JSON text of a byte string decodes, as URL-safe base64, to exactly its bytes -/
theorem C41_bytes (b : Bytes) :
    ∃ v, apply (.bytes b) = .ok v ∧ Spec.b64decode true (toJson v) = some b :=
  ⟨b, rfl, b64decode_b64encode true b⟩

/-- the JSON text of a text decodes to its UTF-8 bytes, which decode to the text -/
theorem C41_text (s : Str) :
    ∃ v b, apply (.text s) = .ok v ∧ Spec.b64decode true (toJson v) = some b ∧ utf8Decode b = some s :=
  ⟨utf8 s, utf8 s, rfl, b64decode_b64encode true _, utf8Decode_utf8 s⟩

/-- the JSON text can stand in a URL: letters, digits, `-`, `_` and `=` only -/
theorem C41_urlsafe (b : Bytes) : ∀ c ∈ toJson b,
    c ∈ c!"ABCDEFGHIJKLMNOPQRSTUVWXYZabcdefghijklmnopqrstuvwxyz0123456789-_=" := by
  have table : ∀ n : Fin 64, b64Char true n.val ∈
      c!"ABCDEFGHIJKLMNOPQRSTUVWXYZabcdefghijklmnopqrstuvwxyz0123456789-_=" := by decide +kernel
  have pad : '=' ∈ c!"ABCDEFGHIJKLMNOPQRSTUVWXYZabcdefghijklmnopqrstuvwxyz0123456789-_=" := by
    decide
  unfold toJson
  intro c h
  fun_induction b64encode true b with
  | case1 => simp at h
  | case2 a =>
    have ha := a.toNat_lt
    simp only [List.mem_cons, List.not_mem_nil, or_false] at h
    rcases h with rfl | rfl | rfl | rfl
    · exact table ⟨_, by omega⟩
    · exact table ⟨_, by omega⟩
    · exact pad
    · exact pad
  | case3 a b =>
    have ha := a.toNat_lt
    have hb := b.toNat_lt
    simp only [List.mem_cons, List.not_mem_nil, or_false] at h
    rcases h with rfl | rfl | rfl | rfl
    · exact table ⟨_, by omega⟩
    · exact table ⟨_, by omega⟩
    · exact table ⟨_, by omega⟩
    · exact pad
  | case4 a b c' rest ih =>
    have ha := a.toNat_lt
    have hb := b.toNat_lt
    have hc := c'.toNat_lt
    simp only [List.mem_cons] at h
    rcases h with rfl | rfl | rfl | rfl | h
    · exact table ⟨_, by omega⟩
    · exact table ⟨_, by omega⟩
    · exact table ⟨_, by omega⟩
    · exact table ⟨_, by omega⟩
    · exact ih h

/-- the length is that of whole groups of four characters -/
theorem C41_length (b : Bytes) : (toJson b).length = 4 * ((b.length + 2) / 3) := by
  unfold toJson
  fun_induction b64encode true b with
  | case1 => rfl
  | case2 a => simp
  | case3 a b => simp
  | case4 a b c rest ih => simp only [List.length_cons, ih]; omega

/-- two values with the same JSON text are the same bytes -/
theorem C41_injective (b c : Bytes) (h : toJson b = toJson c) : b = c := by
  have hb := b64decode_b64encode true b
  unfold toJson at h
  rw [h, b64decode_b64encode true c] at hb
  exact (Option.some.inj hb).symm

/-- what is neither text nor bytes is rejected with `ValueError`, the rest accepted -/
theorem C41_rejects (i : Input) : apply i = .error .ValueError ↔ i = .other := by
  cases i <;> simp [apply]

/-- `str` of a value made from a text is the text -/
theorem C41_str (s : Str) : (apply (.text s)).bind str = .ok s := by
  show str (utf8 s) = _
  simp only [str, utf8Decode_utf8]

/-- Reading is not decoding: a JSON text received and converted with the same schema gives other
bytes than the ones sent, for every non-empty value. -/
theorem C41_read_back_false (b : Bytes) (hb : b ≠ []) : apply (.text (toJson b)) ≠ .ok b := by
  intro h
  have h : utf8 (toJson b) = b := Except.ok.inj h
  have len : ∀ s : Str, s.length ≤ (utf8 s).length := by
    intro s
    induction s with
    | nil => exact Nat.le_refl _
    | cons c s ih =>
      have : 1 ≤ (String.utf8EncodeChar c).length := by
        rw [String.length_utf8EncodeChar]; exact Char.utf8Size_pos c
      simp only [utf8, List.flatMap_cons, List.length_append, List.length_cons] at ih ⊢
      omega
  have h1 := len (toJson b)
  rw [h, C41_length] at h1
  have : b.length ≠ 0 := fun e => hb (List.length_eq_zero_iff.1 e)
  omega

example : toJson [0xfb, 0xff, 0x41, 0x42] = c!"-_9BQg==" := by decide +kernel
example : apply (.text c!"é") = .ok [0xc3, 0xa9] := by rfl
example : toJson [0xc3, 0xa9] = c!"w6k=" := by decide +kernel

end Props.C41
