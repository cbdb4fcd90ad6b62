import Verif.Py.Quote
import Verif.Spec.FormDecode
import Verif.Proofs.Str
/-! # Lemmas on UTF-8, `quote_plus`, `urlencode` and `str.format` -/

namespace Py
open Spec

theorem utf8Decode_utf8 (s : Str) : utf8Decode (utf8 s) = some s := by
  have h : (utf8 s).toByteArray = (String.ofList s).toByteArray := rfl
  unfold utf8Decode String.fromUTF8?
  rw [h]
  rw [dif_pos (String.ofList s).isValidUTF8]
  simp only [Option.map_some, Option.some.injEq]
  exact String.toList_ofList

theorem utf8_of_decode {b : Bytes} {s : Str} (h : utf8Decode b = some s) : utf8 s = b := by
  unfold utf8Decode String.fromUTF8? at h
  split at h
  · rename_i hv
    simp only [Option.map_some, Option.some.injEq] at h
    subst h
    have := String.utf8Encode_toList (b := String.fromUTF8 b.toByteArray hv)
    have h2 := congrArg (fun x => x.data.toList) this
    simpa [List.utf8Encode, utf8, String.fromUTF8] using h2
  · simp at h

theorem utf8_injective {s t : Str} (h : utf8 s = utf8 t) : s = t := by
  have := utf8Decode_utf8 s
  rw [h, utf8Decode_utf8] at this
  exact (Option.some.inj this).symm

theorem utf8_append (s t : Str) : utf8 (s ++ t) = utf8 s ++ utf8 t := by simp [utf8]

/-- every byte statement follows from the one on numbers below 256 -/
theorem byte_all {P : UInt8 → Prop} (h : ∀ n : Fin 256, P (UInt8.ofNat n.val)) (b : UInt8) : P b := by
  have := h ⟨b.toNat, b.toNat_lt⟩
  simpa using this

/-- the bytes of an ASCII character -/
theorem utf8EncodeChar_ascii {c : Char} (h : c.toNat < 128) :
    String.utf8EncodeChar c = [UInt8.ofNat c.toNat] := by
  have h' : c.val.toNat ≤ 127 := by
    have : c.toNat = c.val.toNat := rfl
    omega
  simp only [String.utf8EncodeChar, h', if_true]
  rfl

/-- the bytes of any other character have the top bit -/
theorem utf8EncodeChar_nonascii {c : Char} (h : ¬ c.toNat < 128) :
    ∀ b ∈ String.utf8EncodeChar c, 128 ≤ b.toNat := by
  have h' : ¬ c.val.toNat ≤ 127 := by
    have : c.toNat = c.val.toNat := rfl
    omega
  intro b hb
  simp only [String.utf8EncodeChar, h', if_false] at hb
  split at hb
  · simp only [List.mem_cons, List.not_mem_nil, or_false] at hb
    rcases hb with rfl | rfl <;> simp <;> omega
  · split at hb
    · simp only [List.mem_cons, List.not_mem_nil, or_false] at hb
      rcases hb with rfl | rfl | rfl <;> simp <;> omega
    · simp only [List.mem_cons, List.not_mem_nil, or_false] at hb
      rcases hb with rfl | rfl | rfl | rfl <;> simp <;> omega

/-- an ASCII byte occurs in the UTF-8 text exactly if its character occurs -/
theorem mem_utf8_ascii {s : Str} {a : Char} (ha : a.toNat < 128) :
    UInt8.ofNat a.toNat ∈ utf8 s ↔ a ∈ s := by
  simp only [utf8, List.mem_flatMap]
  constructor
  · rintro ⟨c, hc, hb⟩
    by_cases h : c.toNat < 128
    · rw [utf8EncodeChar_ascii h, List.mem_singleton] at hb
      have : a.toNat = c.toNat := by
        have := congrArg UInt8.toNat hb
        simp at this; omega
      have : a = c := by
        have h1 := Char.ofNat_toNat a
        have h2 := Char.ofNat_toNat c
        rw [← h1, ← h2, this]
      rwa [this]
    · have := utf8EncodeChar_nonascii h _ hb
      simp at this; omega
  · intro h
    exact ⟨a, h, by rw [utf8EncodeChar_ascii ha]; simp⟩

/-- `quote_plus` byte by byte -/
def qpByte (b : UInt8) : Str := if b.toNat = 32 then ['+'] else quoteByte false b

theorem quoteByte_plus (b : UInt8) :
    (quoteByte true b).map (fun c => if c = ' ' then '+' else c) = qpByte b := by
  refine byte_all (P := fun b => (quoteByte true b).map (fun c => if c = ' ' then '+' else c) = qpByte b) ?_ b
  decide +kernel

theorem quote_plus_eq (s : Str) : quote_plus s = (utf8 s).flatMap qpByte := by
  unfold quote_plus
  split
  · rename_i h
    have h32 : (32 : UInt8) ∉ utf8 s := fun hm => h ((mem_utf8_ascii (a := ' ') (by decide)).1 hm)
    unfold quote
    have : ∀ l : Bytes, (32 : UInt8) ∉ l → l.flatMap (quoteByte false) = l.flatMap qpByte := by
      intro l hl
      induction l with
      | nil => rfl
      | cons b l ih =>
        simp only [List.mem_cons, not_or] at hl
        rw [List.flatMap_cons, List.flatMap_cons, ih hl.2]
        have : b.toNat ≠ 32 := fun e => hl.1 (by
          have := congrArg UInt8.ofNat e; simpa using this.symm)
        simp [qpByte, this]
    exact this _ h32
  · unfold quote
    rw [List.map_flatMap]
    congr 1
    funext b
    exact quoteByte_plus b

theorem quote_plus_append (s t : Str) : quote_plus (s ++ t) = quote_plus s ++ quote_plus t := by
  simp [quote_plus_eq, utf8_append]

/-- the characters `quote_plus` can produce -/
theorem mem_quote_plus {s : Str} {c : Char} (h : c ∈ quote_plus s) :
    ('A' ≤ c ∧ c ≤ 'Z') ∨ ('a' ≤ c ∧ c ≤ 'z') ∨ ('0' ≤ c ∧ c ≤ '9') ∨
      c = '_' ∨ c = '.' ∨ c = '-' ∨ c = '~' ∨ c = '+' ∨ c = '%' := by
  rw [quote_plus_eq, List.mem_flatMap] at h
  obtain ⟨b, _, hb⟩ := h
  exact byte_all (P := fun b => ∀ c ∈ qpByte b,
    ('A' ≤ c ∧ c ≤ 'Z') ∨ ('a' ≤ c ∧ c ≤ 'z') ∨ ('0' ≤ c ∧ c ≤ '9') ∨
      c = '_' ∨ c = '.' ∨ c = '-' ∨ c = '~' ∨ c = '+' ∨ c = '%') (by decide +kernel) b c hb

/-! ## Decoding -/

theorem hexVal_hexUpper {n : Nat} (h : n < 16) : hexVal (hexUpper n) = some n := by
  have : ∀ n : Fin 16, hexVal (hexUpper n.val) = some n.val := by decide
  exact this ⟨n, h⟩

theorem percentDecode_cons {plus : Bool} {c : Char} (s : Str) (h : c ≠ '%') (hc : c.toNat < 128) :
    percentDecode plus (c :: s) =
      (percentDecode plus s).map (UInt8.ofNat (if plus && c = '+' then 32 else c.toNat) :: ·) := by
  rw [percentDecode]
  · simp only [h, if_false, hc, if_true]
    cases percentDecode plus s <;> rfl
  · intro a b s' e; exact absurd e h

theorem percentDecode_pct {plus : Bool} (a b : Char) (s : Str) {x y : Nat}
    (ha : hexVal a = some x) (hb : hexVal b = some y) :
    percentDecode plus ('%' :: a :: b :: s) =
      (percentDecode plus s).map (UInt8.ofNat (16 * x + y) :: ·) := by
  rw [percentDecode]
  simp only [ha, hb]
  cases percentDecode plus s <;> rfl

theorem percentDecode_qpByte (b : UInt8) (s : Str) :
    percentDecode true (qpByte b ++ s) = (percentDecode true s).map (b :: ·) := by
  unfold qpByte
  split
  · rename_i h
    rw [List.singleton_append, percentDecode_cons _ (by decide) (by decide)]
    have : UInt8.ofNat 32 = b := by rw [← h]; simp
    simp [← this]
  · unfold quoteByte
    split
    · rename_i h
      simp only [Bool.false_and, Bool.or_false] at h
      have key : ∀ b : UInt8, alwaysSafe b = true →
          Char.ofNat b.toNat ≠ '%' ∧ Char.ofNat b.toNat ≠ '+' ∧ (Char.ofNat b.toNat).toNat = b.toNat ∧
          b.toNat < 128 := by
        intro b
        refine byte_all (P := fun b => alwaysSafe b = true →
          Char.ofNat b.toNat ≠ '%' ∧ Char.ofNat b.toNat ≠ '+' ∧ (Char.ofNat b.toNat).toNat = b.toNat ∧
          b.toNat < 128) ?_ b
        decide +kernel
      obtain ⟨h1, h2, h3, h4⟩ := key b h
      rw [List.singleton_append, percentDecode_cons _ h1 (by rw [h3]; exact h4), h3]
      simp [h2]
    · have hb := b.toNat_lt
      show percentDecode true ('%' :: _ :: _ :: s) = _
      rw [percentDecode_pct _ _ s (hexVal_hexUpper (by omega)) (hexVal_hexUpper (by omega))]
      have : 16 * (b.toNat / 16) + b.toNat % 16 = b.toNat := by omega
      rw [this]; simp

theorem percentDecode_flatMap (l : Bytes) : percentDecode true (l.flatMap qpByte) = some l := by
  induction l with
  | nil => rfl
  | cons b l ih => rw [List.flatMap_cons, percentDecode_qpByte, ih]; rfl

theorem percentDecode_quote_plus (s : Str) : percentDecode true (quote_plus s) = some (utf8 s) := by
  rw [quote_plus_eq, percentDecode_flatMap]

theorem not_mem_quote_plus {s : Str} {c : Char}
    (h : ¬ (('A' ≤ c ∧ c ≤ 'Z') ∨ ('a' ≤ c ∧ c ≤ 'z') ∨ ('0' ≤ c ∧ c ≤ '9') ∨
      c = '_' ∨ c = '.' ∨ c = '-' ∨ c = '~' ∨ c = '+' ∨ c = '%')) : c ∉ quote_plus s :=
  fun hm => h (mem_quote_plus hm)

/-! ## `format` on templates -/

theorem formatGo_lit (ext kw out) (l s : Str) (hl : '{' ∉ l) (hr : '}' ∉ l) :
    formatGo ext kw .lit out (l ++ s) = formatGo ext kw .lit (out ++ l) s := by
  induction l generalizing out with
  | nil => simp
  | cons c l ih =>
    simp only [List.mem_cons, not_or] at hl hr
    have h1 : c ≠ '{' := fun e => hl.1 e.symm
    have h2 : c ≠ '}' := fun e => hr.1 e.symm
    rw [List.cons_append, formatGo]
    simp only [h1, h2, if_false]
    rw [ih _ hl.2 hr.2]; simp

/-- a name that is a simple, non-positional replacement field -/
def SimpleName (n : Str) : Prop :=
  n.all (fun c => '0' ≤ c && c ≤ '9') = false ∧
  ∀ c ∈ n, c ≠ '{' ∧ c ≠ '}' ∧ c ≠ '.' ∧ c ≠ '[' ∧ c ≠ '!' ∧ c ≠ ':'

instance (n : Str) : Decidable (SimpleName n) := inferInstanceAs (Decidable (_ ∧ _))

theorem formatGo_field (ext kw out) (pre n s : Str)
    (hn : ∀ c ∈ n, c ≠ '{' ∧ c ≠ '}' ∧ c ≠ '.' ∧ c ≠ '[' ∧ c ≠ '!' ∧ c ≠ ':') :
    formatGo ext kw (.field pre) out (n ++ '}' :: s) =
      (formatField kw (pre ++ n)).bind fun v => formatGo ext kw .lit (out ++ v) s := by
  induction n generalizing pre with
  | nil => rw [List.nil_append, formatGo]; simp
  | cons c n ih =>
    have hc := hn c (List.mem_cons_self ..)
    rw [List.cons_append, formatGo]
    simp only [hc.1, hc.2.1, hc.2.2.1, hc.2.2.2.1, hc.2.2.2.2.1, hc.2.2.2.2.2, if_false, or_self]
    rw [ih _ (fun x hx => hn x (List.mem_cons_of_mem _ hx))]
    simp

theorem formatGo_hole (ext kw out) (n s : Str) (hn : SimpleName n) :
    formatGo ext kw .lit out ('{' :: n ++ '}' :: s) =
      match Dict.get? kw n with
      | some v => formatGo ext kw .lit (out ++ v) s
      | none => .error .KeyError := by
  obtain ⟨hd, hs⟩ := hn
  cases n with
  | nil => simp at hd
  | cons c n =>
    have hc := hs c (List.mem_cons_self ..)
    rw [List.cons_append, formatGo]
    simp only [if_true]
    rw [List.cons_append, formatGo]
    simp only [hc.1, hc.2.1, hc.2.2.1, hc.2.2.2.1, hc.2.2.2.2.1, hc.2.2.2.2.2, if_false, or_self]
    rw [formatGo_field _ _ _ _ _ _ (fun x hx => hs x (List.mem_cons_of_mem _ hx))]
    rw [List.singleton_append, formatField]
    simp only [hd, Bool.false_eq_true, if_false]
    cases Dict.get? kw (c :: n) <;> rfl

end Py
