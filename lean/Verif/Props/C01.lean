import Verif.Proofs.JsonPointer
/-!
# C01: JSON pointer composition and splitting are inverse

Spec side: `Spec.rfcEscape`, `Spec.rfcUnescape` (RFC 6901, `Verif/Spec/Rfc6901.lean`).
-/

namespace Props.C01
open Py Utils Spec Proofs.JsonPointer

/-- **C01** (with a base). Appending the tokens `ts` to a non-empty base pointer and splitting
gives the tokens of the base followed by exactly `ts`, for all tokens and all characters. -/
theorem C01_roundtrip_base (ts : List Str) (b : Str) (hb : b ≠ []) :
    jp_split (jp_compose (.list ts) (some b)) = jp_split (some b) ++ ts := by
  cases b with
  | nil => exact absurd rfl hb
  | cons c b =>
    have hs : ∀ x : Str, x ≠ [] → jp_split (some x) = (splitChar '/' x).map jp_decode := by
      intro x hx; cases x with
      | nil => exact absurd rfl hx
      | cons => rfl
    have hne : join ['/'] ((c :: b) :: ts.map jp_escape) ≠ [] := by
      cases ts with
      | nil => simp [join]
      | cons t ts => simp [join]
    simp only [jp_compose, jp_compose.go]
    rw [hs _ hne, hs _ hb, split_tail, List.map_append, map_decode_escape]

/-- **C01** (without a base, or with the empty one). The tokens come back unless the list is the
single empty token, which is written as the empty pointer and read as no token at all. -/
theorem C01_roundtrip_nobase (ts : List Str) (base : Option Str) (hb : base = none ∨ base = some []) :
    jp_split (jp_compose (.list ts) base) = if ts = [[]] then [] else ts := by
  have hgo : jp_compose (.list ts) base = some (join ['/'] (ts.map jp_escape)) := by
    rcases hb with rfl | rfl <;> rfl
  rw [hgo]
  cases ts with
  | nil => simp [join, jp_split]
  | cons t ts =>
    by_cases h : t = [] ∧ ts = []
    · obtain ⟨rfl, rfl⟩ := h; rfl
    · have hne : join ['/'] ((t :: ts).map jp_escape) ≠ [] := by
        cases ts with
        | nil =>
          have ht : t ≠ [] := fun e => h ⟨e, rfl⟩
          simp [join, jp_escape_eq, escape_ne_nil ht]
        | cons u us => simp [join]
      have : jp_split (some (join ['/'] ((t :: ts).map jp_escape)))
          = (splitChar '/' (join ['/'] ((t :: ts).map jp_escape))).map jp_decode := by
        revert hne
        cases join ['/'] ((t :: ts).map jp_escape) with
        | nil => intro h; exact absurd rfl h
        | cons => intro _; rfl
      rw [this, List.map_cons, split_tail, jp_escape_eq,
        splitChar_of_not_mem (slash_not_mem_escape t),
        List.singleton_append, ← List.map_cons (f := rfcEscape) (l := ts), map_decode_escape]
      rw [if_neg]
      intro e; simp at e; exact h e

/-- **C01** (wire format). The composed pointer is the base followed by `/` and the RFC 6901
escape of each token: other RFC 6901 implementations read it the same way. -/
theorem C01_wire_format (ts : List Str) (b : Str) (hb : b ≠ []) :
    jp_compose (.list ts) (some b) = some (b ++ ts.flatMap (fun t => '/' :: rfcEscape t)) := by
  cases b with
  | nil => exact absurd rfl hb
  | cons c b =>
    simp only [jp_compose, jp_compose.go, Option.some.injEq]
    suffices H : ∀ a : Str, join ['/'] (a :: ts.map jp_escape)
        = a ++ ts.flatMap (fun t => '/' :: rfcEscape t) from H _
    induction ts with
    | nil => intro a; simp [join]
    | cons t ts ih =>
      intro a
      rw [List.map_cons, join_cons _ _ _ (by simp), ih, jp_escape_eq]
      simp

/-- **C01** (reading). Splitting any non-empty pointer text cuts it at each '/' and unescapes
each piece as RFC 6901 prescribes. -/
theorem C01_reading (s : Str) (h : s ≠ []) :
    jp_split (some s) = (splitChar '/' s).map rfcUnescape := by
  cases s with
  | nil => exact absurd rfl h
  | cons c s => simp only [jp_split]; congr 1; funext x; exact jp_decode_eq x

/-- **C01** (argument forms). A single token is the one-element list, `None` returns the base. -/
theorem C01_forms (s : Str) (base : Option Str) :
    jp_compose (.str s) base = jp_compose (.list [s]) base ∧ jp_compose .none base = base :=
  ⟨rfl, rfl⟩

/-- Composition is injective in the tokens: two different token lists never share a pointer. -/
theorem C01_injective (ts us : List Str) (b : Str) (hb : b ≠ [])
    (h : jp_compose (.list ts) (some b) = jp_compose (.list us) (some b)) : ts = us := by
  have := congrArg jp_split h
  rw [C01_roundtrip_base _ _ hb, C01_roundtrip_base _ _ hb] at this
  exact List.append_cancel_left this

/-! Non-vacuity: a path key full of slashes and tildes, below '#/paths'. -/
example : jp_compose (.list [c!"/a~b/{x}", c!"get"]) (some c!"#/paths")
    = some c!"#/paths/~1a~0b~1{x}/get" := by decide
example : jp_split (some c!"#/paths/~1a~0b~1{x}/get") = [c!"#", c!"paths", c!"/a~b/{x}", c!"get"] := by
  decide
example : jp_split (jp_compose (.list [[]]) none) = [] := by decide

end Props.C01
