import Verif.Model.Request
import Verif.Proofs.Quote
import Verif.Proofs.Dict
/-!
# C21: path parameters cannot change the structure of the URL

Spec side: a template is a list of literal texts and named holes (`Piece`), `text` is how it is
written in the document, `fill` puts a text in place of every hole.
-/

namespace Props.C21
open Py Utils Io Spec

variable {β δ π : Type}

/-- A URL template: literal text and holes. -/
inductive Piece where
  | lit (s : Str)
  | hole (name : Str)
  deriving DecidableEq, Repr

/-- the template as written in the document -/
def text : List Piece → Str
  | [] => []
  | .lit s :: t => s ++ text t
  | .hole n :: t => '{' :: n ++ '}' :: text t

/-- literal text contains no braces; names are ordinary names (not empty, not a number, no
`{}.[!:`) -/
def Good (t : List Piece) : Prop :=
  ∀ p ∈ t, match p with
    | .lit s => '{' ∉ s ∧ '}' ∉ s
    | .hole n => SimpleName n

/-- the holes filled; `none` if a hole has no value -/
def fill (value : Str → Option Str) : List Piece → Option Str
  | [] => some []
  | .lit s :: t => (fill value t).map (s ++ ·)
  | .hole n :: t =>
    match value n with
    | none => none
    | some v => (fill value t).map (v ++ ·)

/-- the literal text alone -/
def literal : List Piece → Str
  | [] => []
  | .lit s :: t => s ++ literal t
  | .hole _ :: t => literal t

theorem formatGo_text (ext kw out) {t : List Piece} (ht : Good t) :
    formatGo ext kw .lit out (text t) =
      match fill (Dict.get? kw) t with
      | some x => .ok (out ++ x)
      | none => .error .KeyError := by
  induction t generalizing out with
  | nil => simp [text, fill, formatGo]
  | cons p t ih =>
    have ht' : Good t := fun q hq => ht q (List.mem_cons_of_mem _ hq)
    have hp := ht p (List.mem_cons_self ..)
    cases p with
    | lit s =>
      simp only at hp
      rw [text, formatGo_lit _ _ _ _ _ hp.1 hp.2, ih _ ht', fill]
      cases fill (Dict.get? kw) t <;> simp
    | hole n =>
      simp only at hp
      rw [text, formatGo_hole _ _ _ _ _ hp, fill]
      cases hv : Dict.get? kw n with
      | none => rfl
      | some v =>
        simp only
        rw [ih _ ht']
        cases fill (Dict.get? kw) t <;> simp

theorem format_text (ext kw) {t : List Piece} (ht : Good t) :
    format ext kw (text t) =
      match fill (Dict.get? kw) t with
      | some x => .ok x
      | none => .error .KeyError := by
  rw [format, formatGo_text _ _ _ ht]
  cases fill (Dict.get? kw) t <;> simp

theorem get?_pathParams (p : Params β) (n : Str) :
    Dict.get? (pathParams p) n = (Dict.get? p.path n).map quote_plus := by
  unfold pathParams
  induction p.path with
  | nil => rfl
  | cons e d ih =>
    obtain ⟨k, v⟩ := e
    simp only [List.map_cons, Dict.get?]
    by_cases h : k = n
    · simp [h]
    · simpa [h] using ih

/-- the escaped value of a path parameter -/
def escaped (p : Params β) (n : Str) : Option Str := (Dict.get? p.path n).map quote_plus

/-- **C21** (exact URL and path). A successful `prepare` puts the escaped value of each path
parameter in the place of its holes, keeps everything else, and puts the scheme in front of the
URL. -/
theorem C21_filled (env : Env β δ π) (op : Op δ) (sch : SchemeArg) (hf : Bool) (r r' : Req β π)
    {tu tp : List Piece} (hu : r.url = text tu) (hp : r.path = text tp) (gu : Good tu) (gp : Good tp)
    (h : prepare env op sch hf r = .ok r') :
    ∃ s u p, chooseScheme r.scheme sch = .ok s ∧ fill (escaped r.p) tu = some u ∧
      fill (escaped r.p) tp = some p ∧ r'.url = s ++ c!":" ++ u ∧ r'.path = p := by
  have he : Dict.get? (pathParams r.p) = escaped r.p := by funext n; exact get?_pathParams r.p n
  have hs' : ∀ {α : Type} (x : Except Exc α) (f : α → Except Exc (Req β π)),
      (x >>= f) = .ok r' → ∃ a, x = .ok a ∧ f a = .ok r' := by
    intro α x f hx
    cases x with
    | error e => cases hx
    | ok a => exact ⟨a, rfl, hx⟩
  unfold prepare at h
  obtain ⟨s, hs, h⟩ := hs' _ _ h
  obtain ⟨p, hpp, h⟩ := hs' _ _ h
  obtain ⟨u, huu, h⟩ := hs' _ _ h
  obtain ⟨⟨ct, data, files⟩, _, h⟩ := hs' _ _ h
  obtain ⟨acc, _, h⟩ := hs' _ _ h
  rw [hp, format_text _ _ gp, he] at hpp
  rw [hu, format_text _ _ gu, he] at huu
  cases h1 : fill (escaped r.p) tp with
  | none => rw [h1] at hpp; cases hpp
  | some p' =>
    cases h2 : fill (escaped r.p) tu with
    | none => rw [h2] at huu; cases huu
    | some u' =>
      rw [h1] at hpp; rw [h2] at huu
      cases hpp; cases huu
      simp only [pure, Except.pure, Except.ok.injEq] at h
      subst h
      exact ⟨s, u, p, hs, rfl, rfl, rfl, rfl⟩

/-- **C21** (missing value). A hole without a value makes `prepare` raise `KeyError`. -/
theorem C21_missing (env : Env β δ π) (op : Op δ) (sch : SchemeArg) (hf : Bool) (r : Req β π) {s : Str}
    {tu tp : List Piece} (hu : r.url = text tu) (hp : r.path = text tp) (gu : Good tu) (gp : Good tp)
    (hs : chooseScheme r.scheme sch = .ok s) (n : Str)
    (hn : Piece.hole n ∈ tu ∨ Piece.hole n ∈ tp) (hv : Dict.get? r.p.path n = none) :
    prepare env op sch hf r = .error .KeyError := by
  have he : Dict.get? (pathParams r.p) = escaped r.p := by funext n; exact get?_pathParams r.p n
  have hnone : ∀ t, Piece.hole n ∈ t → fill (escaped r.p) t = none := by
    intro t
    induction t with
    | nil => intro h; cases h
    | cons p t ih =>
      intro h
      cases p with
      | lit s =>
        rcases List.mem_cons.1 h with h | h
        · cases h
        · simp [fill, ih h]
      | hole m =>
        rcases List.mem_cons.1 h with h | h
        · cases h
          simp [fill, escaped, hv]
        · simp only [fill]
          cases escaped r.p m with
          | none => rfl
          | some v => simp [ih h]
  unfold prepare
  rw [hs]
  simp only [bind, Except.bind]
  rw [hp, format_text _ _ gp, he]
  cases h1 : fill (escaped r.p) tp with
  | none => rfl
  | some p =>
    simp only
    rw [hu, format_text _ _ gu, he]
    cases h2 : fill (escaped r.p) tu with
    | none => rfl
    | some u =>
      rcases hn with hn | hn
      · rw [hnone _ hn] at h2; cases h2
      · rw [hnone _ hn] at h1; cases h1

/-- the characters of escaped text: RFC 3986 unreserved characters, `+`, and the `%` of an escape -/
def Harmless (c : Char) : Prop :=
  ('A' ≤ c ∧ c ≤ 'Z') ∨ ('a' ≤ c ∧ c ≤ 'z') ∨ ('0' ≤ c ∧ c ≤ '9') ∨
    c = '_' ∨ c = '.' ∨ c = '-' ∨ c = '~' ∨ c = '+' ∨ c = '%'

instance : DecidablePred Harmless := fun _ => inferInstanceAs (Decidable (_ ∨ _))

/-- **C21** (inserted text). Whatever the value, the inserted text consists of unreserved
characters, `+` and `%`, and decodes (with `+` for a blank) to the UTF-8 bytes of the value; in
particular each `%` starts an escape. -/
theorem C21_inserted (v : Str) :
    (∀ c ∈ quote_plus v, Harmless c) ∧ percentDecode true (quote_plus v) = some (utf8 v) ∧
      (percentDecode true (quote_plus v)).bind utf8Decode = some v := by
  refine ⟨fun c hc => mem_quote_plus hc, percentDecode_quote_plus v, ?_⟩
  rw [percentDecode_quote_plus]; exact utf8Decode_utf8 v

/-- **C21** (structure). The characters of the URL that are not harmless (`/`, `?`, `#`, `&`,
braces, blanks, ...) are exactly those of the literal template text, in order, whatever the
values are. -/
theorem C21_structure (p : Params β) {t : List Piece} {x : Str} (h : fill (escaped p) t = some x) :
    x.filter (fun c => decide (¬ Harmless c)) = (literal t).filter (fun c => decide (¬ Harmless c)) := by
  induction t generalizing x with
  | nil => simp only [fill, Option.some.injEq] at h; subst h; rfl
  | cons q t ih =>
    cases q with
    | lit s =>
      simp only [fill, Option.map_eq_some_iff] at h
      obtain ⟨y, hy, rfl⟩ := h
      simp only [literal, List.filter_append, ih hy]
    | hole n =>
      simp only [fill] at h
      cases hv : escaped p n with
      | none => rw [hv] at h; cases h
      | some v =>
        rw [hv] at h
        simp only [Option.map_eq_some_iff] at h
        obtain ⟨y, hy, rfl⟩ := h
        have : v.filter (fun c => decide (¬ Harmless c)) = [] := by
          rw [List.filter_eq_nil_iff]
          intro c hc
          simp only [escaped, Option.map_eq_some_iff] at hv
          obtain ⟨w, _, rfl⟩ := hv
          simpa using (C21_inserted w).1 c hc
        simp only [literal, List.filter_append, ih hy, this, List.nil_append]

/-- **C21** (no collisions). Different values are inserted as different texts. -/
theorem C21_injective {v w : Str} (h : quote_plus v = quote_plus w) : v = w := by
  have h1 := (C21_inserted v).2.2
  rw [h, (C21_inserted w).2.2] at h1
  exact (Option.some.inj h1).symm

/-- **C21**, limits. A blank is written as `+`, which a reader that only percent-decodes (RFC 3986,
as path segments are) takes for a plus sign; and the values `.` and `..`, which URL readers treat
as dot segments, are inserted unchanged. -/
theorem C21_path_decoding_false :
    percentDecode false (quote_plus c!"a b") ≠ some (utf8 c!"a b") ∧ quote_plus c!".." = c!".." ∧
      quote_plus c!"." = c!"." := by decide

/-! Non-vacuity: a template with two holes and a value full of special characters. -/
def tpl : List Piece := [.lit c!"//h/pets/", .hole c!"id", .lit c!"/x?y=", .hole c!"q"]
example : Good tpl := by
  intro p hp
  simp only [tpl, List.mem_cons, List.not_mem_nil, or_false] at hp
  rcases hp with rfl | rfl | rfl | rfl <;> decide
example : text tpl = c!"//h/pets/{id}/x?y={q}" := by decide
def ps : Params Unit :=
  ⟨[], [], [(c!"id", c!"a/b?é {x}"), (c!"q", c!"1")], [], [], []⟩
example : fill (escaped ps) tpl = some c!"//h/pets/a%2Fb%3F%C3%A9+%7Bx%7D/x?y=1" := by decide +kernel
example : escaped ps c!"zz" = none := by decide

end Props.C21
