import Verif.Model.AppResolve
import Verif.Proofs.Dict
/-!
# C48: only Swagger 1.2 and 2.0 documents are loaded

For every document, every parser and every parsing outcome: which parser reads it, and which
version or exception comes out.
-/

namespace Props.C48
open Py _root_.AppResolve

variable {ω : Type} {parse : Parser → Val → Except Exc ω} {versionOf : ω → Option Val}

/-- The document declares the version `v`: `swaggerVersion` comes before `swagger`. -/
inductive Declares : Dict Str Val → Val → Prop where
  | old (d v) : Dict.get? d c!"swaggerVersion" = some v → Declares d v
  | new (d v) : c!"swaggerVersion" ∉ Dict.keys d → Dict.get? d c!"swagger" = some v → Declares d v

/-- The document declares no version, or `null`. -/
def Silent (d : Dict Str Val) : Prop :=
  Declares d .none ∨ c!"swaggerVersion" ∉ Dict.keys d ∧ c!"swagger" ∉ Dict.keys d

theorem version_of {d : Dict Str Val} {v : Val} (h : Declares d v) : get_swagger_version (.dict d) = .ok v := by
  cases h with
  | old h => simp [get_swagger_version, h]
  | new h1 h2 => simp [get_swagger_version, (Dict.get?_eq_none_iff _ _).2 h1, h2]

theorem version_silent {d : Dict Str Val} (h : Silent d) : get_swagger_version (.dict d) = .ok .none := by
  rcases h with h | ⟨h1, h2⟩
  · exact version_of h
  · simp [get_swagger_version, (Dict.get?_eq_none_iff _ _).2 h1, (Dict.get?_eq_none_iff _ _).2 h2]

/-- A document that declares 1.2 or 2.0 is read by the parser of that version, whatever parser the
caller gives, and keeps that version. -/
theorem C48_known {d : Dict Str Val} (p : Option Nat) :
    (Declares d (.str c!"1.2") → load parse versionOf (.dict d) p =
      (parse .v1_2 (.dict d)).map fun o => (o, .str c!"1.2")) ∧
    (Declares d (.str c!"2.0") → load parse versionOf (.dict d) p =
      (parse .v2_0 (.dict d)).map fun o => (o, .str c!"2.0")) := by
  constructor
  · intro h
    simp only [load, load_obj, version_of h, if_true]
    cases parse .v1_2 (.dict d) <;> simp [Except.map]
  · intro h
    have : (Val.str c!"2.0") ≠ .str c!"1.2" := by decide
    simp only [load, load_obj, version_of h, if_true, if_neg this]
    cases parse .v2_0 (.dict d) <;> simp [Except.map]

/-- A document that declares any other version is refused: other texts, numbers like 2.0, anything. -/
theorem C48_other {d : Dict Str Val} {v : Val} (h : Declares d v) (h1 : v ≠ .str c!"1.2") (h2 : v ≠ .str c!"2.0")
    (h3 : v ≠ .none) (p : Option Nat) :
    load_obj parse versionOf (.dict d) p = .error .NotImplementedError ∧
    load parse versionOf (.dict d) p = .error .NotImplementedError := by
  have : load_obj parse versionOf (.dict d) p = .error .NotImplementedError := by
    simp only [load_obj, version_of h, if_neg h1, if_neg h2]
    cases p <;> simp [h3]
  exact ⟨this, by simp only [load, this]⟩

/-- An object without version is read by the parser the caller gives, and gets the version of what
that parser makes; without a parser it is refused. -/
theorem C48_fragment {d : Dict Str Val} (h : Silent d) :
    load_obj parse versionOf (.dict d) none = .error .NotImplementedError ∧
    ∀ p, load_obj parse versionOf (.dict d) (some p) =
      (parse (.given p) (.dict d)).map fun o => (o, match versionOf o with
        | some v => v
        | none => .none) := by
  have e1 : (Val.none) ≠ .str c!"1.2" := by decide
  have e2 : (Val.none) ≠ .str c!"2.0" := by decide
  constructor
  · simp only [load_obj, version_silent h, if_neg e1, if_neg e2]
  · intro p
    simp only [load_obj, version_silent h, if_neg e1, if_neg e2, if_true]
    cases parse (.given p) (.dict d) with
    | error e => rfl
    | ok o => simp only [Except.map]; cases versionOf o <;> rfl

/-- Whatever `App.load` accepts has version 1.2 or 2.0. -/
theorem C48_loaded {v : Val} {p : Option Nat} {o : ω} {ver : Val}
    (h : load parse versionOf v p = .ok (o, ver)) : ver = .str c!"1.2" ∨ ver = .str c!"2.0" := by
  unfold load at h
  split at h
  · cases h
  · split at h
    · cases h
    · next hm => cases h; simpa [Classical.or_iff_not_imp_left] using hm

/-- every dict is covered by the theorems above -/
theorem C48_cases (d : Dict Str Val) : Silent d ∨ ∃ v, v ≠ .none ∧ Declares d v := by
  cases h : Dict.get? d c!"swaggerVersion" with
  | some v =>
    by_cases hv : v = .none
    · subst hv; exact Or.inl (Or.inl (.old d _ h))
    · exact Or.inr ⟨v, hv, .old d v h⟩
  | none =>
    have h1 := (Dict.get?_eq_none_iff _ _).1 h
    cases h2 : Dict.get? d c!"swagger" with
    | some v =>
      by_cases hv : v = .none
      · subst hv; exact Or.inl (Or.inl (.new d _ h1 h2))
      · exact Or.inr ⟨v, hv, .new d v h1 h2⟩
    | none => exact Or.inl (Or.inr ⟨h1, (Dict.get?_eq_none_iff _ _).1 h2⟩)

/-! ## Cases -/

def doc (l : List (String × Val)) : Val := .dict (l.map fun x => (x.1.toList, x.2))

/-- parsers that say who they are; a given parser 1 makes 2.0 objects, others have no version -/
def who : Parser → Val → Except Exc Parser := fun p _ => .ok p
def ver : Parser → Option Val := fun p => if p = .given 1 then some (.str c!"2.0") else none

example : load who ver (doc [("swagger", .str c!"2.0")]) none = .ok (.v2_0, .str c!"2.0") := by decide +kernel
example : load who ver (doc [("swagger", .str c!"2.0"), ("swaggerVersion", .str c!"1.2")]) none
    = .ok (.v1_2, .str c!"1.2") := by decide +kernel
example : load who ver (doc [("swagger", .float (.fin 2))]) (some 1) = .error .NotImplementedError := by decide +kernel
example : load who ver (doc [("type", .str c!"object")]) (some 1) = .ok (.given 1, .str c!"2.0") := by decide +kernel

/-- A document that is no dict raises `AttributeError`; a document without version whose parser
makes objects without version raises `NameError`. -/
theorem C48_exception_false :
    (∀ (v : Val) (p : Option Nat), (∀ d, v ≠ .dict d) → load parse versionOf v p = .error .AttributeError) ∧
    load who ver (doc [("type", .str c!"object")]) (some 2) = .error .NameError := by
  constructor
  · intro v p h
    cases v <;> first | rfl | exact absurd rfl (h _)
  · decide +kernel

end Props.C48
