import Verif.Model.Client
import Verif.Proofs.Replace
/-! # Taking `prepare` and `send` apart -/

namespace Io
open Py Utils Core

variable {β δ π : Type}

theorem bind_ok {α γ : Type} {x : Except Exc α} {f : α → Except Exc γ} {c : γ} :
    (x >>= f) = .ok c ↔ ∃ a, x = .ok a ∧ f a = .ok c := by
  cases x with
  | error e => exact ⟨fun h => (by cases h), fun ⟨a, h, _⟩ => (by cases h)⟩
  | ok a => exact ⟨fun h => ⟨a, rfl, h⟩, fun ⟨b, h, h2⟩ => (by cases h; exact h2)⟩

/-- The parts of a successful `prepare`. -/
theorem prepare_ok {env : Env β δ π} {op : Op δ} {sch : SchemeArg} {hf : Bool} {r r' : Req β π} :
    prepare env op sch hf r = .ok r' ↔
      ∃ s path url ct data files acc, chooseScheme r.scheme sch = .ok s ∧
        format env.fmtExt (pathParams r.p) r.path = .ok path ∧
        format env.fmtExt (pathParams r.p) r.url = .ok url ∧
        prepareData env op r.p r.consume hf = .ok (ct, data, files) ∧
        chooseAccept op r.produce = .ok acc ∧
        r' = { r with
          p := { r.p with file := files }, url := s ++ c!":" ++ url, path := path,
          header := setHeader env.lower (setHeader env.lower
            (ciUpdate env.lower r.header r.p.header) c!"Content-Type" (truthy ct)) c!"Accept" acc,
          data := data } := by
  unfold prepare
  constructor
  · intro h
    obtain ⟨s, hs, h⟩ := bind_ok.1 h
    obtain ⟨path, hp, h⟩ := bind_ok.1 h
    obtain ⟨url, hu, h⟩ := bind_ok.1 h
    obtain ⟨⟨ct, data, files⟩, hd, h⟩ := bind_ok.1 h
    obtain ⟨acc, ha, h⟩ := bind_ok.1 h
    simp only [pure, Except.pure, Except.ok.injEq] at h
    exact ⟨s, path, url, ct, data, files, acc, hs, hp, hu, hd, ha, h.symm⟩
  · rintro ⟨s, path, url, ct, data, files, acc, hs, hp, hu, hd, ha, rfl⟩
    rw [hs, hp, hu, hd, ha]
    rfl

theorem getitem_setHeader (lower : Str → Str) (h : CIDict Str) (n k : Str) (v : Option Str) :
    CIDict.getitem lower (setHeader lower h n v) k =
      match v with
      | some x => if lower k = lower n then .ok x else CIDict.getitem lower h k
      | none => CIDict.getitem lower h k := by
  cases v with
  | none => rfl
  | some x =>
    simp only [setHeader, CIDict.getitem, CIDict.setitem, Dict.get?_set]
    by_cases e : lower k = lower n
    · simp [e]
    · simp [e]

end Io
