import Verif.Props.C51
import Verif.Props.C25
import Verif.Model.Clients
/-!
# C51, continued: which clients can send an operation

A client sends an operation only by schemes both have.
-/

namespace Props.C51
open Py Utils Patch Spec Spec.Places

variable {ρ σ : Type}

/-- **C51** (clients). A client refuses an operation just when it knows none of the operation's schemes: its own, else those of the
document, else the one the document was loaded by. -/
theorem C51_refused (name : ρ → Option Str) (r : Root σ) (u : Url) (hu : Canon u) (path n : Str) (o : Op ρ σ) (client : List Str) :
    Core.prepareSchemes client (prepared name ⟨some r, urlunparse u, schemesOf (some r) (urlunparse u)⟩ path n o).cached_schemes =
        .error .ValueError ↔ ∀ s ∈ client, s ∉ orElse o.schemes (orElse r.schemes [u.scheme]) := by
  rw [C51_schemes name r u hu]
  generalize orElse o.schemes (orElse r.schemes [u.scheme]) = l
  have h := C25.C25_candidates client l
  cases e : Core.prepareSchemes client l with
  | ok k =>
    rw [e] at h
    obtain ⟨hk, hm, -⟩ := h
    refine ⟨(fun h => by cases h), fun h => ?_⟩
    cases k with
    | nil => exact absurd rfl hk
    | cons s k =>
      obtain ⟨h1, h2⟩ := (hm s).1 (by simp)
      exact absurd h2 (h s h1)
  | error x =>
    rw [e] at h
    obtain ⟨rfl, h⟩ := h
    exact ⟨fun _ s h1 h2 => h s ⟨h1, h2⟩, fun _ => rfl⟩

/-- **C51** (files). None of the four clients sends an operation of a document loaded from a file, if neither operation nor document
declare schemes. -/
theorem C51_file (name : ρ → Option Str) (r : Root σ) (u : Url) (hu : Canon u) (hf : u.scheme = c!"file") (path n : Str) (o : Op ρ σ)
    (ho : o.schemes = []) (hr : r.schemes = []) :
    Core.prepareSchemes Clients.httpSchemes
      (prepared name ⟨some r, urlunparse u, schemesOf (some r) (urlunparse u)⟩ path n o).cached_schemes = .error .ValueError := by
  rw [C51_refused name r u hu, ho, hr, hf]
  decide

open Clients Core in
/-- **C51** (nothing is sent). The four clients hand nothing to their libraries for an operation without a scheme they know, and raise
`ValueError`. -/
theorem C51_unsent {β δ π η h τ ρ υ D : Type} (w : World β δ π η h σ τ ρ υ D) (hw : ∀ s ∈ httpSchemes, s ∉ w.op.schemes) (security) (opt)
    (headers) (req) (resp) :
    (∀ server, requestsRequest w security opt headers req resp server = ⟨none, resp.reset, some .ValueError⟩) ∧
    (∀ server, tornadoRequest w security opt headers req resp server = ⟨none, resp.reset, some .ValueError⟩) ∧
    (∀ server, flaskRequest w security opt headers req resp server = ⟨none, resp.reset, some .ValueError⟩) ∧
    (∀ keep cookie server, webRequest w security keep cookie opt headers req resp server = (⟨none, resp.reset, some .ValueError⟩, cookie)) := by
  have hp : prepareSchemes httpSchemes w.op.schemes = .error .ValueError := by
    have h := C25.C25_candidates httpSchemes w.op.schemes
    cases e : prepareSchemes httpSchemes w.op.schemes with
    | ok k =>
      rw [e] at h
      obtain ⟨hk, hm, -⟩ := h
      cases k with
      | nil => exact absurd rfl hk
      | cons s k =>
        obtain ⟨h1, h2⟩ := (hm s).1 (by simp)
        exact absurd h2 (hw s h1)
    | error x =>
      rw [e] at h
      rw [h.1]
  have hs : ∀ a b, send w.env w.op ⟨httpSchemes, a, b, security⟩ opt headers req = .error .ValueError := by
    intro a b
    unfold send
    dsimp only
    rw [hp]
    rfl
  refine ⟨fun server => ?_, fun server => ?_, fun server => ?_, fun keep cookie server => ?_⟩
  · unfold requestsRequest exchange; rw [hs]
  · unfold tornadoRequest exchange; rw [hs]
  · unfold flaskRequest exchange; rw [hs]
  · unfold webRequest exchange; dsimp only; rw [hs]

/-- a document in a file, with a host but no schemes -/
example : Core.prepareSchemes Clients.httpSchemes (prepared (fun _ => none)
    ⟨some { root with host := some c!"api.example.com" }, c!"file:///specs/swagger.json",
      schemesOf (some { root with host := some c!"api.example.com" }) c!"file:///specs/swagger.json"⟩
    c!"#/paths/~1pets" c!"get" o).cached_schemes = .error .ValueError :=
  C51_file _ _ ⟨c!"file", [], c!"/specs/swagger.json", [], [], []⟩
    (by constructor <;> first | decide | exact Or.inr ⟨_, rfl⟩ | (intro h; exact absurd h (by decide)) | (intro _ t; simp)) rfl _ _ _ rfl rfl

/-- loaded by `https`, it is sent by `https` -/
example : Core.prepareSchemes Clients.httpSchemes done.cached_schemes = .ok [c!"https"] := by decide +kernel

end Props.C51
