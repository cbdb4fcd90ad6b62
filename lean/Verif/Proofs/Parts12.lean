import Verif.Proofs.Uses12
import Verif.Proofs.Composed
/-!
# The parts of the schemas of an upgraded document fit together
-/

namespace Proofs.Parts12
open Py Tree Upgrade Spec.Upgrade12 Spec.Document20 Spec.Model12 Spec.Pointed Spec.Refused12 _root_.Doc Spec.Composed
open Proofs.Uses12 (Setting place_definition)
open Props.C56 (HasModel name)
open Spec.Aggregate (Alike)

variable {env : Env} {str : Nat → Str} {l : ResourceList} {s : Swagger} {sq : Dict Str Tree} {url : Str} {ts us : List Str}

/-- a definition has the kinds of values its model has -/
theorem kinds (h : Setting env str l s sq url) (ht : Kinds l) {key : Str} {d : Definition} (hd : Dict.get? s.definitions key = some d) :
    (∃ xs, d.required = .list xs) ∧ Scalar d.discriminator ∧ Scalar d.description := by
  obtain ⟨i, s0, s1, made, -, -, -, -, -, hs, -⟩ := Props.C56.scanned h.upgraded
  have hat : Upgrade.defAt s.definitions key = d := by unfold Upgrade.defAt; rw [hd]; rfl
  rcases Upgrade.defSteps_body hs key with ⟨e, he, hk, hm⟩ | ⟨-, hbody⟩
  · obtain ⟨n, m, hm', rfl⟩ := (Props.C56.mem_steps e).1 he
    rw [hat] at hm
    rw [hm.required, hm.discriminator, hm.description]
    exact ht n m hm'
  · rw [hat] at hbody
    rw [hbody]
    exact ⟨⟨[], rfl⟩, trivial, trivial⟩

/-- a schema that lists parts is a definition -/
theorem lists_definition (h : Setting env str l s sq url) (hl : Lists (.dict sq) url ts us) : ∃ key, ts = [c!"definitions", key] := by
  obtain ⟨q, l', i, hw, ha, -⟩ := hl
  rcases Proofs.Model12.written_low h.written hw with ⟨-, h2⟩ | ⟨ds, k, rfl, -⟩
  · rw [h2] at ha; cases ha
  · exact ⟨k, rfl⟩

/-- what is written for a definition -/
theorem definition_in (h : Setting env str l s sq url) {key : Str} {q : Dict Str Tree} (hw : Written (.dict sq) [c!"definitions", key] cSchema q) :
    ∃ d, Dict.get? s.definitions key = some d ∧ DefinitionIn q d := by
  obtain ⟨k, hk, hp⟩ := hw
  obtain ⟨ds, v, e1, e2, e3⟩ := place_definition hp
  obtain ⟨q', d, rfl, e4, h3⟩ := Props.C87.under_back h.written.definitions e1 e2
  generalize hx : Tree.dict q = x at e3
  generalize hy : Tree.dict q' = y at e3
  cases e3
  rw [← hy] at hx
  cases hx
  exact ⟨d, e4, h3⟩

theorem leads_definition (h : Setting env str l s sq url) {key : Str} (hl : Leads (.dict sq) url [c!"definitions", key] us) :
    us = [c!"definitions", key] := by
  generalize ht : [c!"definitions", key] = ts at hl
  cases hl with
  | here => rfl
  | step hw hr =>
    subst ht
    obtain ⟨d, -, hd⟩ := definition_in h hw
    rw [Proofs.Data12.missing hd.only (by decide)] at hr
    cases hr

/-- a part is a definition -/
theorem listed_definition (h : Setting env str l s sq url) (hl : Lists (.dict sq) url ts us) : ∃ key, us = [c!"definitions", key] := by
  obtain ⟨key, rfl⟩ := lists_definition h hl
  obtain ⟨q, l', i, hw, ha, hi, hle⟩ := hl
  obtain ⟨d, -, hd⟩ := definition_in h hw
  obtain ⟨rs, e, hrs⟩ := hd.allOf
  rw [ha, Option.getD_some] at e
  cases e
  obtain ⟨r, -, x, hx, href⟩ := Props.C55.forall₂_left hrs _ (List.getElem_mem hi)
  have hwx : Written (.dict sq) ([c!"definitions", key] ++ [c!"allOf", natStr i]) cSchema x := by
    obtain ⟨ds, v, e1, e2, e3⟩ := place_definition hw.choose_spec.2
    obtain ⟨q', d', rfl, e4, h3⟩ := Props.C87.under_back h.written.definitions e1 e2
    have := Proofs.Composed.written_unique hw (Proofs.Uses12.definition_written e1 e2)
    subst this
    exact ⟨.one cSchema, .inl rfl, .field (.inl rfl) e1 (by decide : _ = some (.dict cSchema))
        (.key e2 (.field (.inl rfl) ha (by decide : _ = some (.list cSchema)) (.item (by rw [List.getElem?_eq_getElem hi, hx]) .here)))⟩
  cases hle with
  | here hw' hr =>
    rw [← Proofs.Composed.written_unique hwx hw', href.1] at hr
    cases hr
  | step hw' hr hn hle =>
    obtain ⟨-, r', e, key', rfl, hk⟩ := h.refs _ _ _ _ hw' (by decide) hr
    cases e
    have := Proofs.Checked.names_unique h.url.1 h.url.2 hn ⟨by simp, .inl rfl⟩
    subst this
    exact ⟨key', leads_definition h hle⟩

theorem part_definition (h : Setting env str l s sq url) (hp : Part (.dict sq) url ts us) : (∃ key, ts = [c!"definitions", key]) ∧
    ∃ key, us = [c!"definitions", key] := by
  induction hp with
  | direct hl => exact ⟨lists_definition h hl, listed_definition h hl⟩
  | next _ hl ih => exact ⟨ih.1, listed_definition h hl⟩

/-- what a definition says -/
theorem said (h : Setting env str l s sq url) (hpl : Plain (.dict sq)) (ht : Kinds l) {key n : Str} {t : Tree} (hs : Says (.dict sq) [c!"definitions", key] n t) :
    n = c!"required" ∧ (∃ l, t = .list l) ∨ n ≠ c!"required" ∧ ∃ a, t = .atom a := by
  obtain ⟨q, hw, hn, hg, -⟩ := hs
  obtain ⟨d, hd, hin⟩ := definition_in h hw
  obtain ⟨⟨xs, k1⟩, k2, k3⟩ := kinds h ht hd
  have hobj : ∀ c fs, t ≠ .obj c fs := Proofs.Composed.no_object hpl hw hg
  have scal : ∀ v, Scalar v → Spec.Described.Value t v → ∃ a, t = .atom a := by
    intro v hv hval
    cases t with
    | atom a => exact ⟨a, rfl⟩
    | list l => rw [Spec.Described.Value] at hval; obtain ⟨vs, rfl, -⟩ := hval; exact hv.elim
    | dict l => rw [Spec.Described.Value] at hval; obtain ⟨vs, rfl, -⟩ := hval; exact hv.elim
    | obj c fs => exact absurd rfl (hobj c fs)
  have : ∀ n ∈ [c!"properties", c!"required", c!"discriminator", c!"description", c!"allOf"], n ∈ plainFields →
    n = c!"required" ∨ n = c!"discriminator" ∨ n = c!"description" := by decide
  rcases this n (Proofs.Model12.only_mem hin.only hg) hn with rfl | rfl | rfl
  · have hv := hin.required
    rw [hg, Option.getD_some, k1] at hv
    refine .inl ⟨rfl, ?_⟩
    cases t with
    | list l => exact ⟨l, rfl⟩
    | atom a => cases a <;> (rw [Spec.Described.Value] at hv; cases hv)
    | dict d => rw [Spec.Described.Value] at hv; obtain ⟨vs, e, -⟩ := hv; cases e
    | obj c fs => exact absurd rfl (hobj c fs)
  · have hv := hin.discriminator
    unfold Spec.Listing12.Value Spec.Listing12.under at hv
    rw [hg] at hv
    exact .inr ⟨by decide, scal _ k2 hv⟩
  · have hv := hin.description
    unfold Spec.Listing12.Value Spec.Listing12.under at hv
    rw [hg] at hv
    exact .inr ⟨by decide, scal _ k3 hv⟩

theorem matching (h : Setting env str l s sq url) (hpl : Plain (.dict sq)) (ht : Kinds l) : Matching (.dict sq) url := by
  intro ts us vs n t u hu hv hs hs'
  by_cases hd : ∃ key, ts = [c!"definitions", key]
  · have key : ∀ ws, Within (.dict sq) url ts ws → ∃ key, ws = [c!"definitions", key] := by
      rintro ws (rfl | hp)
      · exact hd
      · exact (part_definition h hp).2
    obtain ⟨k, rfl⟩ := key us hu
    obtain ⟨k', rfl⟩ := key vs hv
    rcases said h hpl ht hs with ⟨rfl, a, rfl⟩ | ⟨hn, a, rfl⟩ <;> rcases said h hpl ht hs' with ⟨e, b, rfl⟩ | ⟨hn', b, rfl⟩
    · trivial
    · exact absurd rfl hn'
    · exact absurd e hn
    · trivial
  · have key : ∀ ws, Within (.dict sq) url ts ws → ws = ts := by
      rintro ws (rfl | hp)
      · rfl
      · exact absurd (part_definition h hp).1 hd
    rw [key us hu] at hs
    rw [key vs hv] at hs'
    exact Proofs.Composed.alike_self hpl hs hs'

end Proofs.Parts12
