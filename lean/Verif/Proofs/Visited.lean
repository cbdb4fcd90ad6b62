import Verif.Model.Composed
import Verif.Proofs.Index
import Verif.Proofs.Checked
import Verif.Props.C88
/-! # Lemmas for C92 and C94: the objects that a walk visits, by what is written -/

namespace Proofs.Visited
open Py Utils Tree _root_.Doc Spec Spec.Places Spec.Pointed _root_.Loaded Proofs.Loaded Proofs.Origin Proofs.Placed Proofs.Index
open _root_.Create Props

variable {D T R : Tree} {p : Url} {sq : Dict Str Tree}

theorem read_at (hl : Loads D p T R) {ts : List Str} {c : Nat} {q : Dict Str Tree} (h : Written D ts c q) :
    ∃ gs, parse v20 c (.dict q) = some (.obj c gs) ∧ Tree.resolve ts R = .ok (mapRefs (absolute (urlunparse p)) (.obj c gs)) := by
  obtain ⟨fs, h1, h2, -⟩ := written_parse hl.read h
  have h3 := object_map (f := absolute (urlunparse p)) (filled hl) h2
  rw [← normal_form hl] at h3
  exact ⟨fs, h1, h3⟩

theorem visited_iff (hl : Loads D p T R) (hD : D = .dict sq) {c : Nat} {v : Str × Tree} :
    v ∈ visited R c ↔ ∃ ts q gs, Written D ts c q ∧ parse v20 c (.dict q) = some (.obj c gs) ∧
      v = (pointer ts, mapRefs (absolute (urlunparse p)) (.obj c gs)) := by
  obtain ⟨rs, hR⟩ := C88.root_obj hl hD
  have hv := fun s t => C03.C03_visited R [] (C88.root_wf hl) (by rw [hR]; rfl) s t
  obtain ⟨s, t⟩ := v
  unfold visited
  rw [List.mem_filter]
  constructor
  · rintro ⟨h1, h2⟩
    obtain ⟨-, ts, rfl, h3⟩ := (hv s t).1 h1
    cases t with
    | obj c' gs =>
      have hc : c' = c := by simpa [cls?] using h2
      subst hc
      obtain ⟨q, hw⟩ := C88.written_of hl h3
      obtain ⟨fs, h4, h5⟩ := read_at hl hw
      rw [Proofs.ScanTree.resolve_at h3 (C88.root_wf hl)] at h5
      exact ⟨ts, q, fs, hw, h4, by rw [Except.ok.inj h5]⟩
    | _ => simp [cls?] at h2
  · rintro ⟨ts, q, gs, hw, h4, e⟩
    cases e
    obtain ⟨gs', h3⟩ := C88.at_of hl hw
    obtain ⟨fs, h4', h5⟩ := read_at hl hw
    rw [h4] at h4'; cases h4'
    rw [Proofs.ScanTree.resolve_at h3 (C88.root_wf hl)] at h5
    rw [← Except.ok.inj h5]
    exact ⟨(hv _ _).2 ⟨rfl, _, rfl, h3⟩, by simp [cls?]⟩

theorem place_ne {ts : List Str} {c : Nat} {q : Dict Str Tree} (h : Written D ts c q) (hc : c ≠ cSwagger) : ts ≠ [] := by
  rintro rfl
  obtain ⟨k, hk, hp⟩ := h
  cases hp
  exact hc (Proofs.Checked.takes_unique hk (.inl rfl))

theorem names_inj (hl : Loads D p T R) {r : Str} {us vs : List Str} (h : Names (urlunparse p) r us) (h' : Names (urlunparse p) r vs) :
    us = vs := by
  have := absolute_named hl.canon hl.whole h
  rw [absolute_named hl.canon hl.whole h'] at this
  exact (Proofs.Checked.pointer_inj (List.append_cancel_left this)).symm

theorem place_split {k k1 k' : Kind} {t t1 u : Tree} {ts vs : List Str} (h1 : Place k t ts k1 t1) :
    Place k t (ts ++ vs) k' u → Place k1 t1 vs k' u := by
  induction h1 with
  | here => exact id
  | field htk hd hk _ ih =>
    intro h2
    cases h2 with
    | field htk' hd' hk' h2 =>
      cases Proofs.Checked.takes_unique htk htk'
      rw [hd] at hd'; cases hd'
      rw [hk] at hk'; cases hk'
      exact ih h2
    | key _ _ => rcases htk with h | h <;> cases h
  | item hi _ ih =>
    intro h2
    generalize hn : natStr _ :: _ ++ _ = us at h2
    cases h2 with
    | item hi' h2 =>
      injection hn with hn hts
      have := congrArg intOf? hn
      rw [intOf_natStr, intOf_natStr] at this
      have : _ = _ := Int.ofNat.inj (Option.some.inj this)
      subst this
      subst hts
      rw [hi] at hi'; cases hi'
      exact ih h2
    | here => cases hn
  | key hk _ ih =>
    intro h2
    cases h2 with
    | field htk' => rcases htk' with h | h <;> cases h
    | key hk' h2 =>
      rw [hk] at hk'; cases hk'
      exact ih h2

theorem ref_table {c : Nat} (hc : c ∈ refClasses) : Dict.get? (v20 c).fields c!"$ref" = some nul ∧
    Dict.get? (v20 c).child c!"$ref" = none := by
  revert c
  decide

theorem ref_read {c : Nat} (hc : c ∈ refClasses) {q : Dict Str Tree} {gs : List (Str × Tree)}
    (hp : parse v20 c (.dict q) = some (.obj c gs)) {r : Str} (hr : MergeRefs.refText (.obj c gs) = some r) :
    Dict.get? q c!"$ref" = some (.atom (.str r)) := by
  obtain ⟨fs', e, -, hf⟩ := C42.C42_fields _ q _ hp
  cases e
  have := hf c!"$ref" nul (ref_table hc).1 (ref_table hc).2
  unfold MergeRefs.refText MergeRefs.refOf at hr
  dsimp only at hr
  rw [this] at hr
  cases hq : Dict.get? q c!"$ref" with
  | none => rw [hq] at hr; cases hr
  | some x =>
    rw [hq] at hr
    simp only [Option.getD_some] at hr
    split at hr
    · cases hr; rfl
    · cases hr

end Proofs.Visited
