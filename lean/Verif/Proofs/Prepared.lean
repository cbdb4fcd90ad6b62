import Verif.Proofs.Effective
/-! # Lemmas for C77 and C83: preparing a declared object succeeds -/

namespace Proofs.Prepared
open Py Tree _root_.Doc Spec.Doc Spec.Merge Spec.MergeRefs Spec.Described Proofs.Effective
open _root_.Effective (attr)

variable {W : MergeRefs.World} {order : List Atom → List Atom} {fuel c : Nat}

/-- all fields but the reference have their defaults -/
def Blank (c : Nat) (fs : List (Str × Tree)) : Prop :=
  Dict.keys fs = Dict.keys (v20 c).fields ∧
    ∀ n dflt, n ≠ c!"$ref" → Dict.get? (v20 c).fields n = some dflt → Dict.get? fs n = some dflt

theorem blank_fresh {c : Nat} : Blank c (v20 c).fields := ⟨rfl, fun _ _ _ h => h⟩

theorem merge_some {c : Nat} {fs os : List (Str × Tree)} (hk : Dict.keys fs = Dict.keys (v20 c).fields)
    (h : ∀ n dflt own, Dict.get? (v20 c).fields n = some dflt → Dict.get? fs n = some own → ∃ v w,
      Dict.get? os n = some v ∧ mergeField order dflt (Dict.get? (v20 c).child n).isSome own v
        (copyOf v20 order (v20 c) n v) = some w) :
    ∃ gs, merge v20 order [] (.obj c fs) (.obj c os) = some (.obj c gs) := by
  have : ∃ gs, mergeFields v20 order [] (v20 c) os fs = some gs := by
    refine Proofs.Merge.mergeFields_total fun n own hm => ?_
    have hnd : (Dict.keys fs).Nodup := hk ▸ (Props.C42.C42_grammar c).1
    have hown := Dict.get?_of_mem hnd hm
    have hmem : n ∈ Dict.keys (v20 c).fields := by rw [← hk]; exact List.mem_map.2 ⟨_, hm, rfl⟩
    obtain ⟨dflt, hf⟩ := Option.isSome_iff_exists.1 ((Dict.get?_isSome_iff _ _).2 hmem)
    obtain ⟨v, w, hv, hw⟩ := h n dflt own hf hown
    exact ⟨w, by rw [Proofs.MergeRefs.mergedField_nil hf hv]; exact hw⟩
  obtain ⟨gs, hgs⟩ := this
  exact ⟨gs, by rw [merge, hgs]; rfl⟩

theorem refOnly_keys (c : Nat) (r : Str) : Dict.keys (assemble (v20 c) [(c!"$ref", Tree.atom (.str r))]) =
    Dict.keys (v20 c).fields := by
  unfold assemble Dict.keys
  rw [List.map_map]
  rfl

theorem merge_blank (hcl : c = cParameter ∨ c = cResponse) {fs : List (Str × Tree)} (hb : Blank c fs) {t : Tree} (ht : RefOnly c t) :
    ∃ gs, merge v20 order [] (.obj c fs) t = some (.obj c gs) ∧ Blank c gs := by
  have ht' := ht
  obtain ⟨r, rfl⟩ := ht
  have hos : ∀ n dflt, Dict.get? (v20 c).fields n = some dflt →
      ∃ v, Dict.get? (assemble (v20 c) [(c!"$ref", Tree.atom (.str r))]) n = some v := by
    intro n dflt hf
    exact Option.isSome_iff_exists.1 ((Dict.get?_isSome_iff _ _).2 (by
      rw [refOnly_keys c]; exact (Dict.get?_isSome_iff _ _).1 (by rw [hf]; rfl)))
  obtain ⟨gs, hgs⟩ := merge_some (order := order) (os := assemble (v20 c) [(c!"$ref", Tree.atom (.str r))]) hb.1 (by
    intro n dflt own hf hown
    obtain ⟨v, hv⟩ := hos n dflt hf
    by_cases hn : n = c!"$ref"
    · subst hn
      have : Dict.get? (assemble (v20 c) [(c!"$ref", Tree.atom (.str r))]) c!"$ref" = some (.atom (.str r)) := ref_only hcl r
      have hf' : Dict.get? (v20 c).fields c!"$ref" = some nul := (ref_field hcl).1
      rw [hf] at hf'
      cases hf'
      have hm : ∃ w, mergeField order nul false own (.atom (.str r)) (copyOf v20 order (v20 c) c!"$ref" (.atom (.str r))) =
          some w := by
        unfold mergeField
        rw [if_neg (by simp [isDefault, nul]), if_neg (by decide)]
        dsimp only
        split <;> exact ⟨_, rfl⟩
      obtain ⟨w, hw⟩ := hm
      exact ⟨_, w, this, by rw [(ref_field hcl).2]; exact hw⟩
    · refine ⟨v, own, hv, ?_⟩
      unfold mergeField
      rw [if_pos (refOnly_default hcl ht' hn hf hv)])
  refine ⟨gs, hgs, ?_⟩
  obtain ⟨gs', h1, h2, h3⟩ := Props.C43.field hgs
  cases h1
  refine ⟨h2.trans hb.1, fun n dflt hn hf => ?_⟩
  obtain ⟨v, hv⟩ := hos n dflt hf
  exact Props.C43.C43_untouched hgs (hb.2 n dflt hn hf) (Or.inr ⟨dflt, v, hf, hv, refOnly_default hcl ht' hn hf hv⟩)

theorem merge_last (hcl : c = cParameter ∨ c = cResponse) {fs os : List (Str × Tree)} (hb : Blank c fs) (hs : Shaped v20 (.one c) (.obj c os))
    (hr : Dict.get? os c!"$ref" = some nul) :
    ∃ gs, merge v20 order [] (.obj c fs) (.obj c os) = some (.obj c gs) := by
  simp only [Shaped] at hs
  refine merge_some hb.1 fun n dflt own hf hown => ?_
  obtain ⟨v, hv⟩ := Option.isSome_iff_exists.1 ((Dict.get?_isSome_iff os n).2 (by
      rw [hs.2.1]; exact (Dict.get?_isSome_iff _ _).1 (by rw [hf]; rfl)))
  by_cases hn : n = c!"$ref"
  · subst hn
    rw [hr] at hv
    cases hv
    have hf' : Dict.get? (v20 c).fields c!"$ref" = some nul := (ref_field hcl).1
    rw [hf] at hf'
    cases hf'
    exact ⟨nul, own, hr, by unfold mergeField; rw [if_pos (by rfl)]⟩
  · have := hb.2 n dflt hn hf
    rw [hown] at this
    cases this
    have hsh := Proofs.Merge.shapedFields_mem hs.2.2 (Dict.mem_of_get? hv)
    unfold copyOf
    cases hc : Dict.get? (v20 c).child n with
    | none =>
      rw [hc] at hsh
      dsimp only at hsh
      rw [Proofs.Merge.defaultOf_eq hf] at hsh
      obtain ⟨w, hw⟩ := Proofs.Merge.mergeField_total (order := order) (dflt := dflt) hsh
      exact ⟨v, w, hv, hw⟩
    | some k =>
      rw [hc] at hsh
      obtain ⟨w, hw⟩ := Proofs.Merge.copyAs_total (order := order) v k hsh
      have : ∃ x, mergeField order dflt true dflt v (some w) = some x := by
        unfold mergeField
        split
        · exact ⟨_, rfl⟩
        · rw [if_pos rfl]; split <;> exact ⟨_, rfl⟩
      obtain ⟨x, hx⟩ := this
      refine ⟨v, x, hv, ?_⟩
      show mergeField order dflt true dflt v (copyAs v20 order k v) = some x
      rw [hw]; exact hx

theorem noRef (hcl : c = cParameter ∨ c = cResponse) {q : Dict Str Tree} {o : Tree} (hr : Dict.get? q c!"$ref" = none) (hp : parse v20 c (.dict q) = some o) :
    ∃ fs, o = .obj c fs ∧ Dict.get? fs c!"$ref" = some nul := by
  obtain ⟨fs, h1, _, h3⟩ := Props.C42.C42_fields _ _ _ hp
  have := h3 c!"$ref" nul (ref_field hcl).1 (ref_field hcl).2
  rw [hr] at this
  exact ⟨fs, h1, this⟩

theorem merge_means (hcl : c = cParameter ∨ c = cResponse) {k j : Nat} {q : Dict Str Tree} (hm : MeansAs W c k j q)
    (hs : ∀ o, parse v20 c (.dict q) = some o → Shaped v20 (.one c) o) {fs : List (Str × Tree)}
    (hb : Blank c fs) : ∃ gs, merge v20 order [] (.obj c fs) (W.content j) = some (.obj c gs) ∧ (k ≠ 0 → Blank c gs) := by
  cases hm with
  | inline hr hp =>
    obtain ⟨os, h1, h2⟩ := noRef hcl hr hp
    have := hs _ hp
    rw [h1] at this ⊢
    obtain ⟨gs, hgs⟩ := merge_last (order := order) hcl hb this h2
    exact ⟨gs, hgs, fun h => absurd rfl h⟩
  | ref _ hc _ _ =>
    obtain ⟨gs, hgs, h⟩ := merge_blank (order := order) hcl hb ⟨_, hc⟩
    exact ⟨gs, hgs, fun _ => h⟩

theorem follow_ok (hcl : c = cParameter ∨ c = cResponse) {k i : Nat} {q : Dict Str Tree} (h : MeansAs W c k i q)
    (hs : ∀ o, parse v20 c (.dict q) = some o → Shaped v20 (.one c) o) :
    ∀ (n : Nat) (vis : List Nat) (fs : List (Str × Tree)), k < n → (∀ v ∈ vis, ∃ k' q', k ≤ k' ∧ MeansAs W c k' v q') →
      (k ≠ 0 → Blank c fs) → ∃ t, MergeRefs.follow W order c n vis i (.obj c fs) = some (.value t) := by
  induction h with
  | @inline i q hr hp =>
    intro n vis fs hn _ _
    obtain ⟨os, h1, h2⟩ := noRef hcl hr hp
    cases n with
    | zero => omega
    | succ n =>
      rw [MergeRefs.follow, (Proofs.MergeRefs.refText_none.2 (by
        intro r hr'
        have := hr'.2
        rw [h1, valueOf, h2] at this
        cases this))]
      exact ⟨_, rfl⟩
  | @ref k i r j q hne hc hr hm ih =>
    intro n vis fs hn hv hb
    cases n with
    | zero => omega
    | succ n =>
      have hcls : cls? (W.content j) = some c := by
        cases hm with
        | inline _ hp =>
          obtain ⟨fs, h1, _⟩ := Props.C42.C42_fields _ _ _ hp
          rw [h1]; rfl
        | ref _ hc _ _ => rw [hc]; rfl
      have hj : j ∉ vis := by
        intro hmem
        obtain ⟨k', q', hk, hm'⟩ := hv j hmem
        have := means_unique hcl hm hm'
        omega
      obtain ⟨gs, hgs, hg⟩ := merge_means (order := order) hcl hm hs (hb (by omega))
      rw [MergeRefs.follow, Proofs.MergeRefs.refText_some.2 (⟨hne, by rw [hc]; exact ref_only hcl r⟩ : RefTo _ r)]
      dsimp only
      rw [hr]
      dsimp only
      rw [if_neg (by simp [hcls]), if_neg hj, hgs]
      exact ih hs n (j :: vis) gs (by omega) (by
        intro v hv'
        rcases List.mem_cons.1 hv' with rfl | hv'
        · exact ⟨k, q, Nat.le_refl _, hm⟩
        · obtain ⟨k', q', hk, hm'⟩ := hv v hv'
          exact ⟨k', q', by omega, hm'⟩) hg

theorem prepared (hcl : c = cParameter ∨ c = cResponse) {k i : Nat} {q : Dict Str Tree} (hm : MeansAs W c k i q)
    (hs : ∀ o, parse v20 c (.dict q) = some o → Shaped v20 (.one c) o) (hk : k < fuel) :
    ∃ t, MergeRefs.effective W order c fuel i = some (.value t) := by
  obtain ⟨gs, hgs, hg⟩ := merge_means (order := order) hcl hm hs blank_fresh
  unfold MergeRefs.effective
  rw [fresh, hgs]
  exact follow_ok hcl hm hs fuel [i] gs hk (by
    intro v hv
    cases List.mem_singleton.1 hv
    exact ⟨k, q, Nat.le_refl _, hm⟩) hg

end Proofs.Prepared
