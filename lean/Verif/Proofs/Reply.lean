import Verif.Spec.Reply
import Verif.Proofs.Schemas
import Verif.Props.C29
import Verif.Props.C70
/-! # Lemmas for C80 -/

namespace Proofs.Reply
open Py Tree _root_.Doc Spec.Merge Spec.Described Spec.Reply Io
open _root_.Effective (attr)
open _root_.Schemas (entries)
open Props

variable {ω : Type} {W : MergeRefs.World} {order : List Atom → List Atom} {env : Prim.Env ω} {ref : Nat → Option Nat}
  {fuel : Nat}

/-! ## JSON texts denote JSON values -/

theorem foreignItems_append {l m : List Val} (h : C70.foreignItems l = false) (h' : C70.foreignItems m = false) :
    C70.foreignItems (l ++ m) = false := by
  induction l with
  | nil => exact h'
  | cons v l ih =>
    simp only [C70.foreignItems, Bool.or_eq_false_iff] at h
    simp only [List.cons_append, C70.foreignItems, Bool.or_eq_false_iff]
    exact ⟨h.1, ih h.2⟩

theorem foreignPairs_set {d : List (Str × Val)} {k : Str} {v : Val} (h : C70.foreignPairs d = false)
    (hv : C70.foreign v = false) : C70.foreignPairs (Dict.set d k v) = false := by
  induction d with
  | nil => simp [Dict.set, C70.foreignPairs, hv]
  | cons x d ih =>
    obtain ⟨k', v'⟩ := x
    simp only [C70.foreignPairs, Bool.or_eq_false_iff] at h
    simp only [Dict.set]
    split
    · simp only [C70.foreignPairs, Bool.or_eq_false_iff]; exact ⟨hv, h.2⟩
    · simp only [C70.foreignPairs, Bool.or_eq_false_iff]; exact ⟨h.1, ih h.2⟩

theorem number_foreign (x : Spec.Json.Number) : C70.foreign x.val = false := by
  unfold Spec.Json.Number.val
  split <;> simp [C70.foreign]

theorem read_foreign (n : Nat) : (∀ s v s', Spec.Json.readValue n s = some (v, s') → C70.foreign v = false) ∧
    (∀ l s v s', C70.foreignItems l = false → Spec.Json.readElements n l s = some (v, s') → C70.foreign v = false) ∧
    (∀ d s v s', C70.foreignPairs d = false → Spec.Json.readMembers n d s = some (v, s') → C70.foreign v = false) := by
  induction n with
  | zero =>
    refine ⟨fun s v s' h => ?_, fun l s v s' _ h => ?_, fun d s v s' _ h => ?_⟩
    · simp [Spec.Json.readValue] at h
    · simp [Spec.Json.readElements] at h
    · simp [Spec.Json.readMembers] at h
  | succ n ih =>
    obtain ⟨h1, h2, h3⟩ := ih
    refine ⟨fun s v s' h => ?_, fun l s v s' hl h => ?_, fun d s v s' hd h => ?_⟩
    · unfold Spec.Json.readValue at h
      split at h
      · obtain ⟨x, -, hx⟩ := Option.map_eq_some_iff.1 h
        cases hx; rfl
      · split at h
        · cases h; rfl
        · exact h2 [] _ _ _ rfl h
      · split at h
        · cases h; rfl
        · exact h3 [] _ _ _ rfl h
      · cases h; rfl
      · cases h; rfl
      · cases h; rfl
      · obtain ⟨x, -, hx⟩ := Option.map_eq_some_iff.1 h
        cases hx; exact number_foreign _
    · unfold Spec.Json.readElements at h
      split at h
      · cases h
      · next u s1 hu =>
        have hu' := h1 _ _ _ hu
        have hl' : C70.foreignItems (l ++ [u]) = false :=
          foreignItems_append hl (by simp [C70.foreignItems, hu'])
        split at h
        · cases h; rw [C70.foreign]; exact hl'
        · exact h2 _ _ _ _ hl' h
        · cases h
    · unfold Spec.Json.readMembers at h
      split at h
      · split at h
        · cases h
        · split at h
          · split at h
            · cases h
            · next u s1 hu =>
              split at h
              · cases h; rw [C70.foreign]; exact foreignPairs_set hd (h1 _ _ _ hu)
              · exact h3 _ _ _ _ (foreignPairs_set hd (h1 _ _ _ hu)) h
              · cases h
          · cases h
      · cases h

theorem readJson_foreign {s : Str} {v : Val} (h : Spec.Json.readJson s = some v) : C70.foreign v = false := by
  unfold Spec.Json.readJson at h
  split at h
  · next hr =>
    split at h
    · cases h; exact (read_foreign _).1 _ _ _ hr
    · cases h
  · cases h

/-! ## responses -/

/-- the schema of a response -/
theorem schema_of (ho : ∀ l, (order l).Perm l) {k i : Nat} {q : Dict Str Tree} (hm : MeansAs W cResponse k i q) {t : Tree}
    (he : MergeRefs.effective W order cResponse fuel i = some (.value t)) {r : RespDecl Nat Nat}
    (hr : Reply.Declares env ref W r t) :
    (∀ s, Dict.get? q c!"schema" = some (.dict s) → ∃ m o w, r.schema = some m ∧ Schemas.Shows env ref W m w ∧
      parse v20 cSchema (.dict s) = some o ∧ Copy v20 (.one cSchema) o w) ∧
    ((∀ s, Dict.get? q c!"schema" ≠ some (.dict s)) → r.schema = none) := by
  obtain ⟨_, fs, gs, h1, rfl, h3⟩ := Proofs.Effective.effective_copied (Or.inr rfl) ho hm he
  obtain ⟨-, hs⟩ := hr
  rcases Proofs.Effective.child (n := c!"schema") (c' := cSchema) h1 h3 (by decide) rfl rfl with
    ⟨hq, ha⟩ | ⟨e, fs', gs', he', hpe, ha, hc⟩
  · refine ⟨fun s hs' => ?_, fun _ => ?_⟩
    · rcases hq with hq | hq <;> rw [hq] at hs' <;> cases hs'
    · rw [ha] at hs
      cases h : r.schema with
      | none => rfl
      | some m =>
        rw [h] at hs
        cases hs with
        | some h => cases h
  · refine ⟨fun s hs' => ?_, fun h => absurd he' (h e)⟩
    rw [he'] at hs'; cases hs'
    rw [ha] at hs
    cases h : r.schema with
    | none =>
      rw [h] at hs
      cases hs with
      | none h => cases h
    | some m =>
      rw [h] at hs
      cases hs with
      | some h => exact ⟨m, _, _, rfl, h, hpe, hc⟩

/-- the headers of a response -/
theorem header_of (ho : ∀ l, (order l).Perm l) {k i : Nat} {q : Dict Str Tree} (hm : MeansAs W cResponse k i q) {t : Tree}
    (he : MergeRefs.effective W order cResponse fuel i = some (.value t)) {r : RespDecl Nat Nat}
    (hr : Reply.Declares env ref W r t) (x : Str) :
    (headerAt q x = none → Dict.get? r.headers x = none) ∧
      ∀ d, headerAt q x = some (.dict d) → ∃ n, Dict.get? r.headers x = some n ∧ Described env n d := by
  obtain ⟨_, fs, gs, h1, rfl, h3⟩ := Proofs.Effective.effective_copied (Or.inr rfl) ho hm he
  obtain ⟨hh, -⟩ := hr
  have hnm := Proofs.Schemas.named_get hh x
  obtain ⟨v, hv, v1, v2, v3⟩ := Proofs.Schemas.parsed_child h1 (n := c!"headers") (dflt := .dict []) (k := .dict cHeader) rfl rfl
  obtain ⟨w, hw, c1, c2⟩ := h3 c!"headers" (.dict []) v (by decide) rfl hv
  have ha : attr gs c!"headers" = w := by rw [attr, hw]; rfl
  rw [ha] at hnm
  have empty : v = .dict [] → Dict.get? r.headers x = none := by
    rintro rfl
    apply hnm.1
    rw [c1 (by rfl)]; rfl
  unfold headerAt
  cases hq : Dict.get? q c!"headers" with
  | none => exact ⟨fun _ => empty (v1 hq), fun d h => by cases h⟩
  | some j =>
    by_cases hj : isNull j = true
    · have : j = .atom .none := by
        cases j with
        | atom a => cases a <;> simp_all [isNull]
        | _ => simp [isNull] at hj
      subst this
      exact ⟨fun _ => empty (v2 hq), fun d h => by cases h⟩
    · have hv' := v3 j hq (by simpa using hj)
      cases j with
      | atom a => rw [parseAs] at hv'; cases a <;> cases hv'
      | list l => simp only [parseAs] at hv'; cases hv'
      | obj c d => rw [parseAs] at hv'; cases hv'
      | dict d =>
        rw [parseAs] at hv'
        dsimp only at hv' ⊢
        cases hpd : parseDict v20 cHeader d with
        | none => rw [hpd] at hv'; cases hv'
        | some e =>
          rw [hpd] at hv'; cases hv'
          obtain ⟨hg, hg'⟩ := Proofs.Schemas.parseDict_get hpd x
          have hat : (Dict.get? e x = none → Dict.get? (entries w) x = none) ∧
              ∀ v, Dict.get? e x = some v → ∃ u, Dict.get? (entries w) x = some u ∧ Copy v20 (.one cHeader) v u := by
            cases e with
            | nil => rw [c1 (by rfl)]; exact ⟨fun _ => rfl, fun v h => by cases h⟩
            | cons y e =>
              have := (c2 (by simp [isDefault])).2 _ rfl
              cases this with
              | dict c d e hk h => exact Proofs.Schemas.get_of_index hk h x
          constructor
          · intro hno
            apply hnm.1
            apply hat.1
            rw [hg, hno]; rfl
          · intro d' hd'
            cases he : Dict.get? e x with
            | none => exact absurd he (hg' (by rw [hd']; simp))
            | some u =>
              rw [hd', Option.bind_some, he] at hg
              obtain ⟨u', hu1, hu2⟩ := hat.2 u he
              obtain ⟨n, hn1, hn2⟩ := hnm.2 u' hu1
              obtain ⟨fs', rfl⟩ := Proofs.Schemas.parse_dict hg.symm
              obtain ⟨gs', rfl, hcp⟩ := Proofs.Effective.copied_of_copy hu2 rfl
              exact ⟨n, hn1, Proofs.Effective.described hn2 rfl (.inr (.inr rfl)) hg.symm hcp⟩

theorem table_get {ids : Dict Str Nat} {table : Dict Str (RespDecl Nat Nat)}
    (h : Reply.Table env ref W order fuel ids table) (k : Str) :
    (Dict.get? ids k = none → Dict.get? table k = none) ∧
      ∀ i, Dict.get? ids k = some i → ∃ r t, Dict.get? table k = some r ∧
        MergeRefs.effective W order cResponse fuel i = some (.value t) ∧ Reply.Declares env ref W r t := by
  induction h with
  | nil => exact ⟨fun _ => rfl, fun i h => by cases h⟩
  | @cons n i t r l m h1 h2 _ ih =>
    by_cases hn : n = k
    · subst hn
      simp only [Dict.get?, if_true]
      exact ⟨fun h => (by cases h), fun j hj => by cases hj; exact ⟨r, t, rfl, h1, h2⟩⟩
    · simp only [Dict.get?, if_neg hn]
      exact ih

theorem entry_get {ids : Dict Str Nat} {table : Dict Str (RespDecl Nat Nat)}
    (h : Reply.Table env ref W order fuel ids table) (n : Int) :
    (entryFor ids n = none → C28.entry table (some n) = none) ∧
      ∀ i, entryFor ids n = some i → ∃ r t, C28.entry table (some n) = some r ∧
        MergeRefs.effective W order cResponse fuel i = some (.value t) ∧ Reply.Declares env ref W r t := by
  have h1 := table_get h (toString n).toList
  have h2 := table_get h c!"default"
  unfold entryFor C28.entry statusText
  cases hg : Dict.get? ids (toString n).toList with
  | none =>
    rw [h1.1 hg]
    exact h2
  | some i =>
    obtain ⟨r, t, hr, h3⟩ := h1.2 i hg
    rw [hr]
    exact ⟨fun h => (by cases h), fun j hj => by cases hj; exact ⟨r, t, rfl, h3⟩⟩

/-! ## the media type -/

theorem kept_mem {η h σ τ ρ υ D : Type} {env : REnv η h σ τ ρ υ D} {r : Option (RespDecl h σ)} {l : List (Str × Str)} {k : Str}
    {x : η} (hm : (k, x) ∈ C28.kept env r l) : ∃ v, (k, v) ∈ l ∧ C28.value env r k v = .ok x := by
  induction l with
  | nil => cases hm
  | cons e l ih =>
    obtain ⟨k', v⟩ := e
    rw [C28.kept] at hm
    cases hv : C28.value env r k' v with
    | error e => rw [hv] at hm; cases hm
    | ok y =>
      rw [hv] at hm
      rcases List.mem_cons.1 hm with heq | hm
      · cases heq; exact ⟨v, List.mem_cons_self .., hv⟩
      · obtain ⟨u, h1, h2⟩ := ih hm
        exact ⟨u, List.mem_cons_of_mem _ h1, h2⟩

theorem json_codec {o : Reply.Outside} {ct : Str} (h : JsonType o ct) (raw : Bytes ⊕ Str) :
    Codec.withCodec o.text o.codecs ct (o.unmarshal raw) = Prim.Json.unmarshal o.loads raw := by
  obtain ⟨es, a, m, b, params, hc, h1, h2, h3, h4, h5, h6, rfl, h7⟩ := h
  rw [hc, C30.C30_lookup o.text _ _ es _ a m b params h1 h2 h3 h4 h5 h6, h7]
  rfl

end Proofs.Reply
