import Verif.Spec.AppResolve
import Verif.Proofs.Scan
/-! # Helper lemmas for references to objects (C47) -/

namespace Proofs.AppResolve
open Py Utils Tree Spec Spec.Places _root_.AppResolve Spec.AppResolve Proofs.ScanTree

theorem mem_set {κ ν : Type} [DecidableEq κ] {d : Dict κ ν} {k : κ} {v : ν} {x : κ × ν}
    (h : x ∈ Dict.set d k v) : x ∈ d ∨ x = (k, v) := by
  induction d with
  | nil => simp [Dict.set] at h; exact Or.inr h
  | cons y d ih =>
    obtain ⟨k', v'⟩ := y
    rw [Dict.set] at h
    split at h
    · next e =>
      subst e
      rcases List.mem_cons.1 h with h | h
      · exact Or.inr h
      · exact Or.inl (List.mem_cons_of_mem _ h)
    · rcases List.mem_cons.1 h with h | h
      · subst h; exact Or.inl (List.mem_cons_self ..)
      · rcases ih h with h | h
        · exact Or.inl (List.mem_cons_of_mem _ h)
        · exact Or.inr h

theorem startsWith_iff {s p : Str} : startsWith s p = true ↔ p <+: s := by
  simp [startsWith]

theorem drop_pointer (ks us : List Str) :
    (jp_split (some ((pointer (ks ++ us)).drop (pointer ks).length))).tail = us := by
  have : pointer (ks ++ us) = pointer ks ++ us.flatMap fun t => '/' :: rfcEscape t := by
    simp [pointer]
  rw [this, List.drop_left]
  cases us with
  | nil => rfl
  | cons t us =>
    have h := split_pointer (t :: us)
    have hs : ((t :: us).flatMap fun t => '/' :: rfcEscape t) = '/' :: enc (t :: us) := by
      simp [enc]
    rw [hs]
    have hp : pointer (t :: us) = '#' :: '/' :: enc (t :: us) := by
      simp [pointer, enc]
    rw [hp] at h
    simp only [jp_split, splitChar] at h ⊢
    generalize hx : splitChar '/' (enc (t :: us)) = x at *
    simp [consHead] at h ⊢
    exact h.2

section
variable {a : App} {den : Str → List Str → Except Exc Tree} {R : Str → List Str → Prop}

/-- what the search in a coherent cache finds -/
theorem lookup_ok (M : Meaning a den R) {objs : Objs} (hc : Coherent den R objs) {u : Str} {ts : List Str}
    (hr : R u ts) :
    (¬ Covers objs u ts ∧ lookup (Dict.get? objs u) (pointer ts) = .ok none) ∨
    (Covers objs u ts ∧ lookup (Dict.get? objs u) (pointer ts) = (den u ts).map some) := by
  have hc := hc u
  unfold Covers lookup
  cases ho : Dict.get? objs u with
  | none => exact Or.inl ⟨id, rfl⟩
  | some o =>
    rw [ho] at hc
    cases o with
    | whole t =>
      right
      refine ⟨trivial, ?_⟩
      dsimp only at hc ⊢
      rw [split_pointer]
      have := M.below u [] ts t hc
      rw [List.nil_append] at this
      rw [this]; rfl
    | parts d =>
      dsimp only at hc ⊢
      cases hf : d.find? (fun kv => startsWith (pointer ts) kv.1) with
      | none =>
        left
        refine ⟨?_, rfl⟩
        rintro ⟨ks, ⟨us, rfl⟩, hk⟩
        obtain ⟨⟨k, v⟩, hm, e⟩ := List.mem_map.1 hk
        have := List.find?_eq_none.1 hf (k, v) hm
        apply this
        rw [startsWith_iff]
        dsimp only at e ⊢
        rw [e]
        exact ⟨us.flatMap fun t => '/' :: rfcEscape t, by simp [pointer]⟩
      | some kv =>
        obtain ⟨k, v⟩ := kv
        have hm := List.mem_of_find?_eq_some hf
        have hp := List.find?_some hf
        obtain ⟨ks, rfl, hR, hd⟩ := hc k v hm
        rw [startsWith_iff] at hp
        obtain ⟨us, rfl⟩ := M.separate u ks ts hR hr hp
        right
        refine ⟨⟨ks, ⟨us, rfl⟩, List.mem_map.2 ⟨_, hm, rfl⟩⟩, ?_⟩
        dsimp only
        rw [drop_pointer, M.below u ks us v hd]

theorem pointer_root {ts : List Str} : pointer ts = c!"#" ↔ ts = [] := by
  cases ts <;> simp [pointer]

theorem store_ok {objs objs' : Objs} (hc : Coherent den R objs) {u : Str} {ts : List Str}
    (hr : R u ts) {t : Tree} (hd : den u ts = .ok t) (h : store objs u (pointer ts) t = .ok objs') :
    Coherent den R objs' ∧ Covers objs' u ts ∧ ∀ v us, Covers objs v us → Covers objs' v us := by
  unfold store at h
  cases ho : Dict.get? objs u with
  | none =>
    rw [ho] at h
    cases h
    refine ⟨?_, ?_, ?_⟩
    · intro v
      rw [Dict.get?_set]
      by_cases hv : v = u
      · subst hv
        rw [if_pos rfl]
        by_cases hj : pointer ts = c!"#"
        · rw [if_pos hj]
          have := pointer_root.1 hj
          subst this
          exact hd
        · rw [if_neg hj]
          intro k w hm
          simp only [List.mem_singleton, Prod.mk.injEq] at hm
          obtain ⟨rfl, rfl⟩ := hm
          exact ⟨ts, rfl, hr, hd⟩
      · rw [if_neg hv]; exact hc v
    · unfold Covers
      rw [Dict.get?_set, if_pos rfl]
      by_cases hj : pointer ts = c!"#"
      · rw [if_pos hj]; trivial
      · rw [if_neg hj]; exact ⟨ts, List.prefix_refl _, by simp [Dict.keys]⟩
    · intro v us hv
      unfold Covers at *
      rw [Dict.get?_set]
      by_cases e : v = u
      · subst e; rw [ho] at hv; exact hv.elim
      · rw [if_neg e]; exact hv
  | some o =>
    rw [ho] at h
    cases o with
    | whole _ => cases h
    | parts d =>
      cases h
      have hcu := hc u
      rw [ho] at hcu
      dsimp only at hcu
      refine ⟨?_, ?_, ?_⟩
      · intro v
        rw [Dict.get?_set]
        by_cases hv : v = u
        · subst hv
          rw [if_pos rfl]
          intro k w hm
          rcases mem_set hm with hm | hm
          · exact hcu k w hm
          · cases hm; exact ⟨ts, rfl, hr, hd⟩
        · rw [if_neg hv]; exact hc v
      · unfold Covers
        rw [Dict.get?_set, if_pos rfl]
        exact ⟨ts, List.prefix_refl _, Dict.mem_keys_set.2 (Or.inl rfl)⟩
      · intro v us hv
        unfold Covers at *
        rw [Dict.get?_set]
        by_cases e : v = u
        · subst e
          rw [ho] at hv
          obtain ⟨ks, h1, h2⟩ := hv
          rw [if_pos rfl]
          exact ⟨ks, h1, Dict.mem_keys_set.2 (Or.inr h2)⟩
        · rw [if_neg e]; exact hv

/-- what a resolution may do: the cache stays coherent and keeps what it has, the result is what the
reference means, and is covered by the cache afterwards -/
def Good (den : Str → List Str → Except Exc Tree) (R : Str → List Str → Prop) (objs : Objs) (u : Str)
    (ts : List Str) (res : Except Exc Tree × Objs) : Prop :=
  Coherent den R res.2 ∧ (∀ v us, Covers objs v us → Covers res.2 v us) ∧
    ∀ t, res.1 = .ok t → den u ts = .ok t ∧ wrap t = .ok t ∧ (u ≠ [] → Covers res.2 u ts)

theorem wrap_ok {t t' : Tree} (h : wrap t = .ok t') : t' = t ∧ wrap t = .ok t := by
  unfold wrap at *
  split at h <;> cases h
  exact ⟨rfl, rfl⟩

theorem refs_ok {find : Objs → Str → Except Exc Tree × Objs}
    (hf : ∀ objs r u ts, Coherent den R objs → jr_split a.path2url a.abspath r = .ok (u, pointer ts) → R u ts →
      Good den R objs u ts (find objs r)) :
    ∀ (rs : List Str) (objs : Objs), Coherent den R objs →
      (∀ r ∈ rs, ∃ u ts, jr_split a.path2url a.abspath r = .ok (u, pointer ts) ∧ R u ts) →
      Coherent den R (resolveRefs a find rs objs).2 ∧
        ∀ v us, Covers objs v us → Covers (resolveRefs a find rs objs).2 v us
  | [], objs, hc, _ => ⟨hc, fun _ _ h => h⟩
  | r :: rs, objs, hc, hr => by
    obtain ⟨u, ts, hj, hR⟩ := hr r (by simp)
    have hg := hf objs r u ts hc hj hR
    rw [resolveRefs]
    cases hx : find objs r with
    | mk res objs' =>
      rw [hx] at hg
      cases res with
      | error e => exact ⟨hg.1, hg.2.1⟩
      | ok ro =>
        dsimp only
        split
        · exact ⟨hg.1, hg.2.1⟩
        · split
          · exact ⟨hg.1, hg.2.1⟩
          · have ih := refs_ok hf rs objs' hg.1 fun r hm => hr r (by simp [hm])
            exact ⟨ih.1, fun v us h => ih.2 v us (hg.2.1 v us h)⟩

theorem loadRef_ok (M : Meaning a den R) {find : Objs → Str → Except Exc Tree × Objs}
    (hf : ∀ objs r u ts, Coherent den R objs → jr_split a.path2url a.abspath r = .ok (u, pointer ts) → R u ts →
      Good den R objs u ts (find objs r))
    {objs : Objs} (hc : Coherent den R objs) {u : Str} {ts : List Str} (hr : R u ts) (p : Option Nat) :
    Good den R objs u ts (loadRef a find objs u (pointer ts) p) := by
  unfold loadRef
  by_cases hu : u ≠ []
  · rw [if_pos hu, M.fresh u ts p hu hr]
    cases hd : den u ts with
    | error e => exact ⟨hc, fun _ _ h => h, nofun⟩
    | ok obj =>
      dsimp only
      unfold prepare_obj
      cases hs : store objs u (pointer ts) obj with
      | error e => exact ⟨hc, fun _ _ h => h, nofun⟩
      | ok objs1 =>
        obtain ⟨g1, g2, g3⟩ := store_ok hc hr hd hs
        have := refs_ok hf (a.refs obj) objs1 g1 fun r hm => M.refs u ts obj r hr hd hm
        dsimp only
        cases hx : resolveRefs a find (a.refs obj) objs1 with
        | mk res objs2 =>
          rw [hx] at this
          cases res with
          | error e => exact ⟨this.1, fun v us h => this.2 v us (g3 v us h), nofun⟩
          | ok _ =>
            refine ⟨this.1, fun v us h => this.2 v us (g3 v us h), fun t ht => ?_⟩
            obtain ⟨rfl, hw⟩ := wrap_ok ht
            exact ⟨hd, hw, fun _ => this.2 u ts g2⟩
  · rw [if_neg hu]
    have hu : u = [] := by simpa using hu
    subst hu
    rw [split_pointer, List.tail_cons, ← M.root ts]
    cases hd : den [] ts with
    | error e => exact ⟨hc, fun _ _ h => h, nofun⟩
    | ok t =>
      refine ⟨hc, fun _ _ h => h, fun t' ht => ?_⟩
      obtain ⟨rfl, hw⟩ := wrap_ok ht
      exact ⟨hd, hw, fun h => absurd rfl h⟩

theorem resolve_ok (M : Meaning a den R) : ∀ (n : Nat) (objs : Objs) (r u : Str) (ts : List Str) (p : Option Nat),
    Coherent den R objs → jr_split a.path2url a.abspath r = .ok (u, pointer ts) → R u ts →
    Good den R objs u ts (_root_.AppResolve.resolve a n objs r p)
  | 0, objs, r, u, ts, p, hc, _, _ => ⟨hc, fun _ _ h => h, nofun⟩
  | n + 1, objs, r, u, ts, p, hc, hj, hR => by
    have hf := fun objs r u ts h1 h2 h3 => resolve_ok M n objs r u ts (some a.schemaContext) h1 h2 h3
    rw [_root_.AppResolve.resolve]
    by_cases hr : r = []
    · rw [if_pos hr]; exact ⟨hc, fun _ _ h => h, nofun⟩
    rw [if_neg hr, hj]
    dsimp only
    rcases lookup_ok M hc hR with ⟨_, hl⟩ | ⟨hcov, hl⟩
    · rw [hl]
      exact loadRef_ok M hf hc hR p
    · rw [hl]
      cases hd : den u ts with
      | error e => exact ⟨hc, fun _ _ h => h, nofun⟩
      | ok t =>
        simp only [Except.map]
        by_cases hn : isNone t = true
        · rw [if_pos hn]; exact loadRef_ok M hf hc hR p
        · rw [if_neg hn]
          refine ⟨hc, fun _ _ h => h, fun t' ht => ?_⟩
          obtain ⟨rfl, hw⟩ := wrap_ok ht
          exact ⟨hd, hw, fun _ => hcov⟩

/-- a covered reference is answered from the cache -/
theorem resolve_covered (M : Meaning a den R) {objs : Objs} (hc : Coherent den R objs) {r u : Str} {ts : List Str}
    (hr : r ≠ []) (hj : jr_split a.path2url a.abspath r = .ok (u, pointer ts)) (hR : R u ts)
    (hcov : Covers objs u ts) {t : Tree} (hd : den u ts = .ok t) (hw : wrap t = .ok t) (n : Nat) (p : Option Nat) :
    _root_.AppResolve.resolve a (n + 1) objs r p = (.ok t, objs) := by
  rw [_root_.AppResolve.resolve, if_neg hr, hj]
  dsimp only
  rcases lookup_ok M hc hR with ⟨h, _⟩ | ⟨_, hl⟩
  · exact absurd hcov h
  · rw [hl, hd]
    simp only [Except.map]
    have hn : isNone t = false := by
      unfold wrap at hw
      split at hw <;> first | cases hw | skip
      next h _ =>
        cases t with
        | atom a => cases a <;> first | rfl | exact absurd rfl h
        | _ => rfl
    rw [hn]
    simp [hw]

/-! ## the targets of references -/

/-- the object `t` is in the cache under the URL and the pointer -/
def Stored (objs : Objs) (u k : Str) (t : Tree) : Prop :=
  (k = c!"#" ∧ Dict.get? objs u = some (.whole t)) ∨ ∃ d, Dict.get? objs u = some (.parts d) ∧ (k, t) ∈ d

/-- all references in the object mean schemas -/
def Closed (a : App) (den : Str → List Str → Except Exc Tree) (t : Tree) : Prop :=
  ∀ r ∈ a.refs t, ∃ v us s, jr_split a.path2url a.abspath r = .ok (v, pointer us) ∧ den v us = .ok s ∧
    a.isSchema s = true

theorem stored_store {objs objs' : Objs} {u jp : Str} {t : Tree} (h : store objs u jp t = .ok objs')
    {v k : Str} {s : Tree} (hs : Stored objs' v k s) : Stored objs v k s ∨ (v = u ∧ k = jp) := by
  have key : ∀ c, Stored (Dict.set objs u c) v k s → v ≠ u → Stored objs v k s := by
    intro c hs hv
    unfold Stored at *
    rw [Dict.get?_set, if_neg hv] at hs
    exact hs
  by_cases hv : v = u
  · subst hv
    unfold store at h
    cases ho : Dict.get? objs v with
    | none =>
      rw [ho] at h
      cases h
      right
      refine ⟨rfl, ?_⟩
      unfold Stored at hs
      rw [Dict.get?_set, if_pos rfl] at hs
      by_cases hj : jp = c!"#"
      · rw [if_pos hj] at hs
        rcases hs with ⟨hk, _⟩ | ⟨d, hd, _⟩
        · rw [hk, hj]
        · cases hd
      · rw [if_neg hj] at hs
        rcases hs with ⟨_, hd⟩ | ⟨d, hd, hm⟩
        · cases hd
        · cases hd
          simp only [List.mem_singleton, Prod.mk.injEq] at hm
          exact hm.1
    | some o =>
      rw [ho] at h
      cases o with
      | whole _ => cases h
      | parts d =>
        cases h
        unfold Stored at hs
        rw [Dict.get?_set, if_pos rfl] at hs
        rcases hs with ⟨_, hd⟩ | ⟨d', hd, hm⟩
        · cases hd
        · cases hd
          rcases mem_set hm with hm | hm
          · exact Or.inl (Or.inr ⟨d, ho, hm⟩)
          · cases hm; exact Or.inr ⟨rfl, rfl⟩
  · left
    unfold store at h
    cases ho : Dict.get? objs u with
    | none => rw [ho] at h; cases h; exact key _ hs hv
    | some o =>
      rw [ho] at h
      cases o with
      | whole _ => cases h
      | parts d => cases h; exact key _ hs hv

/-- everything in the cache is closed, or in the set `P` -/
def Settled (a : App) (den : Str → List Str → Except Exc Tree) (P : Str → Str → Prop) (objs : Objs) : Prop :=
  ∀ u k t, Stored objs u k t → P u k ∨ Closed a den t

theorem coherent_stored (hc : Coherent den R objs) {u : Str} {ts : List Str} {s : Tree}
    (h : Stored objs u (pointer ts) s) : den u ts = .ok s ∨ ∃ ks, pointer ts = pointer ks ∧ R u ks ∧ den u ks = .ok s := by
  have := hc u
  rcases h with ⟨h1, h2⟩ | ⟨d, h1, h2⟩
  · rw [h2] at this
    rw [pointer_root.1 h1]
    exact Or.inl this
  · rw [h1] at this
    exact Or.inr (this _ _ h2)

theorem refs_settled {find : Objs → Str → Except Exc Tree × Objs}
    (hf : ∀ objs r u ts, Coherent den R objs → jr_split a.path2url a.abspath r = .ok (u, pointer ts) → R u ts →
      Good den R objs u ts (find objs r))
    (hg : ∀ P objs r u ts t objs', Coherent den R objs → jr_split a.path2url a.abspath r = .ok (u, pointer ts) → R u ts →
      Settled a den P objs → find objs r = (.ok t, objs') → Settled a den P objs') :
    ∀ (rs : List Str) (P : Str → Str → Prop) (objs objs' : Objs), Coherent den R objs →
      (∀ r ∈ rs, ∃ u ts, jr_split a.path2url a.abspath r = .ok (u, pointer ts) ∧ R u ts) →
      Settled a den P objs → resolveRefs a find rs objs = (.ok (), objs') →
      Settled a den P objs' ∧
        ∀ r ∈ rs, ∃ v us s, jr_split a.path2url a.abspath r = .ok (v, pointer us) ∧ den v us = .ok s ∧
          a.isSchema s = true
  | [], P, objs, objs', _, _, hs, h => by
    rw [resolveRefs] at h
    cases h
    exact ⟨hs, by simp⟩
  | r :: rs, P, objs, objs', hc, hr, hs, h => by
    obtain ⟨u, ts, hj, hR⟩ := hr r (by simp)
    have h1 := hf objs r u ts hc hj hR
    have h2 := hg P objs r u ts
    rw [resolveRefs] at h
    cases hx : find objs r with
    | mk res objs1 =>
      rw [hx] at h h1
      cases res with
      | error e => cases h
      | ok ro =>
        dsimp only at h
        split at h
        · cases h
        · split at h
          · cases h
          · next hsch =>
            have h3 := h2 ro objs1 hc hj hR hs hx
            have ih := refs_settled hf hg rs P objs1 objs' h1.1 (fun r hm => hr r (by simp [hm])) h3 h
            refine ⟨ih.1, fun r' hm => ?_⟩
            rcases List.mem_cons.1 hm with rfl | hm
            · exact ⟨u, ts, ro, hj, (h1.2.2 ro rfl).1, by simpa using hsch⟩
            · exact ih.2 r' hm

theorem resolve_settled (M : Meaning a den R) : ∀ (n : Nat) (P : Str → Str → Prop) (objs : Objs) (r u : Str)
    (ts : List Str) (p : Option Nat) (t : Tree) (objs' : Objs),
    Coherent den R objs → jr_split a.path2url a.abspath r = .ok (u, pointer ts) → R u ts →
    Settled a den P objs → _root_.AppResolve.resolve a n objs r p = (.ok t, objs') → Settled a den P objs'
  | 0, P, objs, r, u, ts, p, t, objs', _, _, _, _, h => by cases h
  | n + 1, P, objs, r, u, ts, p, t, objs', hc, hj, hR, hs, h => by
    have hf := fun objs r u ts h1 h2 h3 => resolve_ok M n objs r u ts (some a.schemaContext) h1 h2 h3
    have hg := fun P objs r u ts t objs' h1 h2 h3 h4 h5 =>
      resolve_settled M n P objs r u ts (some a.schemaContext) t objs' h1 h2 h3 h4 h5
    have hl : ∀ p, loadRef a (fun objs r => _root_.AppResolve.resolve a n objs r (some a.schemaContext)) objs u
        (pointer ts) p = (.ok t, objs') → Settled a den P objs' := by
      intro p h
      unfold loadRef at h
      by_cases hu : u ≠ []
      · rw [if_pos hu, M.fresh u ts p hu hR] at h
        cases hd : den u ts with
        | error e => rw [hd] at h; cases h
        | ok obj =>
          rw [hd] at h
          dsimp only at h
          unfold prepare_obj at h
          cases hst : store objs u (pointer ts) obj with
          | error e => rw [hst] at h; cases h
          | ok objs1 =>
            rw [hst] at h
            dsimp only at h
            obtain ⟨g1, _, _⟩ := store_ok hc hR hd hst
            cases hx : resolveRefs a (fun objs r => _root_.AppResolve.resolve a n objs r (some a.schemaContext))
                (a.refs obj) objs1 with
            | mk res objs2 =>
              rw [hx] at h
              cases res with
              | error e => cases h
              | ok _ =>
                dsimp only at h
                have e : objs2 = objs' := (Prod.mk.inj h).2
                subst e
                have hP : Settled a den (fun v k => P v k ∨ (v = u ∧ k = pointer ts)) objs1 := by
                  intro v k s hsd
                  rcases stored_store hst hsd with h1 | h1
                  · rcases hs v k s h1 with h2 | h2
                    · exact Or.inl (Or.inl h2)
                    · exact Or.inr h2
                  · exact Or.inl (Or.inr h1)
                have h3 := refs_settled hf hg (a.refs obj) _ objs1 objs2 g1
                  (fun r hm => M.refs u ts obj r hR hd hm) hP hx
                have hr' := refs_ok hf (a.refs obj) objs1 g1 fun r hm => M.refs u ts obj r hR hd hm
                rw [hx] at hr'
                intro v k s hsd
                rcases h3.1 v k s hsd with (h4 | ⟨rfl, rfl⟩) | h4
                · exact Or.inl h4
                · right
                  have : s = obj := by
                    rcases coherent_stored hr'.1 hsd with h5 | ⟨ks, h5, _, h6⟩
                    · rw [hd] at h5; cases h5; rfl
                    · have : ks = ts := by
                        have e1 := split_pointer ks
                        have e2 := split_pointer ts
                        rw [← h5, e2] at e1
                        simpa using e1.symm
                      subst this
                      rw [hd] at h6; cases h6; rfl
                  subst this
                  exact h3.2
                · exact Or.inr h4
      · rw [if_neg hu] at h
        have e : objs = objs' := by
          split at h <;> exact (Prod.mk.inj h).2
        subst e
        exact hs
    rw [_root_.AppResolve.resolve] at h
    by_cases hr : r = []
    · rw [if_pos hr] at h; cases h
    rw [if_neg hr, hj] at h
    dsimp only at h
    split at h
    · cases h
    · split at h
      · exact hl p h
      · have e : objs = objs' := (Prod.mk.inj h).2
        subst e
        exact hs
    · exact hl p h

end

end Proofs.AppResolve
