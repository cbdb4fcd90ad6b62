import Verif.Model.CycleDetector
import Verif.Props.C07
/-!
# C08: strict preparation rejects exactly the documents with circular schemas

Spec side: `RefIn s r` — the reference `r` occurs in schema `s` or nested anywhere inside it.
-/

namespace Props.C08
open Py Utils CycleDetector Spec

/-- `r` is a non-empty `$ref` of `s` or of a schema nested in its properties, allOf,
additionalProperties or items. -/
inductive RefIn : Schema → Str → Prop
  | here {r ps al ap it} : r ≠ [] → RefIn (.mk (some r) ps al ap it) r
  | prop {r ref ps al ap it} (k : Str) (o : Schema) : (k, o) ∈ ps → RefIn o r →
      RefIn (.mk ref ps al ap it) r
  | allOf {r ref ps al ap it} (o : Schema) : o ∈ al → RefIn o r → RefIn (.mk ref ps al ap it) r
  | addl {r ref ps al it} (o : Schema) : RefIn o r → RefIn (.mk ref ps al (some o) it) r
  | items {r ref ps al ap} (o : Schema) : RefIn o r → RefIn (.mk ref ps al ap (some o)) r

mutual
theorem mem_out (s : Schema) (out : List Str) (r : Str) :
    r ∈ schemaOutObj s out ↔ r ∈ out ∨ RefIn s r := by
  match s with
  | .mk ref ps al ap it =>
    have h1 := fun out => mem_outProps ps out r
    have h2 := fun out => mem_outList al out r
    have h3 := fun out => mem_outOpt ap out r
    have h4 := fun out => mem_outOpt it out r
    have key : r ∈ outOpt it (outOpt ap (outList al (outProps ps out))) ↔
        r ∈ out ∨ (∃ p ∈ ps, RefIn p.2 r) ∨ (∃ o ∈ al, RefIn o r) ∨ (∃ o, ap = some o ∧ RefIn o r) ∨
          (∃ o, it = some o ∧ RefIn o r) := by
      rw [h4, h3, h2, h1]; simp only [or_assoc]
    constructor
    · intro h
      have : r ∈ outOpt it (outOpt ap (outList al (outProps ps out))) ∨ ref = some r ∧ r ≠ [] := by
        simp only [schemaOutObj] at h
        split at h
        · rcases List.mem_append.1 h with h | h
          · exact Or.inl h
          · simp at h; subst h; exact Or.inr ⟨rfl, by simp⟩
        · exact Or.inl h
      rcases this with h | ⟨rfl, hr⟩
      · rcases key.1 h with h | ⟨p, hp, h'⟩ | ⟨o, ho, h'⟩ | ⟨o, rfl, h'⟩ | ⟨o, rfl, h'⟩
        · exact Or.inl h
        · exact Or.inr (.prop p.1 p.2 hp h')
        · exact Or.inr (.allOf o ho h')
        · exact Or.inr (.addl o h')
        · exact Or.inr (.items o h')
      · exact Or.inr (.here hr)
    · intro h
      have : r ∈ outOpt it (outOpt ap (outList al (outProps ps out))) ∨ ref = some r ∧ r ≠ [] := by
        rcases h with h | h
        · exact Or.inl (key.2 (Or.inl h))
        · cases h with
          | here hr => exact Or.inr ⟨rfl, hr⟩
          | prop k o hk ho => exact Or.inl (key.2 (Or.inr (Or.inl ⟨_, hk, ho⟩)))
          | allOf o hk ho => exact Or.inl (key.2 (Or.inr (Or.inr (Or.inl ⟨_, hk, ho⟩))))
          | addl o ho => exact Or.inl (key.2 (Or.inr (Or.inr (Or.inr (Or.inl ⟨_, rfl, ho⟩)))))
          | items o ho => exact Or.inl (key.2 (Or.inr (Or.inr (Or.inr (Or.inr ⟨_, rfl, ho⟩)))))
      simp only [schemaOutObj]
      split
      · rcases this with h | ⟨h, _⟩
        · exact List.mem_append.2 (Or.inl h)
        · cases h; simp
      · rename_i hne
        rcases this with h | ⟨h, hr⟩
        · exact h
        · subst h
          obtain ⟨c, cs, rfl⟩ := List.exists_cons_of_ne_nil hr
          exact absurd rfl (hne c cs)
theorem mem_outProps (ps : List (Str × Schema)) (out : List Str) (r : Str) :
    r ∈ outProps ps out ↔ r ∈ out ∨ ∃ p ∈ ps, RefIn p.2 r := by
  match ps with
  | [] => simp [outProps]
  | (k, o) :: ps =>
    simp only [outProps]
    rw [mem_outProps ps, mem_out o]
    simp only [List.mem_cons, exists_eq_or_imp]
    simp only [or_assoc]
theorem mem_outList (os : List Schema) (out : List Str) (r : Str) :
    r ∈ outList os out ↔ r ∈ out ∨ ∃ o ∈ os, RefIn o r := by
  match os with
  | [] => simp [outList]
  | o :: os =>
    simp only [outList]
    rw [mem_outList os, mem_out o]
    simp only [List.mem_cons, exists_eq_or_imp]
    simp only [or_assoc]
theorem mem_outOpt (o : Option Schema) (out : List Str) (r : Str) :
    r ∈ outOpt o out ↔ r ∈ out ∨ ∃ x, o = some x ∧ RefIn x r := by
  match o with
  | none => simp [outOpt]
  | some o =>
    simp only [outOpt]
    rw [mem_out o]
    simp
end

/-- **C08** (edges). The edges followed from a schema are exactly the references occurring in it
at any depth. -/
theorem C08_edges (resolve : Str → Option Schema) (p r : Str) :
    r ∈ schemaOut resolve p ↔ ∃ s, resolve p = some s ∧ RefIn s r := by
  unfold schemaOut
  cases resolve p with
  | none => simp
  | some s => simp [mem_out]

/-- A cycle of references reachable from `p`: some walk along references from `p` returns to a
vertex it has already visited. -/
def ReachesCycle (E : Str → List Str) (p : Str) : Prop :=
  ∃ v w, Reach E p v ∧ w ∈ E v ∧ Reach E w v

variable [LinearOrder Str]

/-- a reachable closed walk contains a simple cycle in canonical form -/
theorem reachesCycle_iff (E : Str → List Str) (p : Str) :
    ReachesCycle E p ↔ ∃ v l, IsCycle E v l ∧ Reach E p v := by
  constructor
  · rintro ⟨v, w, hv, hw, hwv⟩
    obtain ⟨q, t, h1, h2, h3, ht, _⟩ :=
      Proofs.Walk.exists_simple_path hwv (fun x => x = v) rfl
    subst ht
    -- q ++ [v] is a simple path from w to v, and w ∈ E v closes it
    have hmem : w ∈ q ++ [t] := by
      cases hq : q ++ [t] with
      | nil => simp at hq
      | cons a b => rw [hq] at h3; simp at h3; simp [h3]
    obtain ⟨x, l, _, hcyc, hx⟩ := Proofs.Walk.norm_isCycle h1 h2 hmem hw
    refine ⟨x, l, hcyc, ?_⟩
    have hr : ∀ (l : List Str) (a : Str), Reach E p a → IsWalk E (a :: l) →
        ∀ y ∈ a :: l, Reach E p y := by
      intro l
      induction l with
      | nil => intro a ha _ y hy; simp at hy; subst hy; exact ha
      | cons b l ih =>
        intro a ha hwk y hy
        rcases List.mem_cons.1 hy with rfl | hy
        · exact ha
        · exact ih b (ha.step hwk.1) hwk.2 y hy
    cases hq : q ++ [t] with
    | nil => simp at hq
    | cons a b =>
      rw [hq] at h3 h2 hx; simp at h3; subst h3
      exact hr b a (hv.step hw) h2 x hx
  · rintro ⟨v, l, ⟨hw, _, _⟩, hr⟩
    cases l with
    | nil => exact ⟨v, v, hr, hw.1, Reach.refl _⟩
    | cons b l =>
      refine ⟨v, b, hr, hw.1, ?_⟩
      have : ∀ (l : List Str) (a : Str), Reach E b a → IsWalk E (a :: l ++ [v]) → Reach E b v := by
        intro l
        induction l with
        | nil => intro a ha hwk; exact ha.step hwk.1
        | cons c l ih => intro a ha hwk; exact ih c (ha.step hwk.1) hwk.2
      exact this l b (Reach.refl _) hw.2

theorem scan_mem (resolve : Str → Option Schema) (V : List Str)
    (hV : ∀ v ∈ V, ∀ w ∈ schemaOut resolve v, w ∈ V) (paths : List Str) (hp : ∀ p ∈ paths, p ∈ V)
    (cyc : List (List Str)) :
    ∃ fuel res, (∀ n, fuel ≤ n → scanSchemas n resolve paths cyc = some (.ok res)) ∧
      ∀ r, r ∈ res ↔ r ∈ cyc ∨ ∃ p ∈ paths, ∃ v l, r = v :: l ++ [v] ∧
        IsCycle (schemaOut resolve) v l ∧ Reach (schemaOut resolve) p v := by
  induction paths generalizing cyc with
  | nil => exact ⟨0, cyc, fun _ _ => rfl, by simp⟩
  | cons p ps ih =>
    obtain ⟨f1, r1, h1, _, m1⟩ :=
      C07.C07_walk (schemaOut resolve) V hV p (hp p (by simp)) cyc
    obtain ⟨f2, r2, h2, m2⟩ := ih (fun q hq => hp q (by simp [hq])) r1
    refine ⟨max f1 f2, r2, ?_, ?_⟩
    · intro n hn
      simp only [scanSchemas, h1 n (by omega), h2 n (by omega)]
    · intro r
      rw [m2, m1]
      simp only [List.mem_cons, exists_eq_or_imp, or_assoc]

/-- **C08** On every document whose references stay within a finite set of resolvable places,
strict preparation raises `CycleDetectionError` exactly when some scanned schema reaches a cycle
of references, and passes the check otherwise; non-strict preparation always passes it. -/
theorem C08_strict_cycle_check (resolve : Str → Option Schema) (V : List Str)
    (hV : ∀ v ∈ V, ∀ w ∈ schemaOut resolve v, w ∈ V) (paths : List Str) (hp : ∀ p ∈ paths, p ∈ V) :
    ∃ fuel, ∀ n, fuel ≤ n →
      ((∃ p ∈ paths, ReachesCycle (schemaOut resolve) p) →
        prepareCycleCheck n resolve paths true = some (.error .CycleDetectionError)) ∧
      ((¬ ∃ p ∈ paths, ReachesCycle (schemaOut resolve) p) →
        prepareCycleCheck n resolve paths true = some (.ok ())) ∧
      prepareCycleCheck n resolve paths false = some (.ok ()) := by
  obtain ⟨fuel, res, h1, h2⟩ := scan_mem resolve V hV paths hp []
  refine ⟨fuel, fun n hn => ⟨?_, ?_, ?_⟩⟩
  · rintro ⟨p, hpp, hc⟩
    obtain ⟨v, l, hcyc, hr⟩ := (reachesCycle_iff _ _).1 hc
    have : v :: l ++ [v] ∈ res := (h2 _).2 (Or.inr ⟨p, hpp, v, l, rfl, hcyc, hr⟩)
    have hlen : res.length > 0 := List.length_pos_of_mem this
    simp [prepareCycleCheck, h1 n hn, hlen]
  · intro hno
    have : res = [] := by
      rw [List.eq_nil_iff_forall_not_mem]
      intro r hr
      rcases (h2 r).1 hr with h | ⟨p, hpp, v, l, _, hcyc, hre⟩
      · simp at h
      · exact hno ⟨p, hpp, (reachesCycle_iff _ _).2 ⟨v, l, hcyc, hre⟩⟩
    simp [prepareCycleCheck, h1 n hn, this]
  · simp [prepareCycleCheck, h1 n hn]

/-! Non-vacuity: `A` refers to `B` inside an array property, `B` back to `A` through allOf. -/
def docA : Schema := .mk none [(c!"b", .mk none [] [] none (some (.mk (some c!"#/B") [] [] none none)))] [] none none
def docB : Schema := .mk none [] [.mk (some c!"#/A") [] [] none none] none none
def res (p : Str) : Option Schema :=
  if p = c!"#/A" then some docA else if p = c!"#/B" then some docB else none
example : schemaOut res c!"#/A" = [c!"#/B"] := by decide
example : schemaOut res c!"#/B" = [c!"#/A"] := by decide
example : ReachesCycle (schemaOut res) c!"#/A" :=
  ⟨c!"#/A", c!"#/B", .refl _, by decide, .step (.refl _) (by decide)⟩
example : ∀ v ∈ [c!"#/A", c!"#/B"], ∀ w ∈ schemaOut res v, w ∈ [c!"#/A", c!"#/B"] := by decide

end Props.C08
