import Verif.Proofs.Scope
/-!
# C05: scoped lookup returns the right entry or fails, independent of insertion order

Spec side: `Spec.LastComp sep s z`, "z is the last scope component of s".
The five `C05_*` decision theorems are exhaustive: one of their hypotheses holds for every
dictionary and key.
-/

namespace Props.C05
open Py Utils Spec Proofs.Scope

variable {ν : Type}

/-- **C05** An exact key always wins. -/
theorem C05_exact (sep : Str) (d : Dict Str ν) (k : Str) (v : ν) (h : d.get? k = some v) :
    ScopeDict.getitem sep d (.plain k) = .ok v := by
  simp [ScopeDict.getitem, ScopeKey.reduce, h]

/-- **C05** No key ends in the requested text: `KeyError`. -/
theorem C05_absent (sep : Str) (d : Dict Str ν) (k : Str) (h : ∀ i ∈ d.keys, ¬ k <:+ i) :
    ScopeDict.getitem sep d (.plain k) = .error .KeyError := by
  have hk : d.get? k = none := (Dict.get?_eq_none_iff _ _).2 fun hm => h k hm (List.suffix_refl _)
  have hf : d.keys.filter (fun ik => endsWith ik k) = [] := by
    rw [List.filter_eq_nil_iff]
    intro a ha he
    exact h a ha ((endsWith_iff _ _).1 he)
  simp [ScopeDict.getitem, ScopeKey.reduce, hk, hf]

/-- **C05** Not a key, and exactly one key ends in the requested text: the value of that key. -/
theorem C05_unique_suffix (sep : Str) (d : Dict Str ν) (hd : d.WF) (k i : Str) (v : ν)
    (hk : k ∉ d.keys) (hi : (i, v) ∈ d) (hsuf : k <:+ i)
    (hu : ∀ j ∈ d.keys, k <:+ j → j = i) :
    ScopeDict.getitem sep d (.plain k) = .ok v := by
  have hf : d.keys.filter (fun ik => endsWith ik k) = [i] :=
    filter_eq_singleton hd (List.mem_map.2 ⟨_, hi, rfl⟩) ((endsWith_iff _ _).2 hsuf)
      (fun b hb he => hu b hb ((endsWith_iff _ _).1 he))
  simp [ScopeDict.getitem, ScopeKey.reduce, (Dict.get?_eq_none_iff _ _).2 hk, hf,
    index_ok (Dict.get?_of_mem hd hi)]

/-- **C05** Several keys end in the requested text but exactly one of them has the same last
component as the request: the value of that key. -/
theorem C05_last_component (sep : Str) (hs : sep ≠ []) (d : Dict Str ν) (hd : d.WF)
    (k i z : Str) (v : ν) (hk : k ∉ d.keys) (hi : (i, v) ∈ d) (hsuf : k <:+ i)
    (hz : LastComp sep k z) (hzi : LastComp sep i z)
    (hu : ∀ j ∈ d.keys, k <:+ j → LastComp sep j z → j = i) :
    ScopeDict.getitem sep d (.plain k) = .ok v := by
  by_cases huniq : ∀ j ∈ d.keys, k <:+ j → j = i
  · exact C05_unique_suffix sep d hd k i v hk hi hsuf huniq
  · simp only [Classical.not_forall] at huniq
    obtain ⟨j, hj, hkj, hji⟩ := huniq
    have hiK : i ∈ d.keys := List.mem_map.2 ⟨_, hi, rfl⟩
    obtain ⟨x, y, r, hf⟩ := filter_two (p := fun ik => endsWith ik k) hji hj hiK
      ((endsWith_iff _ _).2 hkj) ((endsWith_iff _ _).2 hsuf)
    have hm : (x :: y :: r).filter (fun r => decide (rsplitLast sep r = rsplitLast sep k)) = [i] := by
      rw [← hf]
      apply filter_eq_singleton (List.Pairwise.filter _ hd)
      · exact List.mem_filter.2 ⟨hiK, (endsWith_iff _ _).2 hsuf⟩
      · simp [(rsplitLast_iff hs _ _).2 hz, (rsplitLast_iff hs _ _).2 hzi]
      · intro b hb he
        rw [List.mem_filter] at hb
        apply hu b hb.1 ((endsWith_iff _ _).1 hb.2)
        apply (rsplitLast_iff hs _ _).1
        simpa [(rsplitLast_iff hs _ _).2 hz] using he
    simp only [ScopeDict.getitem, ScopeKey.reduce, (Dict.get?_eq_none_iff _ _).2 hk, hf, hm,
      index_ok (Dict.get?_of_mem hd hi)]

/-- **C05** Several keys end in the requested text and the last component does not single one
out (none of them has it, or two do): `ValueError`. -/
theorem C05_ambiguous (sep : Str) (hs : sep ≠ []) (d : Dict Str ν) (k z : Str)
    (hk : k ∉ d.keys) (hz : LastComp sep k z)
    (i j : Str) (hij : i ≠ j) (hi : i ∈ d.keys) (hj : j ∈ d.keys) (hki : k <:+ i) (hkj : k <:+ j)
    (hu : (∀ a ∈ d.keys, k <:+ a → ¬ LastComp sep a z) ∨
      (∃ a b, a ≠ b ∧ a ∈ d.keys ∧ b ∈ d.keys ∧ k <:+ a ∧ k <:+ b ∧
        LastComp sep a z ∧ LastComp sep b z)) :
    ScopeDict.getitem sep d (.plain k) = .error .ValueError := by
  obtain ⟨x, y, r, hf⟩ := filter_two (p := fun ik => endsWith ik k) hij hi hj
      ((endsWith_iff _ _).2 hki) ((endsWith_iff _ _).2 hkj)
  have hzk := (rsplitLast_iff hs _ _).2 hz
  rcases hu with hn | ⟨a, b, hab, ha, hb, hka, hkb, hza, hzb⟩
  · have hm : (x :: y :: r).filter (fun r => decide (rsplitLast sep r = rsplitLast sep k)) = [] := by
      rw [← hf, List.filter_eq_nil_iff]
      intro c hc he
      rw [List.mem_filter] at hc
      apply hn c hc.1 ((endsWith_iff _ _).1 hc.2)
      apply (rsplitLast_iff hs _ _).1
      simpa [hzk] using he
    simp only [ScopeDict.getitem, ScopeKey.reduce, (Dict.get?_eq_none_iff _ _).2 hk, hf, hm]
  · obtain ⟨x', y', r', hm⟩ := filter_two
      (p := fun r => decide (rsplitLast sep r = rsplitLast sep k)) (l := x :: y :: r) hab
      (by rw [← hf]; exact List.mem_filter.2 ⟨ha, (endsWith_iff _ _).2 hka⟩)
      (by rw [← hf]; exact List.mem_filter.2 ⟨hb, (endsWith_iff _ _).2 hkb⟩)
      (by simp [hzk, (rsplitLast_iff hs _ _).2 hza])
      (by simp [hzk, (rsplitLast_iff hs _ _).2 hzb])
    simp only [ScopeDict.getitem, ScopeKey.reduce, (Dict.get?_eq_none_iff _ _).2 hk, hf, hm]

/-- **C05** (tuples). A tuple of non-empty names is looked up as the names joined by the
separator. -/
theorem C05_tuple (sep : Str) (d : Dict Str ν) (k : Str) (ks : List Str) (hk : k ≠ [])
    (hks : ∀ x ∈ ks, x ≠ []) :
    ScopeDict.getitem sep d (.tuple ((k :: ks).map some))
      = ScopeDict.getitem sep d (.plain (join sep (k :: ks))) := by
  have H : ∀ (ks : List Str) (a : Str), a ≠ [] → (∀ x ∈ ks, x ≠ []) →
      (ks.map some).foldl (fun k1 k2 => scope_compose k1 k2 sep) (some a)
        = some (join sep (a :: ks)) := by
    intro ks
    induction ks with
    | nil => intro a _ _; simp [join]
    | cons b bs ih =>
      intro a ha hb
      have hb0 : b ≠ [] := hb b (by simp)
      obtain ⟨a0, a1, rfl⟩ := List.exists_cons_of_ne_nil ha
      obtain ⟨b0, b1, rfl⟩ := List.exists_cons_of_ne_nil hb0
      simp only [List.map_cons, List.foldl_cons]
      have : scope_compose (some (a0 :: a1)) (some (b0 :: b1)) sep
          = some ((a0 :: a1) ++ sep ++ (b0 :: b1)) := rfl
      rw [this, ih _ (by simp) (fun x hx => hb x (by simp [hx]))]
      cases bs with
      | nil => simp [join]
      | cons c cs => simp [join]
  have hr : ScopeKey.reduce sep (.tuple ((k :: ks).map some))
      = ScopeKey.reduce sep (.plain (join sep (k :: ks))) := by
    simp only [ScopeKey.reduce, List.map_cons]
    rw [H ks k hk hks]
  simp only [ScopeDict.getitem, hr]

/-- **C05** Missing tuple elements do not matter: `None` components are skipped. -/
theorem C05_tuple_none (sep : Str) (d : Dict Str ν) (k : Str) :
    ScopeDict.getitem sep d (.tuple [none, some k]) = ScopeDict.getitem sep d (.plain k) ∧
    ScopeDict.getitem sep d (.tuple [some k, none]) = ScopeDict.getitem sep d (.plain k) ∧
    ScopeDict.getitem sep d (.tuple [some k]) = ScopeDict.getitem sep d (.plain k) := by
  refine ⟨?_, ?_, rfl⟩ <;> cases k <;> rfl

/-- **C05** (order independence). The outcome, value or exception, is the same for every order
in which the entries were inserted. -/
theorem C05_order_independent (sep : Str) (d e : Dict Str ν) (hd : d.WF) (h : d.Perm e)
    (key : ScopeKey) : ScopeDict.getitem sep d key = ScopeDict.getitem sep e key := by
  have hemp : d.isEmpty = e.isEmpty := by
    have := h.length_eq
    cases d <;> cases e <;> simp_all
  have hidx : ∀ k, ScopeDict.getitem.index d k = ScopeDict.getitem.index e k := by
    intro k; simp [ScopeDict.getitem.index, Dict.get?_perm hd h k]
  unfold ScopeDict.getitem
  cases key.reduce sep with
  | error x => rfl
  | ok ok =>
    cases ok with
    | none => simp [hemp]
    | some k =>
      simp only [Dict.get?_perm hd h k]
      cases Dict.get? e k with
      | some v => rfl
      | none =>
        simp only
        have hp : (d.keys.filter (fun ik => endsWith ik k)).Perm
            (e.keys.filter (fun ik => endsWith ik k)) := (h.map Prod.fst).filter _
        generalize hF : d.keys.filter (fun ik => endsWith ik k) = F at hp
        generalize hG : e.keys.filter (fun ik => endsWith ik k) = G at hp
        match F, G, hp with
        | [], G, hp => have := hp.length_eq; cases G <;> simp_all
        | [x], G, hp =>
          have : G = [x] := List.perm_singleton.1 hp.symm
          subst this; simp [hidx]
        | x :: y :: r, [], hp => have := hp.length_eq; simp at this
        | x :: y :: r, [a], hp => have := hp.length_eq; simp at this
        | x :: y :: r, a :: b :: s, hp =>
          simp only
          have hq := hp.filter (fun r => decide (rsplitLast sep r = rsplitLast sep k))
          generalize (x :: y :: r).filter (fun r => decide (rsplitLast sep r = rsplitLast sep k)) = M at hq
          generalize (a :: b :: s).filter (fun r => decide (rsplitLast sep r = rsplitLast sep k)) = N at hq
          match M, N, hq with
          | [], N, hq => have := hq.length_eq; cases N <;> simp_all
          | [m], N, hq =>
            have : N = [m] := List.perm_singleton.1 hq.symm
            subst this; simp [hidx]
          | m :: m' :: t, [], hq => have := hq.length_eq; simp at this
          | m :: m' :: t, [_], hq => have := hq.length_eq; simp at this
          | m :: m' :: t, _ :: _ :: _, _ => rfl

/-- **C05** (short names, the part that holds). If exactly one key has `z` as its last component
then the separator-free short name `z` finds it, whatever other keys merely end in `z`.
What does not hold is the converse, see `C05_short_name_false`. -/
theorem C05_short_name_partial (sep : Str) (hs : sep ≠ []) (d : Dict Str ν) (hd : d.WF)
    (z i : Str) (v : ν) (hz : ¬ sep <:+: z) (hi : (i, v) ∈ d) (hzi : LastComp sep i z)
    (hu : ∀ j ∈ d.keys, LastComp sep j z → j = i) :
    ScopeDict.getitem sep d (.plain z) = .ok v := by
  by_cases hk : z ∈ d.keys
  · have : z = i := hu z hk (Or.inl ⟨hz, rfl⟩)
    subst this
    exact C05_exact sep d z v (Dict.get?_of_mem hd hi)
  · exact C05_last_component sep hs d hd z i z v hk hi (lastComp_suffix hzi) (Or.inl ⟨hz, rfl⟩) hzi
      (fun j hj _ hjz => hu j hj hjz)

/-- **C05** (short names, refuted part). "A short name finds only an entry whose last component
is that name" is false: with the single entry `pet!##!widget`, looking up `get` returns it. -/
theorem C05_short_name_false :
    ¬ ∀ (d : Dict Str Nat) (z : Str) (v : Nat), d.WF → ¬ SCOPE_SEPARATOR <:+: z →
      ScopeDict.getitem SCOPE_SEPARATOR d (.plain z) = .ok v →
      ∃ i, (i, v) ∈ d ∧ LastComp SCOPE_SEPARATOR i z := by
  intro h
  obtain ⟨i, hi, hl⟩ := h [(c!"pet!##!widget", 7)] c!"get" 7 (by simp [Dict.WF, Dict.keys])
    ((afterLast?_none_iff (by decide)).1 (by decide)) (by decide)
  simp at hi; subst hi
  have := (rsplitLast_iff (by decide) _ _).2 hl
  revert this; decide

/-! Non-vacuity: two operations named alike in one suffix only; the documented short access. -/
def sample : Dict Str Nat := [(c!"a!##!get", 1), (c!"b!##!something-get", 2), (c!"b!##!put", 3)]
example : ScopeDict.getitem SCOPE_SEPARATOR sample (.plain c!"get") = .ok 1 := by decide
example : ScopeDict.getitem SCOPE_SEPARATOR sample (.tuple [some c!"b", some c!"put"]) = .ok 3 := by decide
example : ScopeDict.getitem SCOPE_SEPARATOR sample (.plain c!"t") = .error .ValueError := by decide
example : ScopeDict.getitem SCOPE_SEPARATOR sample (.plain c!"delete") = .error .KeyError := by decide
example : LastComp SCOPE_SEPARATOR c!"a!##!get" c!"get" :=
  (rsplitLast_iff (by decide) _ _).1 (by decide)

end Props.C05
