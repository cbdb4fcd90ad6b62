import Verif.Spec.Aggregate
import Verif.Proofs.Dict
import Verif.Proofs.Merge
/-! # Plain values when schemas are merged (C53) -/

namespace Proofs.Aggregate
open Py Tree _root_.Aggregate Spec.Aggregate Spec.Merge
open _root_.Doc (falsy joinLists joinDicts)

variable {h : Heap} {y : Nat} {n : Str}

theorem mem_keys_update (d e : Dict Str Tree) (k : Str) :
    k ∈ Dict.keys (Dict.update d e) ↔ k ∈ Dict.keys d ∨ k ∈ Dict.keys e := by
  unfold Dict.update
  induction e generalizing d with
  | nil => simp [Dict.keys]
  | cons p e ih =>
    rw [List.foldl_cons, ih, Dict.mem_keys_set]
    simp only [Dict.keys, List.map_cons, List.mem_cons]
    constructor
    · rintro ((h | h) | h) <;> simp [h]
    · rintro (h | h | h) <;> simp [h]

theorem perm_id (l : List Atom) : (id l).Perm l := List.Perm.refl l

theorem fresh_list (l : List Tree) : ∃ m, fresh (some (.list l)) = some (.list m) ∧ ∀ t, In t m ↔ In t l := by
  obtain ⟨w, hw⟩ := Proofs.Merge.joinLists_total (order := id) (own := .atom .none) (v := l) (Or.inl rfl)
  obtain ⟨l', m, rfl, hj, he⟩ := Proofs.Merge.joinLists_spec perm_id hw
  refine ⟨m, hw, fun t => ?_⟩
  rw [hj.1 t]
  rcases he with he | ⟨_, rfl⟩
  · cases he
  · simp [In]

theorem like_fresh (v : Value) : Like v (fresh v) := by
  cases v with
  | none => exact Or.inl rfl
  | some t =>
    cases t with
    | list l =>
      obtain ⟨m, hm, he⟩ := fresh_list l
      exact Or.inr ⟨l, m, rfl, hm, fun t => (he t).symm⟩
    | _ => exact Or.inl rfl

theorem like_trans {u v w : Value} (a : Like u v) (b : Like v w) : Like u w := by
  rcases a with rfl | ⟨l, m, rfl, rfl, e⟩
  · exact b
  · rcases b with rfl | ⟨l', m', h1, rfl, e'⟩
    · exact Or.inr ⟨l, m, rfl, rfl, e⟩
    · cases h1; exact Or.inr ⟨l, m', rfl, rfl, fun t => (e t).trans (e' t)⟩

/-- how a join with a list ends -/
theorem join_list (own : Tree) (l : List Tree) :
    (∃ m k, joinValue (some own) (some (.list l)) = some (.list m) ∧ (∀ t, In t m ↔ In t k ∨ In t l) ∧
      (own = .list k ∨ (falsy own = true ∧ (∀ k, own ≠ .list k) ∧ k = []))) ∨
    (joinValue (some own) (some (.list l)) = none ∧ falsy own = false ∧ ∀ k, own ≠ .list k) := by
  cases hw : joinValue (some own) (some (.list l)) with
  | some w =>
    obtain ⟨k, m, rfl, hj, he⟩ := Proofs.Merge.joinLists_spec perm_id hw
    refine Or.inl ⟨m, k, rfl, hj.1, ?_⟩
    rcases he with he | ⟨h1, h2⟩
    · exact Or.inl he
    · by_cases hl : ∃ k, own = .list k
      · obtain ⟨k', rfl⟩ := hl
        have : k' = [] := by cases k' with | nil => rfl | cons _ _ => simp [falsy] at h1
        subst this; subst h2; exact Or.inl rfl
      · exact Or.inr ⟨h1, fun k e => hl ⟨k, e⟩, h2⟩
  | none =>
    refine Or.inr ⟨rfl, ?_, ?_⟩
    · cases hf : falsy own with
      | false => rfl
      | true =>
        obtain ⟨w, hw'⟩ := Proofs.Merge.joinLists_total (order := id) (v := l) (Or.inl hf)
        rw [show joinValue (some own) (some (.list l)) = joinLists id own l from rfl, hw'] at hw; cases hw
    · rintro k rfl
      obtain ⟨w, hw'⟩ := Proofs.Merge.joinLists_total (order := id) (own := .list k) (v := l) (Or.inr ⟨k, rfl⟩)
      rw [show joinValue (some (.list k)) (some (.list l)) = joinLists id (.list k) l from rfl, hw'] at hw; cases hw

/-- how a join with a dict ends -/
theorem join_dict (own : Tree) (d : Dict Str Tree) :
    (∃ e, own = .dict e ∧ joinValue (some own) (some (.dict d)) = some (.dict (Dict.update d e))) ∨
    (falsy own = true ∧ (∀ e, own ≠ .dict e) ∧ joinValue (some own) (some (.dict d)) = some (.dict d)) ∨
    (falsy own = false ∧ (∀ e, own ≠ .dict e) ∧ joinValue (some own) (some (.dict d)) = none) := by
  cases own with
  | dict e => exact Or.inl ⟨e, rfl, rfl⟩
  | atom a =>
    cases hf : falsy (.atom a) with
    | true => exact Or.inr (Or.inl ⟨rfl, nofun, by simp [joinValue, joinDicts, hf]⟩)
    | false => exact Or.inr (Or.inr ⟨rfl, nofun, by simp [joinValue, joinDicts, hf]⟩)
  | list a =>
    cases hf : falsy (.list a) with
    | true => exact Or.inr (Or.inl ⟨rfl, nofun, by simp [joinValue, joinDicts, hf]⟩)
    | false => exact Or.inr (Or.inr ⟨rfl, nofun, by simp [joinValue, joinDicts, hf]⟩)
  | obj c a =>
    cases hf : falsy (.obj c a) with
    | true => exact Or.inr (Or.inl ⟨rfl, nofun, by simp [joinValue, joinDicts, hf]⟩)
    | false => exact Or.inr (Or.inr ⟨rfl, nofun, by simp [joinValue, joinDicts, hf]⟩)

theorem join_none (v : Value) : joinValue none v = none := by cases v <;> rfl
theorem join_lost (v : Value) : joinValue v none = none := by cases v <;> rfl

theorem comes_fresh {v : Value} (c : Comes h y n v) : Comes h y n (fresh v) := by
  cases v with
  | none => exact c
  | some t =>
    cases t with
    | list l =>
      obtain ⟨m, hm, he⟩ := fresh_list l
      rw [hm]
      exact ⟨c.1, fun t ht => c.2 t ((he t).1 ht)⟩
    | _ => exact c

/-- a value made from others has one of its sort among them -/
theorem comes_has {t : Tree} (c : Comes h y n (some t)) : ∃ u, Has h y n u ∧ Alike t u ∧
    ∀ w, Alike u w → Alike t w := by
  cases t with
  | atom a => exact ⟨_, c, trivial, fun w hw => by cases w <;> first | trivial | cases hw⟩
  | list l =>
    obtain ⟨⟨m, hm⟩, _⟩ := c
    exact ⟨_, hm, trivial, fun w hw => by cases w <;> first | trivial | cases hw⟩
  | dict d =>
    obtain ⟨_, ⟨m, hm⟩, _⟩ := c
    exact ⟨_, hm, trivial, fun w hw => by cases w <;> first | trivial | cases hw⟩
  | obj => cases c

theorem comes_differ {t u : Tree} (c : Comes h y n (some t)) (c' : Comes h y n (some u))
    (hd : ¬ Alike t u) : Comes h y n none := by
  obtain ⟨t', h1, h2, h3⟩ := comes_has c
  obtain ⟨u', h4, h5, h6⟩ := comes_has c'
  refine ⟨t', u', h1, h4, fun ha => hd ?_⟩
  have := h3 u' ha
  revert this h5
  cases t <;> cases u <;> cases u' <;> simp [Alike]

theorem comes_join {own v : Value} (c : Comes h y n own) (c' : Comes h y n v) : Comes h y n (joinValue own v) := by
  cases own with
  | none => rw [join_none]; exact c
  | some own =>
    cases v with
    | none => exact c'
    | some v =>
      cases v with
      | atom a => exact c
      | obj _ _ => cases c'
      | list l =>
        rcases join_list own l with ⟨m, k, hj, he, hk⟩ | ⟨hj, _, hk⟩
        · rw [hj]
          refine ⟨c'.1, fun t ht => ?_⟩
          rcases (he t).1 ht with ht | ht
          · rcases hk with rfl | ⟨_, _, rfl⟩
            · exact c.2 t ht
            · simp [In] at ht
          · exact c'.2 t ht
        · rw [hj]
          exact comes_differ c c' (by cases own <;> first | exact fun h => h | exact absurd rfl (hk _))
      | dict d =>
        rcases join_dict own d with ⟨e, rfl, hj⟩ | ⟨_, _, hj⟩ | ⟨_, hk, hj⟩
        · rw [hj]
          obtain ⟨w1, w2, w3⟩ := c
          obtain ⟨w4, w5, w6⟩ := c'
          refine ⟨Dict.WF_update w4 _, w2, fun k t ht => ?_⟩
          rw [Dict.get?_update w1] at ht
          cases hg : Dict.get? e k with
          | some t' => rw [hg] at ht; cases ht; exact w3 k _ hg
          | none => rw [hg] at ht; exact w6 k t ht
        · rw [hj]; exact c'
        · rw [hj]
          exact comes_differ c c' (by cases own <;> first | exact fun h => h | exact absurd rfl (hk _))

theorem covers_like {v : Value} {t : Tree} (l : Like (some t) v) : Covers v t := by
  rintro u rfl
  rcases l with h | ⟨l, m, h1, h2, he⟩
  · cases h
    exact ⟨fun l e h he => ⟨l, h, he⟩, fun d k h hk => ⟨d, h, hk⟩⟩
  · cases h1; cases h2
    exact ⟨fun l' e h hl => by cases h; exact ⟨m, rfl, (he e).1 hl⟩, nofun⟩

/-- what is covered stays so -/
theorem covers_own {own v : Value} {t : Tree} (c : Covers own t) (hv : ∀ u, v = some u → ∀ c fs, u ≠ .obj c fs) :
    Covers (joinValue own v) t := by
  intro u hu
  cases own with
  | none => rw [join_none] at hu; cases hu
  | some own =>
    obtain ⟨c1, c2⟩ := c own rfl
    cases v with
    | none => cases hu
    | some v =>
      cases v with
      | atom a => cases hu; exact ⟨c1, c2⟩
      | obj _ _ => exact absurd rfl (hv _ rfl _ _)
      | list l =>
        rcases join_list own l with ⟨m, k, hj, he, hk⟩ | ⟨hj, _, _⟩
        · rw [hj] at hu; cases hu
          refine ⟨fun l' e hl hin => ⟨m, rfl, ?_⟩, fun d k' hd hin => ?_⟩
          · obtain ⟨m', hm', hin'⟩ := c1 l' e hl hin
            rcases hk with rfl | ⟨_, h1, _⟩
            · cases hm'; exact (he e).2 (Or.inl hin')
            · exact absurd hm' (h1 _)
          · obtain ⟨e, rfl, hke⟩ := c2 d k' hd hin
            rcases hk with h | ⟨hf, _, _⟩
            · cases h
            · cases e with
              | nil => cases hke
              | cons _ _ => simp [falsy] at hf
        · rw [hj] at hu; cases hu
      | dict d =>
        rcases join_dict own d with ⟨e, rfl, hj⟩ | ⟨hf, hk, hj⟩ | ⟨_, hk, hj⟩
        · rw [hj] at hu; cases hu
          refine ⟨fun l' e' hl hin => ?_, fun d' k' hd hin => ⟨_, rfl, ?_⟩⟩
          · obtain ⟨m', hm', _⟩ := c1 l' e' hl hin; cases hm'
          · obtain ⟨e'', h1, hke⟩ := c2 d' k' hd hin
            cases h1
            exact (mem_keys_update d e k').2 (Or.inr hke)
        · rw [hj] at hu; cases hu
          refine ⟨fun l' e' hl hin => ?_, fun d' k' hd hin => ?_⟩
          · obtain ⟨m', rfl, hin'⟩ := c1 l' e' hl hin
            cases m' with
            | nil => simp [In] at hin'
            | cons _ _ => simp [falsy] at hf
          · obtain ⟨e'', h1, hke⟩ := c2 d' k' hd hin
            exact absurd h1 (hk _)
        · rw [hj] at hu; cases hu

/-- what the other covers is covered -/
theorem covers_other {own v : Value} {t : Tree} (c : Covers v t) : Covers (joinValue own v) t := by
  intro u hu
  cases own with
  | none => rw [join_none] at hu; cases hu
  | some own =>
    cases v with
    | none => cases hu
    | some v =>
      obtain ⟨c1, c2⟩ := c v rfl
      cases v with
      | atom a =>
        refine ⟨fun l e hl hin => ?_, fun d k hd hin => ?_⟩
        · obtain ⟨m, h, _⟩ := c1 l e hl hin; cases h
        · obtain ⟨m, h, _⟩ := c2 d k hd hin; cases h
      | obj _ _ =>
        refine ⟨fun l e hl hin => ?_, fun d k hd hin => ?_⟩
        · obtain ⟨m, h, _⟩ := c1 l e hl hin; cases h
        · obtain ⟨m, h, _⟩ := c2 d k hd hin; cases h
      | list l =>
        rcases join_list own l with ⟨m, k, hj, he, _⟩ | ⟨hj, _, _⟩
        · rw [hj] at hu; cases hu
          refine ⟨fun l' e hl hin => ⟨m, rfl, ?_⟩, fun d k hd hin => ?_⟩
          · obtain ⟨m', h, hin'⟩ := c1 l' e hl hin
            cases h; exact (he e).2 (Or.inr hin')
          · obtain ⟨m, h, _⟩ := c2 d k hd hin; cases h
        · rw [hj] at hu; cases hu
      | dict d =>
        rcases join_dict own d with ⟨e, rfl, hj⟩ | ⟨hf, hk, hj⟩ | ⟨_, hk, hj⟩
        · rw [hj] at hu; cases hu
          refine ⟨fun l e hl hin => ?_, fun d k hd hin => ⟨_, rfl, ?_⟩⟩
          · obtain ⟨m, h, _⟩ := c1 l e hl hin; cases h
          · obtain ⟨m, h, hk⟩ := c2 d k hd hin
            cases h
            exact (mem_keys_update _ _ k).2 (Or.inl hk)
        · rw [hj] at hu; cases hu; exact ⟨c1, c2⟩
        · rw [hj] at hu; cases hu

theorem keeps_like {v : Value} {t : Tree} (l : Like (some t) v) : Keeps h y n v t := by
  rintro u rfl
  rcases l with h | ⟨l, m, h1, h2, he⟩
  · cases h
    exact ⟨fun _ _ => Or.inl rfl, fun l e h he => ⟨l, h, he⟩, fun d k w h hk => ⟨d, h, hk⟩⟩
  · cases h1; cases h2
    exact ⟨nofun, fun l' e h hl => by cases h; exact ⟨m, rfl, (he e).1 hl⟩, nofun⟩

theorem keeps_covers {v : Value} {t : Tree} (k : Keeps h y n v t) : Covers v t := by
  rintro u rfl
  obtain ⟨_, k2, k3⟩ := k u rfl
  refine ⟨k2, fun d key hd hk => ?_⟩
  obtain ⟨w, hw⟩ := Option.isSome_iff_exists.1 ((Dict.get?_isSome_iff _ _).2 hk)
  obtain ⟨e, he, hg⟩ := k3 d key w hd hw
  exact ⟨e, he, (Dict.get?_isSome_iff _ _).1 (by rw [hg]; rfl)⟩

/-- what is kept stays so -/
theorem keeps_join {own v : Value} {t : Tree} (k : Keeps h y n own t) (co : Comes h y n own) (c : Comes h y n v) :
    Keeps h y n (joinValue own v) t := by
  intro u hu
  cases own with
  | none => rw [join_none] at hu; cases hu
  | some own =>
    obtain ⟨k1, k2, k3⟩ := k own rfl
    cases v with
    | none => cases hu
    | some v =>
      cases v with
      | atom a => cases hu; exact ⟨k1, k2, k3⟩
      | obj _ _ => cases c
      | list l =>
        obtain ⟨⟨w, hw⟩, _⟩ := c
        rcases join_list own l with ⟨m, k', hj, he, hk⟩ | ⟨hj, _, _⟩
        · rw [hj] at hu; cases hu
          refine ⟨fun a ha => Or.inr ?_, fun l' e hl hin => ⟨m, rfl, ?_⟩, fun d key x hd hin => ?_⟩
          · rcases k1 a ha with rfl | h'
            · subst ha
              rcases hk with h' | ⟨hf, _, _⟩
              · cases h'
              · exact ⟨(Proofs.Merge.nothing_iff _).1 hf, _, hw, fun h => h⟩
            · exact h'
          · obtain ⟨m', hm', hin'⟩ := k2 l' e hl hin
            rcases hk with rfl | ⟨_, h1, _⟩
            · cases hm'; exact (he e).2 (Or.inl hin')
            · exact absurd hm' (h1 _)
          · obtain ⟨e, rfl, hke⟩ := k3 d key x hd hin
            rcases hk with h' | ⟨hf, _, _⟩
            · cases h'
            · cases e with
              | nil => cases hke
              | cons _ _ => simp [falsy] at hf
        · rw [hj] at hu; cases hu
      | dict d =>
        obtain ⟨_, ⟨w, hw⟩, _⟩ := c
        rcases join_dict own d with ⟨e, rfl, hj⟩ | ⟨hf, hk, hj⟩ | ⟨_, hk, hj⟩
        · rw [hj] at hu; cases hu
          refine ⟨fun a ha => Or.inr ?_, fun l' e' hl hin => ?_, fun d' k' x hd hin => ⟨_, rfl, ?_⟩⟩
          · rcases k1 a ha with h' | h'
            · subst ha; cases h'
            · exact h'
          · obtain ⟨m', hm', _⟩ := k2 l' e' hl hin; cases hm'
          · obtain ⟨e'', h1, hke⟩ := k3 d' k' x hd hin
            cases h1
            rw [Dict.get?_update co.1, hke]; rfl
        · rw [hj] at hu; cases hu
          refine ⟨fun a ha => Or.inr ?_, fun l' e' hl hin => ?_, fun d' k' x hd hin => ?_⟩
          · rcases k1 a ha with rfl | h'
            · subst ha
              exact ⟨(Proofs.Merge.nothing_iff _).1 hf, _, hw, fun h => h⟩
            · exact h'
          · obtain ⟨m', rfl, hin'⟩ := k2 l' e' hl hin
            cases m' with
            | nil => simp [In] at hin'
            | cons _ _ => simp [falsy] at hf
          · obtain ⟨e'', h1, hke⟩ := k3 d' k' x hd hin
            exact absurd h1 (hk _)
        · rw [hj] at hu; cases hu

/-! ## the fields -/

theorem get?_mapv (d : Dict Str Value) (g : Str → Value → Value) (n : Str) :
    Dict.get? (d.map fun e => (e.1, g e.1 e.2)) n = (Dict.get? d n).map (g n) := by
  induction d with
  | nil => rfl
  | cons e d ih =>
    simp only [List.map_cons, Dict.get?]
    by_cases h : e.1 = n
    · simp [h]
    · simp only [h, if_false]; exact ih

theorem get?_filterv (d : Dict Str Value) (q : Str → Bool) (n : Str) :
    Dict.get? (d.filter fun e => q e.1) n = if q n then Dict.get? d n else none := by
  induction d with
  | nil => simp [Dict.get?]
  | cons e d ih =>
    by_cases h : e.1 = n
    · subst h
      cases hq : q e.1 with
      | true => simp [List.filter_cons, hq, Dict.get?]
      | false => rw [List.filter_cons]; simp only [hq, Bool.false_eq_true, if_false]; rw [ih, hq]; rfl
    · rw [List.filter_cons]
      split
      · simp only [Dict.get?, h, if_false]; exact ih
      · simp only [Dict.get?, h, if_false]; exact ih

theorem get?_appendv (d e : Dict Str Value) (n : Str) :
    Dict.get? (d ++ e) n = (Dict.get? d n).or (Dict.get? e n) := by
  induction d with
  | nil => rfl
  | cons x d ih =>
    simp only [List.cons_append, Dict.get?]
    by_cases h : x.1 = n
    · simp [h]
    · simp only [h, if_false]; exact ih

theorem get?_joinValues (own d : Dict Str Value) (n : Str) : Dict.get? (joinValues own d) n =
    match Dict.get? own n, Dict.get? d n with
    | some a, some b => some (joinValue a b)
    | some a, none => some a
    | none, some b => some (fresh b)
    | none, none => none := by
  unfold joinValues
  rw [get?_appendv, get?_mapv own (joinField d),
    get?_mapv _ (fun _ v => fresh v), get?_filterv d (fun n => decide (n ∉ Dict.keys own))]
  cases ho : Dict.get? own n with
  | some a => unfold joinField; cases Dict.get? d n <;> rfl
  | none =>
    have : n ∉ Dict.keys own := (Dict.get?_eq_none_iff _ _).1 ho
    simp only [Option.map_none, Option.none_or, this, not_false_eq_true, decide_true, if_true]
    cases Dict.get? d n <;> rfl

theorem wf_joinValues {own d : Dict Str Value} (ho : Dict.WF own) (hd : Dict.WF d) :
    Dict.WF (joinValues own d) := by
  unfold Dict.WF Dict.keys joinValues
  rw [List.map_append, List.map_map, List.map_map]
  refine List.nodup_append.2 ⟨ho, ?_, ?_⟩
  · exact (List.filter_sublist.map _).nodup hd
  · rintro a ha b hb rfl
    obtain ⟨e, he, rfl⟩ := List.mem_map.1 hb
    have := (List.mem_filter.1 he).2
    simp only [decide_eq_true_eq] at this
    exact this (by simpa [Dict.keys] using ha)

/-- everything in `d` is covered by the same field of `d'` -/
def Grows (d d' : Dict Str Value) : Prop :=
  ∀ n v, Dict.get? d n = some v → ∃ v', Dict.get? d' n = some v' ∧ ∀ t, Covers v t → Covers v' t

theorem Grows.rfl {d : Dict Str Value} : Grows d d := fun _ v h => ⟨v, h, fun _ h => h⟩

theorem Grows.trans {a b c : Dict Str Value} (g : Grows a b) (g' : Grows b c) : Grows a c := by
  intro n v hv
  obtain ⟨v', h1, h2⟩ := g n v hv
  obtain ⟨v'', h3, h4⟩ := g' n v' h1
  exact ⟨v'', h3, fun t ht => h4 t (h2 t ht)⟩

theorem covers_fresh {v : Value} {t : Tree} (c : Covers v t) : Covers (fresh v) t := by
  intro u hu
  rcases like_fresh v with h | ⟨l, m, h1, h2, he⟩
  · exact c u (h.trans hu)
  · rw [h2] at hu; cases hu
    obtain ⟨c1, c2⟩ := c _ h1
    refine ⟨fun l' e hl hin => ⟨m, rfl, ?_⟩, fun d k hd hin => ?_⟩
    · obtain ⟨m', h, hin'⟩ := c1 l' e hl hin
      cases h; exact (he e).1 hin'
    · obtain ⟨m', h, _⟩ := c2 d k hd hin; cases h

theorem comes_plain {v : Value} (c : Comes h y n v) : ∀ u, v = some u → ∀ k fs, u ≠ .obj k fs := by
  rintro u rfl k fs rfl; exact c

theorem grows_own {own d : Dict Str Value} (hd : ∀ n v, Dict.get? d n = some v → Comes h y n v) :
    Grows own (joinValues own d) := by
  intro n v hv
  rw [get?_joinValues, hv]
  cases hw : Dict.get? d n with
  | none => exact ⟨v, rfl, fun _ h => h⟩
  | some w => exact ⟨_, rfl, fun t ht => covers_own ht (comes_plain (hd n w hw))⟩

theorem grows_other (own d : Dict Str Value) : Grows d (joinValues own d) := by
  intro n v hv
  rw [get?_joinValues, hv]
  cases hw : Dict.get? own n with
  | none => exact ⟨_, rfl, fun _ h => covers_fresh h⟩
  | some w => exact ⟨_, rfl, fun t ht => covers_other ht⟩

/-- the same fields with the same values, but for the order of lists and repetitions in them -/
def Mirror (d0 d : Dict Str Value) : Prop :=
  (∀ n v0, Dict.get? d0 n = some v0 → ∃ v, Dict.get? d n = some v ∧ Like v0 v) ∧
  ∀ n v, Dict.get? d n = some v → ∃ v0, Dict.get? d0 n = some v0 ∧ Like v0 v

theorem Mirror.rfl {d : Dict Str Value} : Mirror d d :=
  ⟨fun _ v h => ⟨v, h, Or.inl (Eq.refl _)⟩, fun _ v h => ⟨v, h, Or.inl (Eq.refl _)⟩⟩

theorem Mirror.fresh {d0 d : Dict Str Value} (m : Mirror d0 d) : Mirror d0 (joinValues [] d) := by
  have hg : ∀ n, Dict.get? (joinValues [] d) n = (Dict.get? d n).map _root_.Aggregate.fresh := by
    intro n
    rw [get?_joinValues]
    cases Dict.get? d n <;> rfl
  refine ⟨fun n v0 h0 => ?_, fun n v hv => ?_⟩
  · obtain ⟨v, hv, hl⟩ := m.1 n v0 h0
    exact ⟨_, by rw [hg, hv]; rfl, like_trans hl (like_fresh v)⟩
  · rw [hg] at hv
    cases hw : Dict.get? d n with
    | none => rw [hw] at hv; cases hv
    | some w =>
      rw [hw] at hv; cases hv
      obtain ⟨v0, h0, hl⟩ := m.2 n w hw
      exact ⟨v0, h0, like_trans hl (like_fresh w)⟩

/-- a value as loaded -/
def Sane (v : Value) : Prop := ∃ t, v = some t ∧ (∀ c fs, t ≠ .obj c fs) ∧ ∀ d, t = .dict d → Dict.WF d

theorem comes_self {v0 v : Value} (h0 : Dict.get? (look h y).values n = some v0) (s : Sane v0) (l : Like v0 v) :
    Comes h y n v := by
  obtain ⟨t, rfl, h1, h2⟩ := s
  have hs : Has h y n t := ⟨y, Or.inl rfl, h0⟩
  rcases l with rfl | ⟨l, m, h3, rfl, he⟩
  · cases t with
    | atom a => exact hs
    | list l => exact ⟨⟨l, hs⟩, fun t ht => ⟨l, hs, ht⟩⟩
    | dict d => exact ⟨h2 d rfl, ⟨d, hs⟩, fun k t ht => ⟨d, hs, ht⟩⟩
    | obj c fs => exact h1 c fs rfl
  · cases h3
    exact ⟨⟨l, hs⟩, fun t ht => ⟨l, hs, (he t).2 ht⟩⟩

theorem comes_mono {z : Nat} {v : Value} (hm : ∀ t, Has h z n t → Has h y n t) (c : Comes h z n v) :
    Comes h y n v := by
  cases v with
  | none => obtain ⟨t, u, h1, h2, h3⟩ := c; exact ⟨t, u, hm _ h1, hm _ h2, h3⟩
  | some t =>
    cases t with
    | atom a => exact hm _ c
    | list l =>
      obtain ⟨⟨m, h1⟩, h2⟩ := c
      refine ⟨⟨m, hm _ h1⟩, fun t ht => ?_⟩
      obtain ⟨m, h3, h4⟩ := h2 t ht
      exact ⟨m, hm _ h3, h4⟩
    | dict d =>
      obtain ⟨w, ⟨m, h1⟩, h2⟩ := c
      refine ⟨w, ⟨m, hm _ h1⟩, fun k t ht => ?_⟩
      obtain ⟨m, h3, h4⟩ := h2 k t ht
      exact ⟨m, hm _ h3, h4⟩
    | obj c' fs => cases c

end Proofs.Aggregate
