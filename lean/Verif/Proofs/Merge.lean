import Verif.Spec.Merge
import Verif.Spec.Doc
import Verif.Proofs.Doc
/-! # Helper lemmas for merging (C43, C52, C53) -/

namespace Proofs.Merge
open Py Tree _root_.Doc Spec.Doc Spec.Merge

theorem key_eq_iff (a b : Atom) : Doc.Atom.key a = Doc.Atom.key b ↔ Equal (.atom a) (.atom b) := by
  unfold Equal
  constructor
  · intro h
    by_cases e : a = b
    · exact Or.inl (by rw [e])
    refine Or.inr ?_
    cases a <;> cases b <;> simp [Doc.Atom.key] at h e ⊢
    all_goals grind [num]
  · rintro (h | ⟨a', b', q, h1, h2, h3, h4⟩)
    · cases h; rfl
    · cases h1; cases h2
      cases a <;> cases b <;> simp [num, Doc.Atom.key] at h3 h4 ⊢
      all_goals first | (exact Rat.intCast_inj.1 (h3.trans h4.symm)) | grind [num]

theorem equal_refl (t : Tree) : Equal t t := Or.inl rfl

theorem equal_symm {t u : Tree} (h : Equal t u) : Equal u t := by
  rcases h with h | ⟨a, b, q, h1, h2, h3, h4⟩
  · exact Or.inl h.symm
  · exact Or.inr ⟨b, a, q, h2, h1, h4, h3⟩

theorem equal_trans {t u v : Tree} (h : Equal t u) (h' : Equal u v) : Equal t v := by
  rcases h with rfl | ⟨a, b, q, h1, h2, h3, h4⟩
  · exact h'
  · rcases h' with rfl | ⟨a', b', q', h1', h2', h3', h4'⟩
    · exact Or.inr ⟨a, b, q, h1, h2, h3, h4⟩
    · subst h1; subst h2; cases h1'
      rw [h4] at h3'; cases h3'
      exact Or.inr ⟨a, b', q, rfl, h2', h3, h4'⟩

theorem atoms_iff (l : List Tree) (as : List Atom) : atoms l = some as ↔ l = as.map .atom := by
  induction l generalizing as with
  | nil => cases as <;> simp [atoms]
  | cons t l ih =>
    cases t with
    | atom a =>
      rw [atoms]
      cases hl : atoms l with
      | none =>
        simp only [Option.map_none]
        constructor
        · intro h; cases h
        · intro h
          cases as with
          | nil => cases h
          | cons b bs =>
            simp only [List.map_cons, List.cons.injEq] at h
            rw [(ih bs).2 h.2] at hl; cases hl
      | some bs =>
        have := (ih bs).1 hl
        cases as with
        | nil => simp
        | cons b cs =>
          simp only [Option.map_some, Option.some.injEq, List.cons.injEq, List.map_cons, Tree.atom.injEq]
          constructor
          · rintro ⟨rfl, rfl⟩; exact ⟨rfl, this⟩
          · rintro ⟨rfl, h⟩
            refine ⟨rfl, ?_⟩
            have := (ih cs).2 h
            rw [hl] at this; cases this; rfl
    | _ => simp only [atoms]; cases as <;> simp

theorem atoms_none (l : List Tree) : atoms l = none ↔ ¬ Scalars l := by
  constructor
  · intro h hs
    have : ∃ as : List Atom, l = as.map .atom := by
      clear h
      induction l with
      | nil => exact ⟨[], rfl⟩
      | cons t l ih =>
        obtain ⟨as, has⟩ := ih fun u hu => hs u (List.mem_cons_of_mem _ hu)
        obtain ⟨a, rfl⟩ := hs t (List.mem_cons_self ..)
        exact ⟨a :: as, by rw [has]; rfl⟩
    obtain ⟨as, has⟩ := this
    rw [(atoms_iff l as).2 has] at h; cases h
  · intro h
    cases ha : atoms l with
    | none => rfl
    | some as =>
      refine absurd ?_ h
      rw [(atoms_iff l as).1 ha]
      intro t ht
      obtain ⟨a, _, rfl⟩ := List.mem_map.1 ht
      exact ⟨a, rfl⟩

theorem distinct_sub {l : List Atom} {a : Atom} (h : a ∈ distinct l) : a ∈ l := by
  induction l with
  | nil => cases h
  | cons b l ih =>
    rw [distinct] at h
    rcases List.mem_cons.1 h with e | h
    · exact e ▸ List.mem_cons_self ..
    · exact List.mem_cons_of_mem _ (ih (List.mem_filter.1 h).1)

theorem distinct_covers {l : List Atom} {a : Atom} (h : a ∈ l) :
    ∃ b ∈ distinct l, Doc.Atom.key b = Doc.Atom.key a := by
  induction l with
  | nil => cases h
  | cons c l ih =>
    rw [distinct]
    by_cases e : Doc.Atom.key c = Doc.Atom.key a
    · exact ⟨c, List.mem_cons_self .., e⟩
    · rcases List.mem_cons.1 h with rfl | h
      · exact absurd rfl e
      · obtain ⟨b, hb, hk⟩ := ih h
        refine ⟨b, List.mem_cons_of_mem _ (List.mem_filter.2 ⟨hb, ?_⟩), hk⟩
        rw [hk]
        simpa using fun x => e x.symm

theorem distinct_pairwise (l : List Atom) :
    (distinct l).Pairwise fun a b => Doc.Atom.key a ≠ Doc.Atom.key b := by
  induction l with
  | nil => exact List.Pairwise.nil
  | cons a l ih =>
    rw [distinct]
    refine List.Pairwise.cons ?_ (ih.filter _)
    intro b hb
    have := (List.mem_filter.1 hb).2
    simpa using fun x => (by simpa using this : ¬ _) x.symm

theorem joined_of_atoms {order : List Atom → List Atom} (ho : ∀ l, (order l).Perm l)
    {l m : List Tree} {as : List Atom} (h : atoms (l ++ m) = some as) :
    Joined l m ((order (distinct as)).map .atom) := by
  have hl := (atoms_iff _ _).1 h
  refine ⟨fun t => ?_, fun _ => ?_, fun hn => absurd ((atoms_none _).2 hn) (by rw [h]; nofun)⟩
  · have hin : In t l ∨ In t m ↔ In t (l ++ m) := by
      unfold In
      constructor
      · rintro (⟨u, hu, he⟩ | ⟨u, hu, he⟩)
        · exact ⟨u, List.mem_append_left _ hu, he⟩
        · exact ⟨u, List.mem_append_right _ hu, he⟩
      · rintro ⟨u, hu, he⟩
        rcases List.mem_append.1 hu with hu | hu
        · exact Or.inl ⟨u, hu, he⟩
        · exact Or.inr ⟨u, hu, he⟩
    rw [hin, hl]
    constructor
    · rintro ⟨u, hu, he⟩
      obtain ⟨a, ha, rfl⟩ := List.mem_map.1 hu
      exact ⟨_, List.mem_map.2 ⟨a, distinct_sub ((ho _).mem_iff.1 ha), rfl⟩, he⟩
    · rintro ⟨u, hu, he⟩
      obtain ⟨a, ha, rfl⟩ := List.mem_map.1 hu
      obtain ⟨b, hb, hk⟩ := distinct_covers ha
      exact ⟨_, List.mem_map.2 ⟨b, (ho _).mem_iff.2 hb, rfl⟩,
        equal_trans he (equal_symm ((key_eq_iff b a).1 hk))⟩
  · have hp : (distinct as).Pairwise fun a b => ¬ Doc.Atom.key a = Doc.Atom.key b := distinct_pairwise as
    have hp' := (ho (distinct as)).symm.pairwise hp fun hab e => hab e.symm
    rw [List.pairwise_map]
    exact hp'.imp fun hab e => hab ((key_eq_iff _ _).2 e)

theorem joined_of_none {l m : List Tree} (h : atoms (l ++ m) = none) : Joined l m (l ++ m) := by
  refine ⟨fun t => ?_, fun hs => absurd hs ((atoms_none _).1 h), fun _ => rfl⟩
  unfold In
  constructor
  · rintro ⟨u, hu, he⟩
    rcases List.mem_append.1 hu with hu | hu
    · exact Or.inl ⟨u, hu, he⟩
    · exact Or.inr ⟨u, hu, he⟩
  · rintro (⟨u, hu, he⟩ | ⟨u, hu, he⟩)
    · exact ⟨u, List.mem_append_left _ hu, he⟩
    · exact ⟨u, List.mem_append_right _ hu, he⟩

/-- what joining lists gives -/
theorem joinLists_spec {order : List Atom → List Atom} (ho : ∀ l, (order l).Perm l) {own w : Tree}
    {v : List Tree} (h : joinLists order own v = some w) :
    ∃ l m, w = .list m ∧ Joined l v m ∧ (own = .list l ∨ (falsy own = true ∧ l = [])) := by
  have h0 : ∀ t : Tree, falsy t = true → (match atoms v with
      | some as => some (.list ((order (distinct as)).map .atom))
      | none => some (.list v)) = some w →
      ∃ l m, w = .list m ∧ Joined l v m ∧ (t = .list l ∨ (falsy t = true ∧ l = [])) := by
    intro t ht h
    cases ha : atoms v with
    | none =>
      rw [ha] at h; cases h
      exact ⟨[], _, rfl, joined_of_none (l := []) ha, Or.inr ⟨ht, rfl⟩⟩
    | some as =>
      rw [ha] at h; cases h
      exact ⟨[], _, rfl, joined_of_atoms ho (l := []) ha, Or.inr ⟨ht, rfl⟩⟩
  cases own with
  | list l =>
    rw [joinLists] at h
    cases ha : atoms (l ++ v) with
    | none => rw [ha] at h; cases h; exact ⟨l, _, rfl, joined_of_none ha, Or.inl rfl⟩
    | some as => rw [ha] at h; cases h; exact ⟨l, _, rfl, joined_of_atoms ho ha, Or.inl rfl⟩
  | _ =>
    simp only [joinLists] at h
    split at h
    · next hf => exact h0 _ hf h
    · cases h

theorem nothing_iff (t : Tree) : falsy t = true ↔ Nothing t := by
  constructor
  · intro h
    cases t with
    | atom a =>
      cases a with
      | none => exact .null
      | bool b => cases b with
        | true => cases h
        | false => exact .number _ rfl
      | int n =>
        have : n = 0 := by simpa [falsy] using h
        subst this; exact .number _ rfl
      | float x => cases x with
        | fin q =>
          have : q = 0 := by simpa [falsy] using h
          subst this; exact .number _ rfl
        | _ => cases h
      | str s =>
        cases s with
        | nil => exact .text
        | cons _ _ => cases h
    | list l => cases l with
      | nil => exact .list
      | cons _ _ => cases h
    | dict l => cases l with
      | nil => exact .dict
      | cons _ _ => cases h
    | obj _ _ => cases h
  · intro h
    cases h with
    | number a h =>
      cases a with
      | bool b => cases b <;> simp_all [num, falsy]
      | int n =>
        have : (n : Rat) = 0 := by simpa [num] using h
        have : n = 0 := by exact_mod_cast this
        simp [falsy, this]
      | float x => cases x <;> simp_all [num, falsy]
      | _ => cases h
    | _ => rfl

theorem joinLists_total {order : List Atom → List Atom} {own : Tree} {v : List Tree}
    (h : falsy own = true ∨ ∃ m, own = .list m) : ∃ w, joinLists order own v = some w := by
  rcases h with h | ⟨m, rfl⟩
  · cases own with
    | list l => rw [joinLists]; split <;> exact ⟨_, rfl⟩
    | _ => simp only [joinLists, h, if_true]; split <;> exact ⟨_, rfl⟩
  · rw [joinLists]; split <;> exact ⟨_, rfl⟩

theorem joinDicts_total {own : Tree} {v : Dict Str Tree}
    (h : falsy own = true ∨ ∃ m, own = .dict m) : ∃ w, joinDicts own v = some w := by
  rcases h with h | ⟨m, rfl⟩
  · cases own with
    | dict l => exact ⟨_, rfl⟩
    | _ => simp only [joinDicts, h, if_true]; exact ⟨_, rfl⟩
  · exact ⟨_, rfl⟩

theorem mergeField_total {order : List Atom → List Atom} {dflt own v : Tree} (h : Joins own v) :
    ∃ w, mergeField order dflt false own v none = some w := by
  unfold mergeField
  split
  · exact ⟨_, rfl⟩
  · simp only [Bool.false_eq_true, if_false]
    split
    · exact joinLists_total ((h.1 _ rfl).imp_left (nothing_iff _).2)
    · exact joinDicts_total ((h.2 _ rfl).imp_left (nothing_iff _).2)
    · split <;> exact ⟨_, rfl⟩

/-- a plain field of a fresh object -/
theorem mergeField_fresh {order : List Atom → List Atom} (ho : ∀ l, (order l).Perm l) {dflt v w : Tree}
    {cp : Option Tree} (hdd : isDefault dflt dflt = true) (hd : isDefault dflt v = false)
    (h : mergeField order dflt false dflt v cp = some w) : PlainCopy v w := by
  unfold mergeField at h
  simp only [hd, hdd, Bool.false_eq_true, if_false, if_true] at h
  refine ⟨fun l hl => ?_, fun hn => ?_⟩
  · subst hl
    obtain ⟨l', m, hw, hj, he⟩ := joinLists_spec ho h
    rcases he with he | ⟨_, rfl⟩
    · subst he
      cases l' with
      | nil => exact ⟨m, hw, hj⟩
      | cons _ _ => simp [isDefault] at hdd
    · exact ⟨m, hw, hj⟩
  · cases v with
    | list l => exact absurd rfl (hn l)
    | dict d =>
      simp only [joinDicts] at h
      cases dflt with
      | dict e =>
        cases e with
        | nil => cases h; rfl
        | cons _ _ => simp [isDefault] at hdd
      | _ =>
        simp only at h
        split at h
        · cases h; rfl
        · cases h
    | atom a => cases h; rfl
    | obj c fs => cases h; rfl

/-- a field with objects of a fresh object -/
theorem mergeField_child {order : List Atom → List Atom} {dflt v w : Tree}
    {cp : Option Tree} (hdd : isDefault dflt dflt = true) (hd : isDefault dflt v = false)
    (h : mergeField order dflt true dflt v cp = some w) : cp = some w := by
  unfold mergeField at h
  simpa only [hd, hdd, Bool.false_eq_true, if_false, if_true] using h

theorem pick_spec {fields : List (Str × Tree)} {e gs : Dict Str Tree} (h : pick fields e = some gs) :
    Dict.keys gs = Dict.keys fields ∧ ∀ n ∈ Dict.keys fields, Dict.get? gs n = Dict.get? e n ∧
      (Dict.get? e n).isSome := by
  induction fields generalizing gs with
  | nil => cases h; exact ⟨rfl, fun n hn => by cases hn⟩
  | cons f fs ih =>
    rw [pick] at h
    cases hv : Dict.get? e f.1 with
    | none => rw [hv] at h; cases h
    | some v =>
      cases hr : pick fs e with
      | none => rw [hv, hr] at h; cases h
      | some rest =>
        rw [hv, hr] at h
        cases h
        obtain ⟨h1, h2⟩ := ih hr
        refine ⟨by simpa [Dict.keys] using h1, fun n hn => ?_⟩
        by_cases e' : f.1 = n
        · subst e'; simp [Dict.get?, hv]
        · rcases Proofs.Doc.mem_keys_cons.1 hn with x | x
          · exact absurd x.symm e'
          · have := h2 n x
            simpa [Dict.get?, e'] using this

theorem pick_total {fields : List (Str × Tree)} {e : Dict Str Tree}
    (h : ∀ n ∈ Dict.keys fields, (Dict.get? e n).isSome) : ∃ gs, pick fields e = some gs := by
  induction fields with
  | nil => exact ⟨[], rfl⟩
  | cons f fs ih =>
    obtain ⟨gs, hgs⟩ := ih fun n hn => h n (Proofs.Doc.mem_keys_cons.2 (Or.inr hn))
    obtain ⟨v, hv⟩ := Option.isSome_iff_exists.1 (h f.1 (Proofs.Doc.mem_keys_cons.2 (Or.inl rfl)))
    exact ⟨_, by rw [pick, hv, hgs]⟩

/-- one field of a fresh object -/
def freshField (G : Grammar) (order : List Atom → List Atom) (cls : Cls) (n : Str) (v : Tree) : Option Tree :=
  mergeField order (defaultOf cls n) (Dict.get? cls.child n).isSome (defaultOf cls n) v (copyOf G order cls n v)

theorem copyFields_cons (G : Grammar) (order : List Atom → List Atom) (cls : Cls) (n : Str) (v : Tree)
    (os : List (Str × Tree)) :
    copyFields G order cls ((n, v) :: os) =
      match copyFields G order cls os with
      | none => none
      | some rest =>
        if (Dict.get? cls.fields n).isNone then some rest
        else
          match freshField G order cls n v with
          | none => none
          | some w => some ((n, w) :: rest) := by
  rw [copyFields]
  cases copyFields G order cls os with
  | none => rfl
  | some rest =>
    dsimp only
    split
    · rfl
    · unfold freshField copyOf
      cases Dict.get? cls.child n with
      | none => rfl
      | some k => rfl

theorem copyFields_get {G : Grammar} {order : List Atom → List Atom} {cls : Cls} {os e : List (Str × Tree)}
    (h : copyFields G order cls os = some e) {n : Str} (hn : n ∈ Dict.keys cls.fields) :
    Dict.get? e n = (Dict.get? os n).bind (freshField G order cls n) := by
  induction os generalizing e with
  | nil => rw [copyFields] at h; cases h; rfl
  | cons x os ih =>
    obtain ⟨m, v⟩ := x
    rw [copyFields_cons] at h
    cases hr : copyFields G order cls os with
    | none => rw [hr] at h; cases h
    | some rest =>
      rw [hr] at h
      dsimp only at h
      by_cases hm : m = n
      · subst hm
        have hs := (Dict.get?_isSome_iff _ _).2 hn
        rw [if_neg (by cases hx : Dict.get? cls.fields m <;> simp_all)] at h
        cases hw : freshField G order cls m v with
        | none => rw [hw] at h; cases h
        | some w => rw [hw] at h; cases h; simp [Dict.get?, hw]
      · split at h
        · cases h; rw [ih hr]; simp [Dict.get?, hm]
        · cases hw : freshField G order cls m v with
          | none => rw [hw] at h; cases h
          | some w => rw [hw] at h; cases h; simp [Dict.get?, hm, ih hr]

theorem copyFields_total {G : Grammar} {order : List Atom → List Atom} {cls : Cls} {os : List (Str × Tree)}
    (h : ∀ n v, (n, v) ∈ os → n ∈ Dict.keys cls.fields → ∃ w, freshField G order cls n v = some w) :
    ∃ e, copyFields G order cls os = some e := by
  induction os with
  | nil => exact ⟨[], by rw [copyFields]⟩
  | cons x os ih =>
    obtain ⟨m, v⟩ := x
    obtain ⟨rest, hr⟩ := ih fun n v hm => h n v (List.mem_cons_of_mem _ hm)
    rw [copyFields_cons, hr]
    dsimp only
    split
    · exact ⟨_, rfl⟩
    · next hs =>
      obtain ⟨w, hw⟩ := h m v (List.mem_cons_self ..)
        ((Dict.get?_isSome_iff _ _).1 (by cases hx : Dict.get? cls.fields m <;> simp_all))
      exact ⟨_, by rw [hw]⟩

theorem defaultOf_eq {cls : Cls} {n : Str} {dflt : Tree} (h : Dict.get? cls.fields n = some dflt) :
    defaultOf cls n = dflt := by unfold defaultOf; rw [h]; rfl

/-- merging into a fresh object of a class makes a copy -/
theorem copyObj {G : Grammar} {order : List Atom → List Atom} (ho : ∀ l, (order l).Perm l) {c c' : Nat}
    {k : Kind} (hk : k = .one c ∨ k = .boolOr c) (hcls : ClsOk (G c)) {os gs e : List (Str × Tree)}
    (he : copyFields G order (G c) os = some e) (hp : pick (G c).fields e = some gs)
    (ih : ∀ n v w k', (n, v) ∈ os → copyAs G order k' v = some w → Copy G k' v w) :
    Copy G k (.obj c' os) (.obj c gs) := by
  obtain ⟨h1, h2⟩ := pick_spec hp
  have hmem : ∀ n dflt, Dict.get? (G c).fields n = some dflt → n ∈ Dict.keys (G c).fields := fun n dflt h =>
    (Dict.get?_isSome_iff _ _).1 (by rw [h]; rfl)
  have hfield : ∀ n dflt v w, Dict.get? (G c).fields n = some dflt → Dict.get? os n = some v →
      Dict.get? gs n = some w → freshField G order (G c) n v = some w := by
    intro n dflt v w hf hv hw
    rw [(h2 n (hmem n dflt hf)).1, copyFields_get he (hmem n dflt hf), hv] at hw
    exact hw
  have hdd : ∀ n dflt, Dict.get? (G c).fields n = some dflt → isDefault dflt dflt = true := fun n dflt h =>
    hcls.2.2.1 _ (Dict.mem_of_get? h)
  refine Copy.obj k c c' os gs hk h1 ?_ ?_ ?_ ?_
  · intro n hn
    have := (h2 n hn).2
    rw [copyFields_get he hn] at this
    cases hv : Dict.get? os n with
    | none => rw [hv] at this; cases this
    | some v => exact ⟨v, rfl⟩
  · intro n dflt v w hf hv hw hd
    have := hfield n dflt v w hf hv hw
    unfold freshField at this
    rw [defaultOf_eq hf] at this
    unfold mergeField at this
    rw [if_pos hd] at this
    cases this; rfl
  · intro n dflt v w hf hv hw hd hc
    have := hfield n dflt v w hf hv hw
    unfold freshField at this
    rw [defaultOf_eq hf, hc] at this
    exact mergeField_fresh ho (hdd n dflt hf) hd this
  · intro n dflt v w k' hf hv hw hd hc
    have := hfield n dflt v w hf hv hw
    unfold freshField at this
    rw [defaultOf_eq hf, hc] at this
    have := mergeField_child (hdd n dflt hf) hd this
    unfold copyOf at this
    rw [hc] at this
    exact ih n v w k' (Dict.mem_of_get? hv) this

mutual
theorem copyAs_copy {G : Grammar} (hG : ∀ c, ClsOk (G c)) {order : List Atom → List Atom}
    (ho : ∀ l, (order l).Perm l) : (v : Tree) → (k : Kind) → (w : Tree) → copyAs G order k v = some w → Copy G k v w
  | .atom a, k, w, h => by
    rw [copyAs] at h
    cases a with
    | none => cases k <;> (cases h; exact Copy.null _)
    | bool b => cases k <;> cases h; exact Copy.bool _ _
    | int n => cases k <;> cases h
    | float x => cases k <;> cases h
    | str s => cases k <;> cases h
  | .list l, k, w, h => by
    cases k <;> simp only [copyAs] at h <;> try cases h
    next c =>
    cases hm : copyList G order c l with
    | none => rw [hm] at h; cases h
    | some m =>
      rw [hm] at h; cases h
      obtain ⟨h1, h2⟩ := copyList_copy hG ho l c m hm
      exact Copy.list c l m h1 h2
  | .dict d, k, w, h => by
    cases k <;> simp only [copyAs] at h <;> try cases h
    next c =>
    cases hm : copyDict G order c d with
    | none => rw [hm] at h; cases h
    | some m =>
      rw [hm] at h; cases h
      obtain ⟨h1, h2⟩ := copyDict_copy hG ho d c m hm
      exact Copy.dict c d m h1 h2
  | .obj c' os, k, w, h => by
    have key : ∀ c, (k = .one c ∨ k = .boolOr c) →
        ((copyFields G order (G c) os).bind (pick (G c).fields)).map (Tree.obj c) = some w →
        Copy G k (.obj c' os) w := by
      intro c hk h
      cases he : copyFields G order (G c) os with
      | none => rw [he] at h; cases h
      | some e =>
        rw [he] at h
        simp only [Option.bind_some] at h
        cases hp : pick (G c).fields e with
        | none => rw [hp] at h; cases h
        | some gs =>
          rw [hp] at h; cases h
          exact copyObj ho hk (hG c) he hp (copyEntries_copy hG ho os)
    cases k with
    | one c => rw [copyAs] at h; exact key c (Or.inl rfl) h
    | boolOr c => rw [copyAs] at h; exact key c (Or.inr rfl) h
    | list c => simp only [copyAs] at h; cases h
    | dict c => simp only [copyAs] at h; cases h
theorem copyList_copy {G : Grammar} (hG : ∀ c, ClsOk (G c)) {order : List Atom → List Atom}
    (ho : ∀ l, (order l).Perm l) : (l : List Tree) → (c : Nat) → (m : List Tree) → copyList G order c l = some m →
      l.length = m.length ∧ ∀ (i : Nat) v w, l[i]? = some v → m[i]? = some w → Copy G (.one c) v w
  | [], c, m, h => by rw [copyList] at h; cases h; exact ⟨rfl, fun i v w hv => by simp at hv⟩
  | v :: l, c, m, h => by
    rw [copyList] at h
    split at h
    · cases h
    · cases hw : copyAs G order (.one c) v with
      | none => rw [hw] at h; cases h
      | some w =>
        cases hr : copyList G order c l with
        | none => rw [hw, hr] at h; cases h
        | some rest =>
          rw [hw, hr] at h; cases h
          obtain ⟨h1, h2⟩ := copyList_copy hG ho l c rest hr
          have h0 := copyAs_copy hG ho v (.one c) w hw
          refine ⟨by simp [h1], fun i v' w' hv hw' => ?_⟩
          cases i with
          | zero => simp at hv hw'; subst hv; subst hw'; exact h0
          | succ i => simp at hv hw'; exact h2 i v' w' hv hw'
theorem copyDict_copy {G : Grammar} (hG : ∀ c, ClsOk (G c)) {order : List Atom → List Atom}
    (ho : ∀ l, (order l).Perm l) : (d : List (Str × Tree)) → (c : Nat) → (m : List (Str × Tree)) →
      copyDict G order c d = some m →
      Dict.keys d = Dict.keys m ∧ ∀ (i : Nat) n v n' w, d[i]? = some (n, v) → m[i]? = some (n', w) → Copy G (.one c) v w
  | [], c, m, h => by rw [copyDict] at h; cases h; exact ⟨rfl, fun i n v n' w hv => by simp at hv⟩
  | (n, v) :: l, c, m, h => by
    rw [copyDict] at h
    split at h
    · cases h
    · cases hw : copyAs G order (.one c) v with
      | none => rw [hw] at h; cases h
      | some w =>
        cases hr : copyDict G order c l with
        | none => rw [hw, hr] at h; cases h
        | some rest =>
          rw [hw, hr] at h; cases h
          obtain ⟨h1, h2⟩ := copyDict_copy hG ho l c rest hr
          have h0 := copyAs_copy hG ho v (.one c) w hw
          refine ⟨by simpa [Dict.keys] using h1, fun i n1 v' n' w' hv hw' => ?_⟩
          cases i with
          | zero => simp at hv hw'; obtain ⟨_, rfl⟩ := hv; obtain ⟨_, rfl⟩ := hw'; exact h0
          | succ i => simp at hv hw'; exact h2 i n1 v' n' w' hv hw'
theorem copyEntries_copy {G : Grammar} (hG : ∀ c, ClsOk (G c)) {order : List Atom → List Atom}
    (ho : ∀ l, (order l).Perm l) : (d : List (Str × Tree)) → ∀ n v w k', (n, v) ∈ d →
      copyAs G order k' v = some w → Copy G k' v w
  | [], _, _, _, _, h, _ => by cases h
  | (m, u) :: d, n, v, w, k', h, hc => by
    by_cases e : (n, v) = (m, u)
    · cases e; exact copyAs_copy hG ho u k' w hc
    · exact copyEntries_copy hG ho d n v w k' (by
        rcases List.mem_cons.1 h with x | x
        · exact absurd x e
        · exact x) hc
end

theorem shapedFields_mem {G : Grammar} {cls : Cls} {fs : List (Str × Tree)} (h : ShapedFields G cls fs)
    {n : Str} {v : Tree} (hm : (n, v) ∈ fs) :
    match Dict.get? cls.child n with
      | none => Joins (defaultOf cls n) v
      | some k => Shaped G k v := by
  induction fs with
  | nil => cases hm
  | cons x d ih =>
    obtain ⟨m, u⟩ := x
    rw [ShapedFields] at h
    rcases List.mem_cons.1 hm with e | hm
    · cases e; exact h.1
    · exact ih h.2 hm

theorem copyObj_total {G : Grammar} {order : List Atom → List Atom} {c : Nat} {os : List (Str × Tree)}
    (hkeys : Dict.keys os = Dict.keys (G c).fields) (hs : ShapedFields G (G c) os)
    (ih : ∀ n v k', (n, v) ∈ os → Shaped G k' v → ∃ w, copyAs G order k' v = some w) :
    ∃ gs, (copyFields G order (G c) os).bind (pick (G c).fields) = some gs := by
  have hf : ∀ n v, (n, v) ∈ os → n ∈ Dict.keys (G c).fields → ∃ w, freshField G order (G c) n v = some w := by
    intro n v hm _
    have := shapedFields_mem hs hm
    unfold freshField copyOf
    cases hc : Dict.get? (G c).child n with
    | none =>
      rw [hc] at this
      exact mergeField_total this
    | some k =>
      rw [hc] at this
      obtain ⟨w, hw⟩ := ih n v k hm this
      simp only [hw, Option.isSome_some]
      unfold mergeField
      split
      · exact ⟨_, rfl⟩
      · split <;> (try split) <;> first | exact ⟨_, rfl⟩ | (exact absurd rfl ‹¬ true = true›)
  obtain ⟨e, he⟩ := copyFields_total hf
  rw [he]
  refine pick_total fun n hn => ?_
  rw [copyFields_get he hn]
  obtain ⟨v, hv⟩ := Option.isSome_iff_exists.1 ((Dict.get?_isSome_iff _ _).2 (hkeys ▸ hn))
  obtain ⟨w, hw⟩ := hf n v (Dict.mem_of_get? hv) hn
  rw [hv]
  simp [hw]

mutual
theorem copyAs_total {G : Grammar} {order : List Atom → List Atom} :
    (v : Tree) → (k : Kind) → Shaped G k v → ∃ w, copyAs G order k v = some w
  | .atom a, k, h => by
    rw [copyAs]
    cases k <;> cases a <;> simp [Shaped] at h <;> exact ⟨_, rfl⟩
  | .list l, k, h => by
    cases k <;> simp only [Shaped] at h
    next c =>
    obtain ⟨m, hm⟩ := copyList_total (order := order) l c h
    exact ⟨_, by rw [copyAs, hm]; rfl⟩
  | .dict d, k, h => by
    cases k <;> simp only [Shaped] at h
    next c =>
    obtain ⟨m, hm⟩ := copyDict_total (order := order) d c h
    exact ⟨_, by rw [copyAs, hm]; rfl⟩
  | .obj c' os, k, h => by
    cases k <;> simp only [Shaped] at h
    · next c =>
      obtain ⟨gs, hgs⟩ := copyObj_total (order := order) h.2.1 h.2.2 (copyEntries_total os)
      exact ⟨_, by rw [copyAs, hgs]; rfl⟩
    · next c =>
      obtain ⟨gs, hgs⟩ := copyObj_total (order := order) h.2.1 h.2.2 (copyEntries_total os)
      exact ⟨_, by rw [copyAs, hgs]; rfl⟩
theorem copyList_total {G : Grammar} {order : List Atom → List Atom} :
    (l : List Tree) → (c : Nat) → ShapedList G c l → ∃ m, copyList G order c l = some m
  | [], c, _ => ⟨_, by rw [copyList]⟩
  | v :: l, c, h => by
    rw [ShapedList] at h
    obtain ⟨w, hw⟩ := copyAs_total (order := order) v (.one c) h.2.1
    obtain ⟨m, hm⟩ := copyList_total (order := order) l c h.2.2
    have hn : isNull v = false := by
      cases v with
      | atom a => cases a <;> first | rfl | exact absurd rfl h.1
      | _ => rfl
    exact ⟨_, by rw [copyList, hw, hm, hn]; rfl⟩
theorem copyDict_total {G : Grammar} {order : List Atom → List Atom} :
    (l : List (Str × Tree)) → (c : Nat) → ShapedDict G c l → ∃ m, copyDict G order c l = some m
  | [], c, _ => ⟨_, by rw [copyDict]⟩
  | (n, v) :: l, c, h => by
    rw [ShapedDict] at h
    obtain ⟨w, hw⟩ := copyAs_total (order := order) v (.one c) h.2.1
    obtain ⟨m, hm⟩ := copyDict_total (order := order) l c h.2.2
    have hn : isNull v = false := by
      cases v with
      | atom a => cases a <;> first | rfl | exact absurd rfl h.1
      | _ => rfl
    exact ⟨_, by rw [copyDict, hw, hm, hn]; rfl⟩
theorem copyEntries_total {G : Grammar} {order : List Atom → List Atom} :
    (d : List (Str × Tree)) → ∀ n v k', (n, v) ∈ d → Shaped G k' v → ∃ w, copyAs G order k' v = some w
  | [], _, _, _, h, _ => by cases h
  | (m, u) :: d, n, v, k', h, hc => by
    by_cases e : (n, v) = (m, u)
    · cases e; exact copyAs_total u k' hc
    · exact copyEntries_total d n v k' (by
        rcases List.mem_cons.1 h with x | x
        · exact absurd x e
        · exact x) hc
end

/-- one field of a merged object -/
def mergedField (G : Grammar) (order : List Atom → List Atom) (exclude : List Str) (cls : Cls)
    (os : Dict Str Tree) (n : Str) (own : Tree) : Option Tree :=
  if n ∈ exclude then some own
  else (Dict.get? os n).bind fun v =>
    mergeField order (defaultOf cls n) (Dict.get? cls.child n).isSome own v (copyOf G order cls n v)

theorem mergeFields_cons (G : Grammar) (order : List Atom → List Atom) (exclude : List Str) (cls : Cls)
    (os : Dict Str Tree) (n : Str) (own : Tree) (fs : List (Str × Tree)) :
    mergeFields G order exclude cls os ((n, own) :: fs) =
      match mergeFields G order exclude cls os fs with
      | none => none
      | some rest => (mergedField G order exclude cls os n own).map fun w => (n, w) :: rest := by
  rw [mergeFields]
  cases mergeFields G order exclude cls os fs with
  | none => rfl
  | some rest =>
    unfold mergedField
    dsimp only
    split
    · rfl
    · cases Dict.get? os n with
      | none => rfl
      | some v =>
        simp only [Option.bind_some]
        cases mergeField order (defaultOf cls n) (Dict.get? cls.child n).isSome own v
          (copyOf G order cls n v) <;> rfl

theorem mergeFields_spec {G : Grammar} {order : List Atom → List Atom} {exclude : List Str} {cls : Cls}
    {os : Dict Str Tree} {fs gs : List (Str × Tree)} (h : mergeFields G order exclude cls os fs = some gs) :
    Dict.keys gs = Dict.keys fs ∧ ∀ n, Dict.get? gs n =
      (Dict.get? fs n).bind (mergedField G order exclude cls os n) := by
  induction fs generalizing gs with
  | nil => rw [mergeFields] at h; cases h; exact ⟨rfl, fun n => rfl⟩
  | cons x fs ih =>
    obtain ⟨m, own⟩ := x
    rw [mergeFields_cons] at h
    cases hr : mergeFields G order exclude cls os fs with
    | none => rw [hr] at h; cases h
    | some rest =>
      rw [hr] at h
      cases hw : mergedField G order exclude cls os m own with
      | none => rw [hw] at h; cases h
      | some w =>
        rw [hw] at h; cases h
        obtain ⟨h1, h2⟩ := ih hr
        refine ⟨by simpa [Dict.keys] using h1, fun n => ?_⟩
        by_cases e : m = n
        · subst e; simp [Dict.get?, hw]
        · simp [Dict.get?, e, h2]

theorem mergeFields_total {G : Grammar} {order : List Atom → List Atom} {exclude : List Str} {cls : Cls}
    {os : Dict Str Tree} {fs : List (Str × Tree)}
    (h : ∀ n own, (n, own) ∈ fs → ∃ w, mergedField G order exclude cls os n own = some w) :
    ∃ gs, mergeFields G order exclude cls os fs = some gs := by
  induction fs with
  | nil => exact ⟨[], by rw [mergeFields]⟩
  | cons x fs ih =>
    obtain ⟨m, own⟩ := x
    obtain ⟨rest, hr⟩ := ih fun n o hm => h n o (List.mem_cons_of_mem _ hm)
    obtain ⟨w, hw⟩ := h m own (List.mem_cons_self ..)
    exact ⟨_, by rw [mergeFields_cons, hr, hw]; rfl⟩

end Proofs.Merge
