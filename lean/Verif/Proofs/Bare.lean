import Verif.Spec.Pointed
import Verif.Proofs.TreeEq
import Verif.Proofs.Placed
import Mathlib.Data.List.Forall2
/-! # Lemmas for C87: objects and the documents they can be read from -/

namespace Proofs.Bare
open Py Tree _root_.Doc Spec.Places Spec.Pointed

mutual
/-- what a document would have to say: the fields with a value other than the default -/
def bare : Tree → Tree
  | .atom a => .atom a
  | .list l => .list (bareList l)
  | .dict d => .dict (bareDict d)
  | .obj c fs => .dict (bareFields (v20 c) fs)
def bareList : List Tree → List Tree
  | [] => []
  | t :: l => bare t :: bareList l
def bareDict : List (Str × Tree) → List (Str × Tree)
  | [] => []
  | (n, t) :: d => (n, bare t) :: bareDict d
def bareFields (cls : Cls) : List (Str × Tree) → List (Str × Tree)
  | [] => []
  | (n, t) :: d => if Dict.get? cls.fields n = some t then bareFields cls d else (n, bare t) :: bareFields cls d
end

mutual
/-- objects as the tables of classes have them; the references are those of schemas, with the property -/
def Formed (P : Str → Prop) (k : Kind) : Tree → Prop
  | .atom a => ∃ c b, k = .boolOr c ∧ a = .bool b
  | .list l => ∃ c, k = .list c ∧ FormedList P c l
  | .dict d => ∃ c, k = .dict c ∧ (d.map Prod.fst).Nodup ∧ FormedDict P c d
  | .obj c fs => Takes k c ∧ Dict.keys fs = Dict.keys (v20 c).fields ∧ FormedFields P c fs
def FormedList (P : Str → Prop) (c : Nat) : List Tree → Prop
  | [] => True
  | t :: l => Formed P (.one c) t ∧ FormedList P c l
def FormedDict (P : Str → Prop) (c : Nat) : List (Str × Tree) → Prop
  | [] => True
  | (_, t) :: d => Formed P (.one c) t ∧ FormedDict P c d
def FormedFields (P : Str → Prop) (c : Nat) : List (Str × Tree) → Prop
  | [] => True
  | (n, t) :: d =>
    (match Dict.get? (v20 c).child n with
      | none => Plain t ∧ (n = c!"$ref" → t = .atom .none ∨ c = cSchema ∧ ∃ r, t = .atom (.str r) ∧ P r) ∧
        (n = c!"collectionFormat" → ∃ a, t = .atom a)
      | some k => (∃ c', k = .one c') ∧ t = .atom .none ∨ Formed P k t) ∧ FormedFields P c d
end

variable {P : Str → Prop}

theorem formedList_iff {c : Nat} {l : List Tree} : FormedList P c l ↔ ∀ t ∈ l, Formed P (.one c) t := by
  induction l with
  | nil => simp [FormedList]
  | cons t l ih => simp [FormedList, ih]

theorem formedDict_iff {c : Nat} {l : List (Str × Tree)} : FormedDict P c l ↔ ∀ x ∈ l, Formed P (.one c) x.2 := by
  induction l with
  | nil => simp [FormedDict]
  | cons x l ih => obtain ⟨k, t⟩ := x; rw [FormedDict, ih]; simp

/-- what a field of an object of the class holds -/
def FieldOk (P : Str → Prop) (c : Nat) (n : Str) (t : Tree) : Prop :=
  match Dict.get? (v20 c).child n with
  | none => Plain t ∧ (n = c!"$ref" → t = .atom .none ∨ c = cSchema ∧ ∃ r, t = .atom (.str r) ∧ P r) ∧
        (n = c!"collectionFormat" → ∃ a, t = .atom a)
  | some k => (∃ c', k = .one c') ∧ t = .atom .none ∨ Formed P k t

theorem formedFields_iff {c : Nat} {l : List (Str × Tree)} :
    FormedFields P c l ↔ ∀ x ∈ l, FieldOk P c x.1 x.2 := by
  induction l with
  | nil => simp [FormedFields]
  | cons x l ih =>
    obtain ⟨k, t⟩ := x
    rw [FormedFields, ih]
    simp only [List.mem_cons, forall_eq_or_imp, FieldOk]

theorem bareList_eq (l : List Tree) : bareList l = l.map bare := by
  induction l with
  | nil => rfl
  | cons t l ih => rw [bareList, ih]; rfl

theorem bareDict_eq (l : List (Str × Tree)) : bareDict l = l.map fun x => (x.1, bare x.2) := by
  induction l with
  | nil => rfl
  | cons x l ih => obtain ⟨n, t⟩ := x; rw [bareDict, ih]; rfl

/-! ## plain values stay -/

mutual
theorem bare_plain : ∀ t : Tree, Plain t → bare t = t
  | .atom _, _ => rfl
  | .list l, h => by rw [Plain] at h; rw [bare, bareList_plain l h]
  | .dict d, h => by rw [Plain] at h; rw [bare, bareDict_plain d h.2]
  | .obj _ _, h => by rw [Plain] at h; exact absurd h id
theorem bareList_plain : ∀ l : List Tree, PlainList l → bareList l = l
  | [], _ => rfl
  | t :: l, h => by rw [PlainList] at h; rw [bareList, bare_plain t h.1, bareList_plain l h.2]
theorem bareDict_plain : ∀ l : List (Str × Tree), PlainDict l → bareDict l = l
  | [], _ => rfl
  | (n, t) :: l, h => by rw [PlainDict] at h; rw [bareDict, bare_plain t h.1, bareDict_plain l h.2]
end

/-! ## what is written can be read again -/

/-- the fields that are written -/
def kept (cls : Cls) (fs : List (Str × Tree)) : List (Str × Tree) :=
  fs.filter fun x => Dict.get? cls.fields x.1 ≠ some x.2

theorem bareFields_eq (cls : Cls) (fs : List (Str × Tree)) :
    bareFields cls fs = (kept cls fs).map fun x => (x.1, bare x.2) := by
  induction fs with
  | nil => rfl
  | cons x l ih =>
    obtain ⟨n, t⟩ := x
    rw [bareFields, ih]
    unfold kept
    by_cases h : Dict.get? cls.fields n = some t
    · rw [if_pos h, List.filter_cons_of_neg (by simp [h])]
    · rw [if_neg h, List.filter_cons_of_pos (by simp [h])]
      rfl

theorem formed_notNull {k : Kind} {t : Tree} (h : Formed P k t) : isNull (bare t) = false := by
  cases t with
  | atom a => rw [Formed] at h; obtain ⟨c, b, -, rfl⟩ := h; rfl
  | list l => rfl
  | dict d => rfl
  | obj c fs => rfl

/-- the tables: fields are distinct; a container has the empty one as default, or none; objects and
truth values have no empty one -/
theorem tables : ∀ c : Nat, (Dict.keys (v20 c).fields).Nodup ∧
    ∀ n k, (n, k) ∈ (v20 c).child →
      Dict.get? (v20 c).fields n = some (.atom .none) ∨
      (∃ e, emptyOf k = some e ∧ Dict.get? (v20 c).fields n = some e) ∨
      (∃ c', k = .boolOr c') := by
  intro c
  by_cases hc : c < 15
  · have h : ∀ c < 15, (Dict.keys (v20 c).fields).Nodup ∧ ∀ x ∈ (v20 c).child,
        (Dict.get? (v20 c).fields x.1 = some (.atom .none) ∨
        (emptyOf x.2 ≠ none ∧ Dict.get? (v20 c).fields x.1 = emptyOf x.2) ∨ (∃ c' < 15, x.2 = .boolOr c')) := by
      decide +kernel
    obtain ⟨h1, h2⟩ := h c hc
    refine ⟨h1, fun n k hm => ?_⟩
    rcases h2 (n, k) hm with h | ⟨h3, h⟩ | ⟨c', -, h⟩
    · exact .inl h
    · obtain ⟨e, he⟩ := Option.ne_none_iff_exists'.1 h3
      exact .inr (.inl ⟨e, he, h.trans he⟩)
    · exact .inr (.inr ⟨c', h⟩)
  · have : v20 c = ⟨[], []⟩ := by
      unfold v20
      rw [List.getD_eq_getElem?_getD, List.getElem?_eq_none (by simp [classes]; omega)]
      rfl
    rw [this]
    exact ⟨by simp [Dict.keys], fun n k hm => by cases hm⟩

theorem refill (fields : List (Str × Tree)) (g : Str × Tree → Tree) : ∀ fs : List (Str × Tree),
    Dict.keys fs = Dict.keys fields → (Dict.keys fields).Nodup →
    (∀ f ∈ fields, ∀ v, Dict.get? fs f.1 = some v → g f = v) → fields.map (fun f => (f.1, g f)) = fs := by
  induction fields with
  | nil => intro fs h _ _; cases fs with
    | nil => rfl
    | cons _ _ => simp [Dict.keys] at h
  | cons f fields ih =>
    intro fs h hn hg
    cases fs with
    | nil => simp [Dict.keys] at h
    | cons x fs =>
      obtain ⟨n, v⟩ := x
      simp only [Dict.keys, List.map_cons, List.cons.injEq] at h
      obtain ⟨h1, h2⟩ := h
      simp only [Dict.keys, List.map_cons, List.nodup_cons] at hn
      rw [List.map_cons, ih fs h2 hn.2, hg f (by simp) v (by rw [Dict.get?, if_pos h1])]
      · rw [← h1]
      · intro f' hf' v' hv'
        refine hg f' (by simp [hf']) v' ?_
        rw [Dict.get?, if_neg]
        · exact hv'
        · intro e
          refine hn.1 ?_
          rw [← h1, e]
          exact List.mem_map_of_mem hf'

theorem get_kept {cls : Cls} {fs : List (Str × Tree)} (hn : (Dict.keys fs).Nodup) {n : Str} {v : Tree}
    (h : Dict.get? fs n = some v) :
    Dict.get? (kept cls fs) n = if Dict.get? cls.fields n = some v then none else some v := by
  have hm := Dict.mem_of_get? h
  have hk : (Dict.keys (kept cls fs)).Nodup := by
    unfold kept Dict.keys
    exact List.Sublist.nodup (List.Sublist.map _ List.filter_sublist) hn
  by_cases hd : Dict.get? cls.fields n = some v
  · rw [if_pos hd, Dict.get?_eq_none_iff]
    intro hin
    obtain ⟨x, hx, e⟩ := List.mem_map.1 hin
    obtain ⟨n', v'⟩ := x
    cases e
    obtain ⟨hx1, hx2⟩ := List.mem_filter.1 hx
    rw [Dict.get?_of_mem hn hx1] at h
    cases h
    simp [hd] at hx2
  · rw [if_neg hd]
    exact Dict.get?_of_mem hk (List.mem_filter.2 ⟨hm, by simp [hd]⟩)

theorem assemble_kept {c : Nat} {fs : List (Str × Tree)} (hk : Dict.keys fs = Dict.keys (v20 c).fields)
    (hf : FormedFields P c fs) : assemble (v20 c) (kept (v20 c) fs) = fs := by
  obtain ⟨hn, ht⟩ := tables c
  refine refill _ _ fs hk hn ?_
  intro f hf' v hv
  have hd : Dict.get? (v20 c).fields f.1 = some f.2 := Dict.get?_of_mem hn hf'
  rw [get_kept (by rw [hk]; exact hn) hv]
  by_cases he : Dict.get? (v20 c).fields f.1 = some v
  · rw [if_pos he]
    rw [hd] at he
    cases he
    simp only
    have := formedFields_iff.1 hf _ (Dict.mem_of_get? hv)
    unfold FieldOk at this
    cases hc : Dict.get? (v20 c).child f.1 with
    | none => rfl
    | some k =>
      rw [hc] at this
      simp only at this
      simp only [Option.bind_some]
      rcases this with ⟨⟨c', rfl⟩, -⟩ | hfk
      · rfl
      · rcases ht _ _ (Dict.mem_of_get? hc) with h1 | ⟨e, h1, h2⟩ | ⟨c', rfl⟩
        · rw [hd] at h1
          have h1 := Option.some.inj h1
          rw [h1] at hfk
          exact absurd (formed_notNull hfk) (by simp [bare, isNull])
        · rw [h1]
          rw [hd] at h2
          exact (Option.some.inj h2).symm
        · rfl
  · rw [if_neg he]

mutual
/-- **Reading back.** What is written is read as the same objects. -/
theorem parse_bare : ∀ (k : Kind) (t : Tree), Formed P k t → parseAs v20 k (bare t) = some t
  | k, .atom a, h => by
    rw [Formed] at h
    obtain ⟨c, b, rfl, rfl⟩ := h
    rw [bare, parseAs.eq_def]
    rfl
  | k, .list l, h => by
    rw [Formed] at h
    obtain ⟨c, rfl, h⟩ := h
    rw [bare, parseAs]
    simp only [parse_bareList c l h, Option.map_some]
  | k, .dict d, h => by
    rw [Formed] at h
    obtain ⟨c, rfl, -, h⟩ := h
    rw [bare, parseAs]
    simp only [parse_bareDict c d h, Option.map_some]
  | k, .obj c fs, h => by
    rw [Formed] at h
    obtain ⟨ht, hk, hf⟩ := h
    have h1 := parse_bareFields c fs hf
    rw [bare, parseAs.eq_def]
    rcases ht with rfl | rfl
    · simp only [h1, Option.map_some, assemble_kept hk hf]
    · simp only [h1, Option.map_some, assemble_kept hk hf]
theorem parse_bareList : ∀ (c : Nat) (l : List Tree), FormedList P c l → parseList v20 c (bareList l) = some l
  | _, [], _ => rfl
  | c, t :: l, h => by
    rw [FormedList] at h
    rw [bareList, parseList, parse_bare (.one c) t h.1, parse_bareList c l h.2]
theorem parse_bareDict : ∀ (c : Nat) (l : List (Str × Tree)), FormedDict P c l → parseDict v20 c (bareDict l) = some l
  | _, [], _ => rfl
  | c, (n, t) :: l, h => by
    rw [FormedDict] at h
    rw [bareDict, parseDict, parse_bare (.one c) t h.1, parse_bareDict c l h.2]
theorem parse_bareFields : ∀ (c : Nat) (l : List (Str × Tree)), FormedFields P c l →
    parseEntries v20 (v20 c) (bareFields (v20 c) l) = some (kept (v20 c) l)
  | _, [], _ => rfl
  | c, (n, t) :: l, h => by
    rw [FormedFields] at h
    have ih := parse_bareFields c l h.2
    have h := h.1
    unfold kept at ih ⊢
    rw [bareFields]
    by_cases hd : Dict.get? (v20 c).fields n = some t
    · rw [if_pos hd, List.filter_cons_of_neg (by simp [hd]), ih]
    · rw [if_neg hd, List.filter_cons_of_pos (by simp [hd]), parseEntries, ih]
      simp only
      cases hc : Dict.get? (v20 c).child n with
      | none =>
        rw [hc] at h
        simp only
        rw [bare_plain t h.1]
      | some k =>
        rw [hc] at h
        simp only at h ⊢
        rcases h with ⟨⟨c', rfl⟩, rfl⟩ | h
        · simp only [bare, isNull, if_true, emptyOf, Option.getD_none]
        · rw [if_neg (by rw [formed_notNull h]; exact Bool.false_ne_true), parse_bare k t h]
end

/-! ## what is written is plain -/

mutual
theorem plain_bare : ∀ (k : Kind) (t : Tree), Formed P k t → Plain (bare t)
  | _, .atom _, _ => by rw [bare, Plain]; trivial
  | k, .list l, h => by
    rw [Formed] at h
    obtain ⟨c, rfl, h⟩ := h
    rw [bare, Plain]
    exact plain_bareList c l h
  | k, .dict d, h => by
    rw [Formed] at h
    obtain ⟨c, rfl, hn, h⟩ := h
    rw [bare, Plain]
    refine ⟨?_, plain_bareDict c d h⟩
    rw [bareDict_eq, List.map_map]
    exact hn
  | k, .obj c fs, h => by
    rw [Formed] at h
    obtain ⟨ht, hk, hf⟩ := h
    rw [bare, Plain]
    refine ⟨?_, plain_bareFields c fs hf⟩
    rw [bareFields_eq, List.map_map]
    have hn := (tables c).1
    rw [← hk] at hn
    exact List.Sublist.nodup (List.Sublist.map _ List.filter_sublist) hn
theorem plain_bareList : ∀ (c : Nat) (l : List Tree), FormedList P c l → PlainList (bareList l)
  | _, [], _ => by rw [bareList, PlainList]; trivial
  | c, t :: l, h => by
    rw [FormedList] at h
    rw [bareList, PlainList]
    exact ⟨plain_bare (.one c) t h.1, plain_bareList c l h.2⟩
theorem plain_bareDict : ∀ (c : Nat) (l : List (Str × Tree)), FormedDict P c l → PlainDict (bareDict l)
  | _, [], _ => by rw [bareDict, PlainDict]; trivial
  | c, (n, t) :: l, h => by
    rw [FormedDict] at h
    rw [bareDict, PlainDict]
    exact ⟨plain_bare (.one c) t h.1, plain_bareDict c l h.2⟩
theorem plain_bareFields : ∀ (c : Nat) (l : List (Str × Tree)), FormedFields P c l →
    PlainDict (bareFields (v20 c) l)
  | _, [], _ => by rw [bareFields, PlainDict]; trivial
  | c, (n, t) :: l, h => by
    rw [FormedFields] at h
    have ih := plain_bareFields c l h.2
    have h := h.1
    rw [bareFields]
    by_cases hd : Dict.get? (v20 c).fields n = some t
    · rw [if_pos hd]; exact ih
    · rw [if_neg hd, PlainDict]
      refine ⟨?_, ih⟩
      cases hc : Dict.get? (v20 c).child n with
      | none =>
        rw [hc] at h
        simp only at h
        rw [bare_plain t h.1]
        exact h.1
      | some k =>
        rw [hc] at h
        simp only at h
        rcases h with ⟨-, rfl⟩ | h
        · rw [bare, Plain]; trivial
        · exact plain_bare k t h
end

/-! ## what is written where -/

theorem get_bareFields {c : Nat} {fs : List (Str × Tree)} (hk : Dict.keys fs = Dict.keys (v20 c).fields) {n : Str} {v : Tree}
    (h : Dict.get? (bareFields (v20 c) fs) n = some v) :
    ∃ t, Dict.get? fs n = some t ∧ v = bare t ∧ Dict.get? (v20 c).fields n ≠ some t := by
  rw [bareFields_eq] at h
  obtain ⟨x, hx, e⟩ := List.mem_map.1 (Dict.mem_of_get? h)
  obtain ⟨n', t⟩ := x
  cases e
  obtain ⟨h1, h2⟩ := List.mem_filter.1 hx
  have hn := (tables c).1
  rw [← hk] at hn
  exact ⟨t, Dict.get?_of_mem hn h1, rfl, by simpa using h2⟩

theorem get_bareFields_of {c : Nat} {fs : List (Str × Tree)} (hk : Dict.keys fs = Dict.keys (v20 c).fields) {n : Str} {t : Tree}
    (h : Dict.get? fs n = some t) (hd : Dict.get? (v20 c).fields n ≠ some t) :
    Dict.get? (bareFields (v20 c) fs) n = some (bare t) := by
  have hn := (tables c).1
  rw [← hk] at hn
  have hg := get_kept (cls := v20 c) hn h
  rw [if_neg hd] at hg
  rw [bareFields_eq]
  have : ∀ l : List (Str × Tree), Dict.get? l n = some t → Dict.get? (l.map fun x => (x.1, bare x.2)) n = some (bare t) := by
    intro l
    induction l with
    | nil => intro h; cases h
    | cons x l ih =>
      obtain ⟨m, u⟩ := x
      intro h
      rw [Dict.get?] at h
      rw [List.map_cons, Dict.get?]
      by_cases e : m = n
      · rw [if_pos e] at h ⊢; cases h; rfl
      · rw [if_neg e] at h ⊢; exact ih h
  exact this _ hg

theorem get_bareFields_none {c : Nat} {fs : List (Str × Tree)} (hk : Dict.keys fs = Dict.keys (v20 c).fields) {n : Str} {t : Tree}
    (h : Dict.get? fs n = some t) (hd : Dict.get? (v20 c).fields n = some t) :
    Dict.get? (bareFields (v20 c) fs) n = none := by
  cases he : Dict.get? (bareFields (v20 c) fs) n with
  | none => rfl
  | some v =>
    obtain ⟨t', h1, -, h2⟩ := get_bareFields hk he
    rw [h] at h1
    cases h1
    exact absurd hd h2

theorem get_bareDict {d : List (Str × Tree)} {n : Str} : Dict.get? (bareDict d) n = (Dict.get? d n).map bare := by
  rw [bareDict_eq]
  induction d with
  | nil => rfl
  | cons x l ih =>
    obtain ⟨m, u⟩ := x
    rw [List.map_cons, Dict.get?, Dict.get?]
    by_cases e : m = n
    · rw [if_pos e, if_pos e]; rfl
    · rw [if_neg e, if_neg e, ih]

theorem place_bare {k k' : Kind} {j u : Tree} {ts : List Str} (hp : Place k j ts k' u) :
    ∀ t, j = bare t → Formed P k t → ∃ t', u = bare t' ∧ Formed P k' t' := by
  induction hp with
  | here => intro t e h; exact ⟨t, e, h⟩
  | @field k c d n v k' ts k'' u htk hd hc _ ih =>
    intro t e h
    cases t with
    | atom a => cases e
    | list l => cases e
    | dict d' =>
      rw [Formed] at h
      obtain ⟨c', rfl, -⟩ := h
      rcases htk with h | h <;> cases h
    | obj c' fs =>
      rw [Formed] at h
      obtain ⟨ht, hk, hf⟩ := h
      have : c' = c := by
        rcases htk with rfl | rfl <;> rcases ht with h | h <;> cases h <;> rfl
      subst this
      rw [bare] at e
      cases e
      obtain ⟨t', h1, h2, h3⟩ := get_bareFields hk hd
      have h4 := formedFields_iff.1 hf _ (Dict.mem_of_get? h1)
      unfold FieldOk at h4
      rw [hc] at h4
      simp only at h4
      rcases h4 with ⟨⟨c2, rfl⟩, rfl⟩ | h4
      · rcases (tables c').2 _ _ (Dict.mem_of_get? hc) with h | ⟨e, h, -⟩ | ⟨c3, h⟩
        · exact absurd h h3
        · cases h
        · cases h
      · exact ih t' h2 h4
  | @item c l i v ts k' u hi _ ih =>
    intro t e h
    cases t with
    | atom a => cases e
    | list l' =>
      rw [bare] at e
      cases e
      rw [Formed] at h
      obtain ⟨c', e, h⟩ := h
      cases e
      rw [bareList_eq, List.getElem?_map] at hi
      obtain ⟨t', h1, h2⟩ := Option.map_eq_some_iff.1 hi
      exact ih t' h2.symm (formedList_iff.1 h t' (List.mem_of_getElem? h1))
    | dict d' => cases e
    | obj c' fs => cases e
  | @key c d n v ts k' u hd _ ih =>
    intro t e h
    cases t with
    | atom a => cases e
    | list l => cases e
    | dict d' =>
      rw [bare] at e
      cases e
      rw [Formed] at h
      obtain ⟨c', e, -, h⟩ := h
      cases e
      rw [get_bareDict] at hd
      obtain ⟨t', h1, h2⟩ := Option.map_eq_some_iff.1 hd
      exact ih t' h2.symm (formedDict_iff.1 h _ (Dict.mem_of_get? h1))
    | obj c' fs =>
      rw [Formed] at h
      rcases h.1 with h | h <;> cases h

/-- only schemas refer to others -/
theorem refs_of {t : Tree} (h : Formed P (.one cSwagger) t) {ts : List Str} {c : Nat} {q : Dict Str Tree} {v : Tree}
    (hw : Written (bare t) ts c q) (hr0 : Dict.get? (v20 c).fields c!"$ref" ≠ none) (hv : Dict.get? q c!"$ref" = some v) :
    c = cSchema ∧ ∃ r, v = .atom (.str r) ∧ P r := by
  obtain ⟨k, htk, hp⟩ := hw
  obtain ⟨t', e, h'⟩ := place_bare hp t rfl h
  cases t' with
  | atom a => cases e
  | list l => cases e
  | dict d =>
    rw [Formed] at h'
    obtain ⟨c', rfl, -⟩ := h'
    rcases htk with h | h <;> cases h
  | obj c' fs =>
    rw [Formed] at h'
    obtain ⟨ht, hk, hf⟩ := h'
    have : c' = c := by
      rcases htk with rfl | rfl <;> rcases ht with h | h <;> cases h <;> rfl
    subst this
    rw [bare] at e
    cases e
    obtain ⟨t', h1, h2, h3⟩ := get_bareFields hk hv
    have h4 := formedFields_iff.1 hf _ (Dict.mem_of_get? h1)
    unfold FieldOk at h4
    have hnc : Dict.get? (v20 c').child c!"$ref" = none := (Proofs.Loaded.grammar_refs (f := id) c').2.2
    rw [hnc] at h4
    rcases h4.2.1 rfl with rfl | ⟨rfl, r, rfl, hr⟩
    · obtain ⟨x, hx⟩ := Option.ne_none_iff_exists'.1 hr0
      have := ((Proofs.Loaded.grammar_refs (f := id) c').2.1 x hx).1
      subst this
      exact absurd hx h3
    · exact ⟨rfl, r, h2, hr⟩

/-- a document whose references name schemas written in it is self-contained -/
theorem selfContained {t : Tree} {url : Str} (h : Formed P (.one cSwagger) t)
    (hP : ∀ r, P r → ∃ us q, Names url r us ∧ Written (bare t) us cSchema q) : SelfContained (bare t) url where
  plain := plain_bare _ t h
  whole := by
    intro ts c hp
    obtain ⟨t', e, h'⟩ := place_bare hp t rfl h
    have := formed_notNull h'
    rw [← e] at this
    cases this
  refs := by
    intro ts c q v hw hr0 hv
    obtain ⟨rfl, r, rfl, hr⟩ := refs_of h hw hr0 hv
    obtain ⟨us, q', h5, h6⟩ := hP r hr
    exact ⟨r, us, q', rfl, h5, h6⟩

theorem childless (c : Nat) (k : Kind) : Dict.get? (v20 c).child c!"collectionFormat" ≠ some k := by
  by_cases h : c < classes.length
  · have : ∀ c < classes.length, Dict.get? (v20 c).child c!"collectionFormat" = none := by decide
    rw [this c h]; simp
  · have : v20 c = ⟨[], []⟩ := by unfold v20; rw [List.getD_eq_getElem?_getD, List.getElem?_eq_none (by omega)]; rfl
    rw [this]; simp [Dict.get?]

/-- `collectionFormat` is written with scalars only -/
theorem styled {t : Tree} (h : Formed P (.one cSwagger) t) : Styled (bare t) := by
  intro ts c q v hw hr0 hv
  obtain ⟨k, htk, hp⟩ := hw
  obtain ⟨t', e, h'⟩ := place_bare hp t rfl h
  cases t' with
  | atom a => cases e
  | list l => cases e
  | dict d =>
    rw [Formed] at h'
    obtain ⟨c', rfl, -⟩ := h'
    rcases htk with h | h <;> cases h
  | obj c' fs =>
    rw [Formed] at h'
    obtain ⟨ht, hk, hf⟩ := h'
    have : c' = c := by
      rcases htk with rfl | rfl <;> rcases ht with h | h <;> cases h <;> rfl
    subst this
    rw [bare] at e
    cases e
    obtain ⟨t', h1, h2, -⟩ := get_bareFields hk hv
    have h4 := formedFields_iff.1 hf _ (Dict.mem_of_get? h1)
    unfold FieldOk at h4
    cases hc : Dict.get? (v20 c').child c!"collectionFormat" with
    | none =>
      rw [hc] at h4
      obtain ⟨a, rfl⟩ := h4.2.2 rfl
      exact ⟨a, h2⟩
    | some k => exact absurd hc (childless c' k)

end Proofs.Bare
