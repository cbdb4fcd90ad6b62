import Verif.Spec.Doc
import Verif.Proofs.Dict
/-! # Helper lemmas for reading and writing documents (C42) -/

namespace Proofs.Doc
open Py Tree _root_.Doc Spec.Doc

/-- what reading does with one entry -/
def parseField (G : Grammar) (cls : Cls) (n : Str) (v : Tree) : Option Tree :=
  match Dict.get? cls.child n with
  | none => some v
  | some k => if isNull v then some ((emptyOf k).getD v) else parseAs G k v

theorem parseEntries_cons (G : Grammar) (cls : Cls) (n : Str) (v : Tree) (d : List (Str × Tree)) :
    parseEntries G cls ((n, v) :: d) =
      match parseEntries G cls d, parseField G cls n v with
      | some rest, some w => some ((n, w) :: rest)
      | _, _ => none := by
  rw [parseEntries]
  cases parseEntries G cls d with
  | none => rfl
  | some rest =>
    unfold parseField
    cases Dict.get? cls.child n with
    | none => rfl
    | some k =>
      dsimp only
      split
      · rfl
      · cases parseAs G k v <;> rfl

theorem parseEntries_get {G : Grammar} {cls : Cls} {d e : List (Str × Tree)}
    (h : parseEntries G cls d = some e) (n : Str) :
    Dict.get? e n = (Dict.get? d n).bind (parseField G cls n) := by
  induction d generalizing e with
  | nil => simp [parseEntries] at h; subst h; rfl
  | cons x d ih =>
    obtain ⟨m, v⟩ := x
    rw [parseEntries_cons] at h
    cases hr : parseEntries G cls d with
    | none => rw [hr] at h; cases h
    | some rest =>
      cases hw : parseField G cls m v with
      | none => rw [hr, hw] at h; cases h
      | some w =>
        rw [hr, hw] at h
        cases h
        by_cases hm : m = n
        · subst hm; simp [Dict.get?, hw]
        · simp [Dict.get?, hm, ih hr]

theorem parseEntries_some {G : Grammar} {cls : Cls} {d : List (Str × Tree)} :
    (∃ e, parseEntries G cls d = some e) ↔ ∀ n v, (n, v) ∈ d → ∃ w, parseField G cls n v = some w := by
  induction d with
  | nil => simp [parseEntries]
  | cons x d ih =>
    obtain ⟨m, v⟩ := x
    rw [parseEntries_cons]
    constructor
    · rintro ⟨e, h⟩ n u hu
      cases hr : parseEntries G cls d with
      | none => rw [hr] at h; cases h
      | some rest =>
        cases hw : parseField G cls m v with
        | none => rw [hr, hw] at h; cases h
        | some w =>
          rcases List.mem_cons.1 hu with e | hm
          · cases e; exact ⟨w, hw⟩
          · exact ih.1 ⟨rest, hr⟩ n u hm
    · intro h
      obtain ⟨rest, hr⟩ := ih.2 fun n u hu => h n u (List.mem_cons_of_mem _ hu)
      obtain ⟨w, hw⟩ := h m v (List.mem_cons_self ..)
      exact ⟨_, by rw [hr, hw]⟩

/-- what is kept of one entry -/
def keptField (G : Grammar) (cls : Cls) (n : Str) (v : Tree) : Option Tree :=
  match Dict.get? cls.fields n with
  | none => none
  | some dflt =>
    if isDefault dflt v then none
    else
      match Dict.get? cls.child n with
      | none => some v
      | some k => if isEmptyC v then none else some (kept G k v)

theorem keptEntries_cons (G : Grammar) (cls : Cls) (n : Str) (v : Tree) (d : List (Str × Tree)) :
    keptEntries G cls ((n, v) :: d) =
      match keptField G cls n v with
      | some w => (n, w) :: keptEntries G cls d
      | none => keptEntries G cls d := by
  rw [keptEntries]
  unfold keptField
  cases Dict.get? cls.fields n with
  | none => rfl
  | some dflt =>
    dsimp only
    split
    · rfl
    · cases Dict.get? cls.child n with
      | none => rfl
      | some k =>
        dsimp only
        split <;> rfl

theorem keptEntries_keys {G : Grammar} {cls : Cls} {d : List (Str × Tree)} {n : Str}
    (h : n ∈ Dict.keys (keptEntries G cls d)) : n ∈ Dict.keys d := by
  induction d with
  | nil => simp [keptEntries, Dict.keys] at h
  | cons x d ih =>
    obtain ⟨m, v⟩ := x
    rw [keptEntries_cons] at h
    cases hk : keptField G cls m v with
    | none =>
      rw [hk] at h
      exact List.mem_cons_of_mem _ (ih h)
    | some w =>
      rw [hk] at h
      rcases List.mem_cons.1 h with e | hm
      · exact e ▸ List.mem_cons_self ..
      · exact List.mem_cons_of_mem _ (ih hm)

theorem keptEntries_get {G : Grammar} {cls : Cls} {d : List (Str × Tree)} (hd : (Dict.keys d).Nodup)
    (n : Str) : Dict.get? (keptEntries G cls d) n = (Dict.get? d n).bind (keptField G cls n) := by
  induction d with
  | nil => rfl
  | cons x d ih =>
    obtain ⟨m, v⟩ := x
    have hd' : m ∉ Dict.keys d ∧ (Dict.keys d).Nodup := List.nodup_cons.1 hd
    rw [keptEntries_cons]
    by_cases hm : m = n
    · subst hm
      cases hk : keptField G cls m v with
      | none =>
        simp only [Dict.get?, if_true, Option.bind_some, hk]
        exact (Dict.get?_eq_none_iff _ _).2 fun h => hd'.1 (keptEntries_keys h)
      | some w => simp [Dict.get?, hk]
    · cases hk : keptField G cls m v with
      | none => simp [Dict.get?, hm, ih hd'.2]
      | some w => simp [Dict.get?, hm, ih hd'.2]

theorem mem_keys_cons {n : Str} {f : Str × Tree} {fs : List (Str × Tree)} :
    n ∈ Dict.keys (f :: fs) ↔ n = f.1 ∨ n ∈ Dict.keys fs := by
  simp [Dict.keys]

theorem get?_inOrder_aux (e : Dict Str Tree) (fs : List (Str × Tree)) (n : Str) :
    Dict.get? (fs.filterMap fun f => (Dict.get? e f.1).map fun v => (f.1, v)) n =
      if n ∈ Dict.keys fs then Dict.get? e n else none := by
  induction fs with
  | nil => simp [Dict.keys]
  | cons f fs ih =>
    rw [List.filterMap_cons]
    by_cases hf : f.1 = n
    · cases he : Dict.get? e f.1 with
      | none =>
        simp only [Option.map_none]
        rw [ih, ← hf, he]
        split <;> split <;> rfl
      | some v =>
        simp only [Option.map_some]
        rw [← hf, if_pos (mem_keys_cons.2 (Or.inl rfl))]
        simp [Dict.get?, he]
    · have hf' : ¬ n = f.1 := fun x => hf x.symm
      cases he : Dict.get? e f.1 with
      | none =>
        simp only [Option.map_none]
        rw [ih]
        simp only [mem_keys_cons, hf', false_or]
      | some v =>
        simp only [Option.map_some, Dict.get?, hf, if_false]
        rw [ih]
        simp only [mem_keys_cons, hf', false_or]

theorem get?_inOrder (k : Cls) (e : Dict Str Tree) (n : Str) :
    Dict.get? (inOrder k e) n = if n ∈ Dict.keys k.fields then Dict.get? e n else none :=
  get?_inOrder_aux e k.fields n

theorem keys_inOrder_aux (e : Dict Str Tree) (fs : List (Str × Tree)) :
    (Dict.keys (fs.filterMap fun f => (Dict.get? e f.1).map fun v => (f.1, v))).Sublist (Dict.keys fs) := by
  induction fs with
  | nil => exact List.Sublist.refl _
  | cons f fs ih =>
    rw [List.filterMap_cons]
    cases he : Dict.get? e f.1 with
    | none => exact List.Sublist.cons _ ih
    | some v => exact List.Sublist.cons_cons _ ih

theorem nodup_inOrder {k : Cls} (hk : (Dict.keys k.fields).Nodup) (e : Dict Str Tree) :
    (Dict.keys (inOrder k e)).Nodup := (keys_inOrder_aux e k.fields).nodup hk

/-- a field of the assembled object -/
def fieldOf (G : Grammar) (cls : Cls) (d : Dict Str Tree) (f : Str × Tree) : Tree :=
  match (Dict.get? d f.1).bind (parseField G cls f.1) with
  | some v => v
  | none => ((Dict.get? cls.child f.1).bind emptyOf).getD f.2

theorem assemble_eq {G : Grammar} {cls : Cls} {d e : List (Str × Tree)}
    (h : parseEntries G cls d = some e) :
    assemble cls e = cls.fields.map fun f => (f.1, fieldOf G cls d f) := by
  unfold assemble
  refine List.map_congr_left fun f _ => ?_
  rw [parseEntries_get h]
  rfl

theorem get_fields {cls : Cls} (h : ClsOk cls) {f : Str × Tree} (hf : f ∈ cls.fields) :
    Dict.get? cls.fields f.1 = some f.2 := Dict.get?_of_mem h.1 hf

theorem fullEntries_mem {G : Grammar} {cls : Cls} {d : List (Str × Tree)} (h : FullEntries G cls d)
    {n : Str} {v : Tree} (hm : (n, v) ∈ d) :
    match Dict.get? cls.fields n with
      | none => True
      | some dflt =>
        match Dict.get? cls.child n with
        | none => v = dflt ∨ (Solid v ∧ isDefault dflt v = false)
        | some k => Full G k v := by
  induction d with
  | nil => cases hm
  | cons x d ih =>
    obtain ⟨m, u⟩ := x
    rw [FullEntries] at h
    rcases List.mem_cons.1 hm with e | hm
    · cases e; exact h.1
    · exact ih h.2 hm

theorem child_none {cls : Cls} (h : ClsOk cls) {n : Str} (hn : Dict.get? cls.fields n = none) :
    Dict.get? cls.child n = none := by
  rw [Dict.get?_eq_none_iff] at hn ⊢
  exact fun x => hn (h.2.1 n x)

theorem full_not_null {G : Grammar} {k : Kind} {v : Tree} (h : Full G k v) : isNull v = false := by
  cases v with
  | atom a => cases a <;> first | rfl | (cases k <;> simp [Full] at h)
  | _ => rfl

/-- reading and writing agree on one value -/
structure Good (G : Grammar) (k : Kind) (v : Tree) : Prop where
  read : ∃ o, parseAs G k v = some o
  again : parseAs G k (kept G k v) = parseAs G k v
  write : ∀ o, parseAs G k v = some o →
    dump G o = .ok (if isEmptyC v then none else some (kept G k v))
  empty : isEmptyC v = true → parseAs G k v = emptyOf k ∧ (emptyOf k).isSome
  dflt : ∀ dflt o, okDefault k dflt = true → parseAs G k v = some o →
    isDefault dflt o = isDefault dflt v ∧ (isDefault dflt v = true → o = dflt)
  kempty : isEmptyC (kept G k v) = isEmptyC v

mutual
theorem solid_dump (G : Grammar) : (t : Tree) → Solid t → dump G t = .ok (some t)
  | .atom a, h => by
    rw [Solid] at h
    simp [dump, h]
  | .list l, h => by
    rw [Solid] at h
    rw [dump, solid_dumpL G l h.2]
    cases l with
    | nil => exact absurd rfl h.1
    | cons _ _ => rfl
  | .dict d, h => by
    rw [Solid] at h
    rw [dump, solid_dumpD G d h.2]
    cases d with
    | nil => exact absurd rfl h.1
    | cons _ _ => rfl
  | .obj _ _, h => by rw [Solid] at h; exact h.elim
theorem solid_dumpL (G : Grammar) : (l : List Tree) → SolidList l → dumpList G l = .ok l
  | [], _ => by rw [dumpList]
  | t :: l, h => by
    rw [SolidList] at h
    rw [dumpList, solid_dump G t h.1, solid_dumpL G l h.2]
    rfl
theorem solid_dumpD (G : Grammar) : (d : List (Str × Tree)) → SolidDict d → dumpDict G d = .ok d
  | [], _ => by rw [dumpDict]
  | (n, t) :: d, h => by
    rw [SolidDict] at h
    rw [dumpDict, solid_dump G t h.1, solid_dumpD G d h.2]
    rfl
end

/-- the fields of an assembled object, written -/
theorem dumpFields_map {G : Grammar} {cls : Cls} (fs : List (Str × Tree)) (val : Str × Tree → Tree)
    (out : Str × Tree → Option Tree)
    (h : ∀ f ∈ fs, if isDefault (defaultOf cls f.1) (val f) then out f = none else dump G (val f) = .ok (out f)) :
    dumpFields G cls (fs.map fun f => (f.1, val f)) =
      .ok (fs.filterMap fun f => (out f).map fun v => (f.1, v)) := by
  induction fs with
  | nil => rw [List.map_nil, dumpFields]; rfl
  | cons f fs ih =>
    have ih' := ih fun g hg => h g (List.mem_cons_of_mem _ hg)
    have hf := h f (List.mem_cons_self ..)
    rw [List.map_cons, dumpFields, List.filterMap_cons]
    by_cases hd : isDefault (defaultOf cls f.1) (val f) = true
    · simp only [hd, if_true] at hf ⊢
      rw [hf, ih']
      rfl
    · simp only [hd, Bool.false_eq_true, if_false] at hf ⊢
      rw [hf, ih']
      cases out f <;> rfl

theorem kept_not_null {G : Grammar} {k : Kind} {v : Tree} (h : isNull v = false) :
    isNull (kept G k v) = false := by
  cases v with
  | atom a => rw [kept]; exact h
  | list l => cases k <;> rfl
  | dict d => cases k <;> rfl
  | obj c fs => rw [kept]; rfl

theorem dump_emptyOf {G : Grammar} {k : Kind} {o : Tree} (h : emptyOf k = some o) :
    dump G o = .ok none := by
  cases k <;> simp [emptyOf] at h <;> subst h <;> simp [dump, dumpList, dumpDict]

theorem isEmptyC_of_default {k : Kind} {dflt v o : Tree} (hk : okDefault k dflt = true)
    (hn : isNull v = false) (hd : isDefault dflt v = true) (he : emptyOf k = some o) : dflt = o := by
  cases k <;> simp [emptyOf] at he <;> subst he
  · cases dflt with
    | atom a =>
      cases a <;> simp [okDefault] at hk
      cases v with
      | atom b => cases b <;> simp_all [isDefault, isNull]
      | _ => simp [isDefault] at hd
    | list l => cases l <;> simp [okDefault] at hk; rfl
    | dict d => simp [okDefault] at hk
    | obj _ _ => simp [okDefault] at hk
  · cases dflt with
    | atom a =>
      cases a <;> simp [okDefault] at hk
      cases v with
      | atom b => cases b <;> simp_all [isDefault, isNull]
      | _ => simp [isDefault] at hd
    | dict l => cases l <;> simp [okDefault] at hk; rfl
    | list d => simp [okDefault] at hk
    | obj _ _ => simp [okDefault] at hk

section object
variable {G : Grammar} {cls : Cls} {d : List (Str × Tree)}

/-- what is known about the entries of an object -/
structure Entries (G : Grammar) (cls : Cls) (d : List (Str × Tree)) : Prop where
  ok : ClsOk cls
  nodup : (Dict.keys d).Nodup
  full : FullEntries G cls d
  good : ∀ n v k, (n, v) ∈ d → Full G k v → Good G k v

theorem Entries.raw (h : Entries G cls d) {n : Str} {v dflt : Tree} (hv : Dict.get? d n = some v)
    (hf : Dict.get? cls.fields n = some dflt) (hc : Dict.get? cls.child n = none) :
    v = dflt ∨ (Solid v ∧ isDefault dflt v = false) := by
  have := fullEntries_mem h.full (Dict.mem_of_get? hv)
  rw [hf] at this
  dsimp only at this
  rw [hc] at this
  exact this

theorem Entries.child (h : Entries G cls d) {n : Str} {v dflt : Tree} {k : Kind}
    (hv : Dict.get? d n = some v)
    (hf : Dict.get? cls.fields n = some dflt) (hc : Dict.get? cls.child n = some k) :
    Full G k v ∧ Good G k v := by
  have := fullEntries_mem h.full (Dict.mem_of_get? hv)
  rw [hf] at this
  dsimp only at this
  rw [hc] at this
  exact ⟨this, h.good _ _ _ (Dict.mem_of_get? hv) this⟩

theorem Entries.okDflt (h : Entries G cls d) {n : Str} {dflt : Tree} {k : Kind}
    (hf : Dict.get? cls.fields n = some dflt) (hc : Dict.get? cls.child n = some k) :
    okDefault k dflt = true :=
  h.ok.2.2.2 _ (Dict.mem_of_get? hf) k hc

theorem Entries.fieldOfChild (h : Entries G cls d) {n : Str} {k : Kind}
    (hc : Dict.get? cls.child n = some k) : ∃ dflt, Dict.get? cls.fields n = some dflt := by
  cases hf : Dict.get? cls.fields n with
  | none => rw [child_none h.ok hf] at hc; cases hc
  | some x => exact ⟨x, rfl⟩

theorem parseField_child {n : Str} {v : Tree} {k : Kind} (hc : Dict.get? cls.child n = some k)
    (hn : isNull v = false) : parseField G cls n v = parseAs G k v := by
  unfold parseField
  rw [hc]
  simp only [hn, Bool.false_eq_true, if_false]

theorem parseField_raw {n : Str} {v : Tree} (hc : Dict.get? cls.child n = none) :
    parseField G cls n v = some v := by
  unfold parseField
  rw [hc]

theorem Entries.read (h : Entries G cls d) : ∃ e, parseEntries G cls d = some e := by
  refine parseEntries_some.2 fun n v hm => ?_
  have hv := Dict.get?_of_mem h.nodup hm
  cases hc : Dict.get? cls.child n with
  | none => exact ⟨v, parseField_raw hc⟩
  | some k =>
    obtain ⟨dflt, hf⟩ := h.fieldOfChild hc
    have hg := h.child hv hf hc
    rw [parseField_child hc (full_not_null hg.1)]
    exact hg.2.read

theorem keptField_child {n : Str} {v dflt : Tree} {k : Kind} (hf : Dict.get? cls.fields n = some dflt)
    (hc : Dict.get? cls.child n = some k) :
    keptField G cls n v = if isDefault dflt v = true ∨ isEmptyC v = true then none else some (kept G k v) := by
  unfold keptField
  rw [hf]
  dsimp only
  rw [hc]
  by_cases h1 : isDefault dflt v = true
  · simp [h1]
  · by_cases h2 : isEmptyC v = true
    · simp [h1, h2]
    · simp [h1, h2]

theorem keptField_raw {n : Str} {v dflt : Tree} (hf : Dict.get? cls.fields n = some dflt)
    (hc : Dict.get? cls.child n = none) :
    keptField G cls n v = if isDefault dflt v = true then none else some v := by
  unfold keptField
  rw [hf]
  dsimp only
  rw [hc]

theorem get?_kept (h : Entries G cls d) {n dflt} (hf : Dict.get? cls.fields n = some dflt) :
    Dict.get? (inOrder cls (keptEntries G cls d)) n = (Dict.get? d n).bind (keptField G cls n) := by
  rw [get?_inOrder, if_pos, keptEntries_get h.nodup]
  exact (Dict.get?_isSome_iff _ _).1 (by rw [hf]; rfl)

/-- the field of the object read from the kept part -/
theorem Entries.again (h : Entries G cls d) {f : Str × Tree} (hf : f ∈ cls.fields) :
    fieldOf G cls (inOrder cls (keptEntries G cls d)) f = fieldOf G cls d f := by
  have hg := get_fields h.ok hf
  unfold fieldOf
  rw [get?_kept h hg]
  cases hv : Dict.get? d f.1 with
  | none => rfl
  | some v =>
    simp only [Option.bind_some]
    cases hc : Dict.get? cls.child f.1 with
    | none =>
      rw [keptField_raw hg hc, parseField_raw hc]
      by_cases hd : isDefault f.2 v = true
      · rw [if_pos hd]
        rcases h.raw hv hg hc with e | ⟨_, e⟩
        · simp [e]
        · rw [e] at hd; cases hd
      · rw [if_neg hd]
        simp only [Option.bind_some]
        rw [parseField_raw hc]
    | some k =>
      have hh := h.child hv hg hc
      have hn := full_not_null hh.1
      obtain ⟨o, ho⟩ := hh.2.read
      rw [keptField_child hg hc, parseField_child hc hn, ho]
      by_cases hd : isDefault f.2 v = true
      · rw [if_pos (Or.inl hd)]
        simp only [Option.bind_none, Option.bind_some]
        have he := (hh.2.dflt _ _ (h.okDflt hg hc) ho).2 hd
        cases hk : emptyOf k with
        | none => simp [he]
        | some x => simp [he, isEmptyC_of_default (h.okDflt hg hc) hn hd hk]
      · by_cases he : isEmptyC v = true
        · rw [if_pos (Or.inr he)]
          simp only [Option.bind_none, Option.bind_some]
          rw [← (hh.2.empty he).1, ho]
          rfl
        · rw [if_neg (by simp [hd, he])]
          simp only [Option.bind_some]
          rw [parseField_child hc (kept_not_null hn), hh.2.again, ho]

theorem Entries.readAgain (h : Entries G cls d) :
    ∃ e, parseEntries G cls (inOrder cls (keptEntries G cls d)) = some e := by
  refine parseEntries_some.2 fun n v hm => ?_
  have hv := Dict.get?_of_mem (nodup_inOrder h.ok.1 _) hm
  cases hc : Dict.get? cls.child n with
  | none => exact ⟨v, parseField_raw hc⟩
  | some k =>
    obtain ⟨dflt, hf⟩ := h.fieldOfChild hc
    rw [get?_kept h hf] at hv
    cases hu : Dict.get? d n with
    | none => rw [hu] at hv; cases hv
    | some u =>
      rw [hu] at hv
      simp only [Option.bind_some] at hv
      rw [keptField_child hf hc] at hv
      have hg := h.child hu hf hc
      split at hv
      · cases hv
      · cases hv
        rw [parseField_child hc (kept_not_null (full_not_null hg.1)), hg.2.again]
        exact hg.2.read

theorem Entries.write (h : Entries G cls d) :
    dumpFields G cls (cls.fields.map fun f => (f.1, fieldOf G cls d f)) =
      .ok (inOrder cls (keptEntries G cls d)) := by
  unfold inOrder
  rw [dumpFields_map cls.fields _ (fun f => (Dict.get? d f.1).bind (keptField G cls f.1))]
  · simp only [keptEntries_get h.nodup]
  intro f hf
  have hg := get_fields h.ok hf
  have hdef : defaultOf cls f.1 = f.2 := by unfold defaultOf; rw [hg]; rfl
  rw [hdef]
  unfold fieldOf
  cases hv : Dict.get? d f.1 with
  | none =>
    simp only [Option.bind_none]
    cases hc : (Dict.get? cls.child f.1).bind emptyOf with
    | none => simp [h.ok.2.2.1 f hf]
    | some x =>
      cases hk : Dict.get? cls.child f.1 with
      | none => rw [hk] at hc; cases hc
      | some k =>
        rw [hk] at hc
        simp only [Option.bind_some] at hc
        simp [dump_emptyOf hc]
  | some v =>
    simp only [Option.bind_some]
    cases hc : Dict.get? cls.child f.1 with
    | none =>
      rw [keptField_raw hg hc, parseField_raw hc]
      by_cases hd : isDefault f.2 v = true
      · simp [hd]
      · rcases h.raw hv hg hc with e | ⟨e, _⟩
        · rw [e] at hd; exact absurd (h.ok.2.2.1 f hf) hd
        · simp [hd, solid_dump G v e]
    | some k =>
      have hh := h.child hv hg hc
      have hn := full_not_null hh.1
      obtain ⟨o, ho⟩ := hh.2.read
      rw [keptField_child hg hc, parseField_child hc hn, ho]
      have hdo := (hh.2.dflt _ _ (h.okDflt hg hc) ho).1
      simp only [hdo]
      by_cases hd : isDefault f.2 v = true
      · simp [hd]
      · rw [if_neg hd, hh.2.write o ho]
        by_cases he : isEmptyC v = true <;> simp [hd, he]

theorem inOrder_ne (h : Entries G cls d) (hk : keptEntries G cls d ≠ []) :
    inOrder cls (keptEntries G cls d) ≠ [] := by
  obtain ⟨⟨n, w⟩, l, he⟩ := List.exists_cons_of_ne_nil hk
  have hw : Dict.get? (keptEntries G cls d) n = some w := by rw [he]; simp [Dict.get?]
  have hw' := hw
  rw [keptEntries_get h.nodup] at hw
  cases hv : Dict.get? d n with
  | none => rw [hv] at hw; cases hw
  | some v =>
    rw [hv] at hw
    simp only [Option.bind_some] at hw
    cases hf : Dict.get? cls.fields n with
    | none => unfold keptField at hw; rw [hf] at hw; cases hw
    | some dflt =>
      intro hc
      have := get?_inOrder cls (keptEntries G cls d) n
      rw [hc, if_pos ((Dict.get?_isSome_iff _ _).1 (by rw [hf]; rfl)), hw'] at this
      cases this

end object

theorem obj_good {G : Grammar} {c : Nat} {k : Kind} {d : List (Str × Tree)}
    (hk : k = .one c ∨ k = .boolOr c) (h : Entries G (G c) d) (hne : keptEntries G (G c) d ≠ []) :
    Good G k (.dict d) := by
  have hp : ∀ e, parseAs G k (.dict e) = (parseEntries G (G c) e).map fun e => .obj c (assemble (G c) e) := by
    intro e; rcases hk with rfl | rfl <;> rw [parseAs]
  have hkept : kept G k (.dict d) = .dict (inOrder (G c) (keptEntries G (G c) d)) := by
    rcases hk with rfl | rfl <;> rw [kept]
  have hde : isEmptyC (.dict d) = false := by
    cases d with
    | nil => exact absurd (by rw [keptEntries]) hne
    | cons _ _ => rfl
  have hke : isEmptyC (kept G k (.dict d)) = false := by
    rw [hkept]
    have := inOrder_ne h hne
    cases hi : inOrder (G c) (keptEntries G (G c) d) with
    | nil => exact absurd hi this
    | cons _ _ => rfl
  obtain ⟨e, he⟩ := h.read
  obtain ⟨e', he'⟩ := h.readAgain
  have ho : parseAs G k (.dict d) = some (.obj c ((G c).fields.map fun f => (f.1, fieldOf G (G c) d f))) := by
    rw [hp, he, Option.map_some, assemble_eq he]
  refine ⟨⟨_, ho⟩, ?_, ?_, ?_, ?_, ?_⟩
  · rw [ho, hkept, hp, he', Option.map_some, assemble_eq he']
    congr 2
    exact List.map_congr_left fun f hf => by rw [h.again hf]
  · intro o h'
    rw [ho] at h'
    cases h'
    rw [dump, h.write, hde, hkept]
    have := inOrder_ne h hne
    cases hi : inOrder (G c) (keptEntries G (G c) d) with
    | nil => exact absurd hi this
    | cons _ _ => rfl
  · intro x; rw [hde] at x; cases x
  · intro dflt o hok h'
    rw [ho] at h'
    cases h'
    rcases hk with rfl | rfl <;> cases dflt <;> simp [okDefault, isDefault] at hok ⊢
    all_goals (rename_i a; cases a <;> simp [okDefault, isDefault] at hok ⊢)
  · rw [hke, hde]

mutual
theorem good (G : Grammar) (hG : ∀ c, ClsOk (G c)) : (v : Tree) → (k : Kind) → Full G k v → Good G k v
  | .atom a, k, h => by
    cases k <;> cases a <;> simp [Full] at h
    refine ⟨⟨_, by rw [parseAs]; rfl⟩, by rw [kept], ?_, ?_, ?_, by rw [kept]⟩
    · intro o ho
      rw [parseAs] at ho
      cases ho
      rw [kept]; simp [dump, isEmptyC]
    · intro x; cases x
    · intro dflt o hok ho
      rw [parseAs] at ho
      cases ho
      refine ⟨rfl, ?_⟩
      cases dflt <;> simp [okDefault] at hok
      rename_i a
      cases a <;> simp [okDefault, isDefault] at hok ⊢
      exact fun e => e.symm
  | .list l, k, h => by
    cases k <;> simp only [Full] at h
    next c =>
    have hl := goodList G hG l c h
    obtain ⟨m, hm⟩ := hl.1
    refine ⟨⟨.list m, by rw [parseAs, hm]; rfl⟩, ?_, ?_, ?_, ?_, ?_⟩
    · rw [kept, parseAs, parseAs, hl.2.1]
    · intro o ho
      rw [parseAs, hm] at ho
      cases ho
      rw [dump, hl.2.2 m hm, kept]
      cases l <;> simp [keptList, isEmptyC]
    · intro he
      cases l with
      | nil => rw [parseAs, parseList]; exact ⟨rfl, rfl⟩
      | cons _ _ => cases he
    · intro dflt o hok ho
      rw [parseAs, hm] at ho
      cases ho
      cases l with
      | nil =>
        rw [parseList] at hm
        cases hm
        refine ⟨rfl, ?_⟩
        cases dflt with
        | list l => cases l <;> simp [isDefault]
        | atom a => cases a <;> simp [isDefault]
        | _ => simp [isDefault]
      | cons a l =>
        have : m ≠ [] := by
          rw [parseList] at hm
          split at hm
          · cases hm; simp
          · cases hm
        cases m with
        | nil => exact absurd rfl this
        | cons _ _ =>
          cases dflt with
          | list l => cases l <;> simp [isDefault]
          | atom a => cases a <;> simp [isDefault]
          | _ => simp [isDefault]
    · rw [kept]; cases l <;> simp [keptList, isEmptyC]
  | .dict d, k, h => by
    cases k with
    | one c =>
      rw [Full] at h
      exact obj_good (Or.inl rfl) ⟨hG c, h.1, h.2.1, goodEntries G hG d⟩ h.2.2
    | boolOr c =>
      rw [Full] at h
      exact obj_good (Or.inr rfl) ⟨hG c, h.1, h.2.1, goodEntries G hG d⟩ h.2.2
    | list c => simp only [Full] at h
    | dict c =>
      rw [Full] at h
      have hl := goodDict G hG d c h.2
      obtain ⟨m, hm⟩ := hl.1
      refine ⟨⟨.dict m, by rw [parseAs, hm]; rfl⟩, ?_, ?_, ?_, ?_, ?_⟩
      · rw [kept, parseAs, parseAs, hl.2.1]
      · intro o ho
        rw [parseAs, hm] at ho
        cases ho
        rw [dump, hl.2.2 m hm, kept]
        cases d <;> simp [keptDict, isEmptyC]
      · intro he
        cases d with
        | nil => rw [parseAs, parseDict]; exact ⟨rfl, rfl⟩
        | cons _ _ => cases he
      · intro dflt o hok ho
        rw [parseAs, hm] at ho
        cases ho
        cases d with
        | nil =>
          rw [parseDict] at hm
          cases hm
          refine ⟨rfl, ?_⟩
          cases dflt with
          | dict l => cases l <;> simp [isDefault]
          | atom a => cases a <;> simp [isDefault]
          | _ => simp [isDefault]
        | cons a l =>
          have : m ≠ [] := by
            obtain ⟨n, v⟩ := a
            rw [parseDict] at hm
            split at hm
            · cases hm; simp
            · cases hm
          cases m with
          | nil => exact absurd rfl this
          | cons _ _ =>
            cases dflt with
            | dict l => cases l <;> simp [isDefault]
            | atom a => cases a <;> simp [isDefault]
            | _ => simp [isDefault]
      · rw [kept]; cases d <;> simp [keptDict, isEmptyC]
  | .obj _ _, k, h => by simp only [Full] at h
theorem goodList (G : Grammar) (hG : ∀ c, ClsOk (G c)) : (l : List Tree) → (c : Nat) → FullList G c l →
    (∃ m, parseList G c l = some m) ∧ parseList G c (keptList G c l) = parseList G c l ∧
      ∀ m, parseList G c l = some m → dumpList G m = .ok (keptList G c l)
  | [], c, _ => by
    rw [keptList, parseList]
    exact ⟨⟨_, rfl⟩, rfl, fun m hm => by cases hm; rw [dumpList]⟩
  | v :: l, c, h => by
    rw [FullList] at h
    have hg := good G hG v (.one c) h.1
    have hl := goodList G hG l c h.2
    obtain ⟨o, ho⟩ := hg.read
    obtain ⟨m, hm⟩ := hl.1
    rw [keptList, parseList, parseList, hg.again, hl.2.1, ho, hm]
    refine ⟨⟨_, rfl⟩, rfl, fun m' hm' => ?_⟩
    cases hm'
    rw [dumpList, hg.write o ho, hl.2.2 m hm]
    have : isEmptyC v = false := by
      cases hv : isEmptyC v with
      | false => rfl
      | true => exact absurd (hg.empty hv).2 (by simp [emptyOf])
    simp [this, orNull]
theorem goodDict (G : Grammar) (hG : ∀ c, ClsOk (G c)) : (d : List (Str × Tree)) → (c : Nat) → FullDict G c d →
    (∃ m, parseDict G c d = some m) ∧ parseDict G c (keptDict G c d) = parseDict G c d ∧
      ∀ m, parseDict G c d = some m → dumpDict G m = .ok (keptDict G c d)
  | [], c, _ => by
    rw [keptDict, parseDict]
    exact ⟨⟨_, rfl⟩, rfl, fun m hm => by cases hm; rw [dumpDict]⟩
  | (n, v) :: d, c, h => by
    rw [FullDict] at h
    have hg := good G hG v (.one c) h.1
    have hl := goodDict G hG d c h.2
    obtain ⟨o, ho⟩ := hg.read
    obtain ⟨m, hm⟩ := hl.1
    rw [keptDict, parseDict, parseDict, hg.again, hl.2.1, ho, hm]
    refine ⟨⟨_, rfl⟩, rfl, fun m' hm' => ?_⟩
    cases hm'
    rw [dumpDict, hg.write o ho, hl.2.2 m hm]
    have : isEmptyC v = false := by
      cases hv : isEmptyC v with
      | false => rfl
      | true => exact absurd (hg.empty hv).2 (by simp [emptyOf])
    simp [this, orNull]
theorem goodEntries (G : Grammar) (hG : ∀ c, ClsOk (G c)) : (d : List (Str × Tree)) →
    ∀ n v k, (n, v) ∈ d → Full G k v → Good G k v
  | [], _, _, _, h, _ => by cases h
  | (m, u) :: d, n, v, k, h, hf => by
    by_cases e : (n, v) = (m, u)
    · cases e; exact good G hG u k hf
    · exact goodEntries G hG d n v k (by
        rcases List.mem_cons.1 h with x | x
        · exact absurd x e
        · exact x) hf
end

end Proofs.Doc
