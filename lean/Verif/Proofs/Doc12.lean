import Verif.Model.Doc12
import Verif.Spec.Swagger12
import Verif.Proofs.Doc
import Verif.Proofs.TreeEq
/-! # Lemmas about reading 1.2 documents -/

namespace Proofs.Doc12
open Py Tree _root_.Doc12 Validate Validate12
open _root_.Doc (isNull)

/-- what an entry becomes -/
def parseField (cls : Cls) (n : Str) (v : Tree) : Option Tree :=
  match Dict.get? cls.child n with
  | none => some v
  | some k => if isNull v then some ((emptyOf k).getD v) else parseAs k v

theorem parseEntries_cons (cls : Cls) (n : Str) (v : Tree) (d : List (Str × Tree)) :
    parseEntries cls ((n, v) :: d) =
      match parseEntries cls d, parseField cls n v with
      | some rest, some w => some ((n, w) :: rest)
      | _, _ => none := by
  rw [parseEntries]
  unfold parseField
  cases parseEntries cls d with
  | none => rfl
  | some rest =>
    cases Dict.get? cls.child n with
    | none => rfl
    | some k =>
      dsimp only
      by_cases h : isNull v = true
      · simp [h]
      · simp only [h]
        cases parseAs k v <;> rfl

theorem parseEntries_get {cls : Cls} {d e : List (Str × Tree)} (h : parseEntries cls d = some e) (n : Str) :
    Dict.get? e n = (Dict.get? d n).bind (parseField cls n) := by
  induction d generalizing e with
  | nil => simp [parseEntries] at h; subst h; rfl
  | cons x d ih =>
    obtain ⟨m, v⟩ := x
    rw [parseEntries_cons] at h
    cases hr : parseEntries cls d with
    | none => rw [hr] at h; cases h
    | some rest =>
      cases hw : parseField cls m v with
      | none => rw [hr, hw] at h; cases h
      | some w =>
        rw [hr, hw] at h
        cases h
        unfold Dict.get?
        by_cases hm : m = n
        · subst hm; simp [hw]
        · simp only [hm, if_false]
          exact ih hr

theorem parseEntries_some {cls : Cls} {d : List (Str × Tree)} :
    (∃ e, parseEntries cls d = some e) ↔ ∀ n v, (n, v) ∈ d → ∃ w, parseField cls n v = some w := by
  induction d with
  | nil => simp [parseEntries]
  | cons x d ih =>
    obtain ⟨m, v⟩ := x
    constructor
    · rintro ⟨e, he⟩ n u hm
      rw [parseEntries_cons] at he
      cases hr : parseEntries cls d with
      | none => rw [hr] at he; cases he
      | some rest =>
        cases hw : parseField cls m v with
        | none => rw [hr, hw] at he; cases he
        | some w =>
          rcases List.mem_cons.1 hm with hm | hm
          · cases hm; exact ⟨w, hw⟩
          · exact ih.1 ⟨rest, hr⟩ n u hm
    · intro h
      obtain ⟨rest, hr⟩ := ih.2 fun n u hm => h n u (List.mem_cons_of_mem _ hm)
      obtain ⟨w, hw⟩ := h m v (List.mem_cons_self ..)
      exact ⟨_, by rw [parseEntries_cons, hr, hw]⟩

theorem keys_assemble (k : Cls) (e : Dict Str Tree) : Dict.keys (assemble k e) = Dict.keys k.fields := by
  simp [assemble, Dict.keys]

theorem get_assemble {k : Cls} (hk : (Dict.keys k.fields).Nodup) (e : Dict Str Tree) (n : Str) :
    Dict.get? (assemble k e) n = (Dict.get? k.fields n).map fun dflt =>
      (Dict.get? e n).getD (((Dict.get? k.child n).bind emptyOf).getD dflt) := by
  cases hf : Dict.get? k.fields n with
  | none =>
    rw [Option.map_none, Dict.get?_eq_none_iff, keys_assemble]
    exact (Dict.get?_eq_none_iff _ _).1 hf
  | some dflt =>
    refine Dict.get?_of_mem (by show (Dict.keys _).Nodup; rw [keys_assemble]; exact hk) ?_
    refine List.mem_map.2 ⟨(n, dflt), Dict.mem_of_get? hf, ?_⟩
    dsimp only
    cases Dict.get? e n <;> rfl

theorem parseList_iff (c : Nat) (l xs : List Tree) :
    parseList c l = some xs ↔ List.Forall₂ (fun a b => parse c a = some b) l xs := by
  induction l generalizing xs with
  | nil => cases xs <;> simp [parseList]
  | cons v l ih =>
    rw [parseList]
    cases xs with
    | nil => split <;> simp
    | cons x xs =>
      rw [List.forall₂_cons, ← ih]
      unfold parse
      split
      · rename_i h1 h2; rw [h1, h2]; simp
      · rename_i hne
        refine ⟨nofun, fun ⟨h1, h2⟩ => absurd h2 (hne _ _ h1)⟩

theorem parseDict_iff (k : Kind) (l xs : List (Str × Tree)) :
    parseDict k l = some xs ↔
      List.Forall₂ (fun a b => b.1 = a.1 ∧ parseAs k a.2 = some b.2) l xs := by
  induction l generalizing xs with
  | nil => cases xs <;> simp [parseDict]
  | cons p l ih =>
    obtain ⟨n, v⟩ := p
    rw [parseDict]
    cases xs with
    | nil => split <;> simp
    | cons x xs =>
      obtain ⟨m, x⟩ := x
      rw [List.forall₂_cons, ← ih]
      split
      · rename_i h1 h2; rw [h1, h2]; simp; grind
      · rename_i hne
        refine ⟨nofun, fun ⟨h1, h2⟩ => absurd h2 (hne _ _ h1.2)⟩

open Spec.Swagger12

theorem truth_blank (v : Tree) : truth v = false ↔ Blank v := by
  constructor
  · intro h
    cases v with
    | atom a =>
      cases a with
      | none => exact .null
      | bool b => simp [truth] at h; subst h; exact .false
      | int n => simp [truth] at h; subst h; exact .zero
      | float x => simp [truth] at h; subst h; exact .float
      | str s => simp [truth] at h; subst h; exact .text
    | list l => cases l with
      | nil => exact .list
      | cons _ _ => simp [truth] at h
    | dict l => cases l with
      | nil => exact .dict
      | cons _ _ => simp [truth] at h
    | obj _ _ => simp [truth] at h
  · intro h; cases h <;> simp [truth, null]

theorem parse_list (c : Nat) (v x : Tree) :
    parseAs (.list c) v = some x ↔ ReadList (fun a b => parse c a = some b) v x := by
  cases v with
  | atom a =>
    cases a with
    | str s =>
      cases s with
      | nil =>
        rw [parseAs, parseAtom]
        constructor
        · intro h; cases h; exact .text
        · intro h; cases h; rfl
      | cons a s => exact ⟨nofun, nofun⟩
    | _ => exact ⟨nofun, nofun⟩
  | dict d =>
    cases d with
    | nil =>
      rw [parseAs]
      constructor
      · intro h; cases h; exact .dict
      · intro h; cases h; rfl
    | cons p d =>
      constructor
      · intro h; simp [parseAs] at h
      · intro h; cases h
  | list l =>
    rw [parseAs]
    constructor
    · intro h
      cases hl : parseList c l with
      | none => rw [hl] at h; cases h
      | some xs =>
        rw [hl] at h; cases h
        exact .list ((parseList_iff _ _ _).1 hl)
    · intro h
      cases h with
      | list h => rw [(parseList_iff _ _ _).2 h]; rfl
  | obj c fs => exact ⟨nofun, nofun⟩

/-! ## the constructors -/

theorem addOps_iff (path : Tree) (l : List Tree) (d d' : Dict Str Tree) (hd : (Dict.keys d).Nodup) :
    addOps path l d = some d' ↔ ∃ es, List.Forall₂ (fun o e => ∃ c fs, o = .obj c fs ∧
      Dict.get? fs c!"nickname" = some (.atom (.str e.1)) ∧ e.2 = .obj c (fs ++ [(c!"path", path)])) l es ∧
      d' = d ++ es ∧ (Dict.keys d').Nodup := by
  induction l generalizing d with
  | nil =>
    rw [addOps]
    constructor
    · intro h; cases h; exact ⟨[], .nil, by simp, hd⟩
    · rintro ⟨es, h, rfl, _⟩; cases h; simp
  | cons o l ih =>
    cases o with
    | obj c fs =>
      rw [addOps]
      split
      · rename_i n hn
        by_cases hh : Dict.has d n = true
        · rw [if_pos hh]
          refine ⟨nofun, ?_⟩
          rintro ⟨es, h, rfl, hnd⟩
          cases h with
          | cons h _ =>
            obtain ⟨c', fs', e1, e2, _⟩ := h
            cases e1
            rw [hn] at e2
            exfalso
            have e2 := Option.some.inj e2
            have : n ∈ Dict.keys d := (Dict.get?_isSome_iff _ _).1 hh
            injection e2 with e2
            injection e2 with e2
            rw [e2] at this
            simp only [Dict.keys, List.map_append, List.map_cons] at hnd this
            exact (List.nodup_append.1 hnd).2.2 _ this _ (List.mem_cons_self ..) rfl
        · rw [if_neg hh]
          have hnm : n ∉ Dict.keys d := fun h => hh ((Dict.get?_isSome_iff _ _).2 h)
          have hset := Dict.set_of_not_mem (Tree.obj c (fs ++ [(c!"path", path)])) hnm
          rw [hset]
          have hnd : (Dict.keys (d ++ [(n, Tree.obj c (fs ++ [(c!"path", path)]))])).Nodup := by
            rw [← hset]; exact Dict.WF_set hd _ _
          rw [ih _ hnd]
          constructor
          · rintro ⟨es, h, rfl, h2⟩
            exact ⟨(n, .obj c (fs ++ [(c!"path", path)])) :: es, .cons ⟨c, fs, rfl, hn, rfl⟩ h, by simp, h2⟩
          · rintro ⟨es, h, rfl, h2⟩
            cases h with
            | @cons _ e _ es h h' =>
              obtain ⟨m, x⟩ := e
              obtain ⟨c', fs', e1, e2, e3⟩ := h
              cases e1
              rw [hn] at e2
              cases e2
              cases e3
              exact ⟨es, h', by simp, h2⟩
      · rename_i hne
        refine ⟨nofun, ?_⟩
        rintro ⟨es, h, _⟩
        cases h with
        | cons h _ =>
          obtain ⟨c', fs', e1, e2, _⟩ := h
          cases e1
          exact absurd e2 (hne _)
    | _ =>
      refine ⟨nofun, ?_⟩
      rintro ⟨es, h, _⟩
      cases h with
      | cons h _ => obtain ⟨c', fs', e1, _⟩ := h; cases e1

theorem addApis_iff (l : List Tree) (d d' : Dict Str Tree) (hd : (Dict.keys d).Nodup) :
    addApis l d = some d' ↔
      ∃ es, List.Forall₂ Entries l es ∧ d' = d ++ es.flatten ∧ (Dict.keys d').Nodup := by
  induction l generalizing d with
  | nil =>
    rw [addApis]
    constructor
    · intro h; cases h; exact ⟨[], .nil, by simp, hd⟩
    · rintro ⟨es, h, rfl, _⟩; cases h; simp
  | cons o l ih =>
    cases o with
    | obj c fs =>
      rw [addApis]
      split
      · rename_i p ops hp ho
        constructor
        · intro h
          cases hd' : addOps p ops d with
          | none => rw [hd'] at h; cases h
          | some d1 =>
            rw [hd'] at h
            obtain ⟨e, he, rfl, hnd⟩ := (addOps_iff p ops d d1 hd).1 hd'
            obtain ⟨es, h1, rfl, h2⟩ := (ih _ hnd).1 h
            exact ⟨e :: es, .cons ⟨p, ops, ⟨c, fs, rfl, hp⟩, ⟨c, fs, rfl, ho⟩, he⟩ h1, by simp, h2⟩
        · rintro ⟨es, h, rfl, hnd⟩
          cases h with
          | @cons _ e _ es h h' =>
            obtain ⟨path, l', ⟨c1, f1, e1, g1⟩, ⟨c2, f2, e2, g2⟩, hes⟩ := h
            cases e1; cases e2
            rw [hp] at g1
            rw [ho] at g2
            cases g1; cases g2
            have hn1 : (Dict.keys (d ++ e)).Nodup := by
              simp only [Dict.keys, List.flatten_cons, List.map_append, ← List.append_assoc] at hnd ⊢
              exact (List.nodup_append.1 hnd).1
            rw [(addOps_iff p ops d _ hd).2 ⟨e, hes, rfl, hn1⟩]
            exact (ih _ hn1).2 ⟨es, h', by simp, hnd⟩
      · rename_i hne
        refine ⟨nofun, ?_⟩
        rintro ⟨es, h, _⟩
        cases h with
        | cons h _ =>
          obtain ⟨path, l', ⟨c1, f1, e1, g1⟩, ⟨c2, f2, e2, g2⟩, hes⟩ := h
          cases e1; cases e2
          exact absurd g2 (hne _ _ g1)
    | _ =>
      refine ⟨nofun, ?_⟩
      rintro ⟨es, h, _⟩
      cases h with
      | cons h _ => obtain ⟨_, _, ⟨_, _, e1, _⟩, _⟩ := h; cases e1

end Proofs.Doc12
