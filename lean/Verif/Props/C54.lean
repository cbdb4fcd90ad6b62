import Verif.Model.Yaml
import Verif.Proofs.Dict
/-!
# C54: integer response codes from YAML become strings without losing entries
-/

namespace Props.C54
open Py Yaml

variable {ρ : Type}

/-- the text under which a key is stored, if it has one -/
def textOf : Key → Option Str
  | .str s => some s
  | .int n => some (intStr n)
  | .other _ => none

theorem fixKey_text {k : Key} {s : Str} : fixKey k = .str s ↔ textOf k = some s := by
  cases k <;> simp [fixKey, textOf]

theorem fixKey_inj {k k' : Key} (h : fixKey k = fixKey k') : k = k' ∨ ∃ s, textOf k = some s ∧ textOf k' = some s := by
  cases k <;> cases k' <;> simp_all [fixKey, textOf]

/-- the last entry with a given text -/
def lastWith (s : Str) (d : Dict Key ρ) : Option ρ :=
  (d.reverse.find? fun e => textOf e.1 = some s).map Prod.snd

theorem get_foldl (d : Dict Key ρ) (s : Str) :
    Dict.get? (d.foldl (fun tmp kv => Dict.set tmp (fixKey kv.1) kv.2) []) (.str s) = lastWith s d := by
  have key : ∀ e : Dict Key ρ,
      Dict.get? (e.reverse.foldl (fun tmp kv => Dict.set tmp (fixKey kv.1) kv.2) []) (.str s) =
        (e.find? fun e => textOf e.1 = some s).map Prod.snd := by
    intro e
    induction e with
    | nil => rfl
    | cons x e ih =>
      rw [List.reverse_cons, List.foldl_append, List.foldl_cons, List.foldl_nil, Dict.get?_set, ih, List.find?_cons]
      by_cases h : textOf x.1 = some s
      · simp [h, fixKey_text.2 h]
      · have h' : ¬ Key.str s = fixKey x.1 := fun e => h (fixKey_text.1 e.symm)
        simp [h, h']
  have := key d.reverse
  rw [List.reverse_reverse] at this
  exact this

/-- **C54** (no integer left). Every key is a text or was no integer to begin with. -/
theorem C54_keys (d : Dict Key ρ) (d' : Dict Key ρ) (h : fix (some d) = some d') (k : Key)
    (hk : k ∈ Dict.keys d') : (∃ s, k = .str s) ∨ ∃ i, k = .other i ∧ k ∈ Dict.keys d := by
  simp only [fix, Option.some.injEq] at h
  subst h
  have : ∀ (l : Dict Key ρ) (acc : Dict Key ρ),
      k ∈ Dict.keys (l.foldl (fun tmp kv => Dict.set tmp (fixKey kv.1) kv.2) acc) →
      k ∈ Dict.keys acc ∨ ∃ e ∈ l, k = fixKey e.1 := by
    intro l
    induction l with
    | nil => intro acc h; exact Or.inl h
    | cons x l ih =>
      intro acc h
      rw [List.foldl_cons] at h
      rcases ih _ h with h | ⟨e, he, h⟩
      · rw [Dict.mem_keys_set] at h
        rcases h with h | h
        · exact Or.inr ⟨x, List.mem_cons_self .., h⟩
        · exact Or.inl h
      · exact Or.inr ⟨e, List.mem_cons_of_mem _ he, h⟩
  rcases this d [] hk with h | ⟨⟨k', v⟩, he, rfl⟩
  · cases h
  · cases k' with
    | str s => exact Or.inl ⟨s, rfl⟩
    | int n => exact Or.inl ⟨_, rfl⟩
    | other i => exact Or.inr ⟨i, rfl, List.mem_map.2 ⟨_, he, rfl⟩⟩

/-- **C54** (lookup). Under a text stands the last response that was given for it, as text or as
integer. -/
theorem C54_lookup (d : Dict Key ρ) (s : Str) :
    ∃ d', fix (some d) = some d' ∧ Dict.get? d' (.str s) = lastWith s d :=
  ⟨_, rfl, get_foldl d s⟩

/-- **C54** (nothing lost). If no code is given in both spellings, the table keeps its responses and
their order, and only the integer keys change. -/
theorem C54_kept (d : Dict Key ρ) (hd : Dict.WF d)
    (h : ∀ n, Key.int n ∈ Dict.keys d → Key.str (intStr n) ∉ Dict.keys d) :
    fix (some d) = some (d.map fun e => (fixKey e.1, e.2)) := by
  have hinj : ∀ a b : Int, intStr a = intStr b → a = b := fun a b e => by
    have h1 := intOf_intStr a
    rw [e, intOf_intStr b] at h1
    exact (Option.some.inj h1).symm
  have hnd : ((d.map fun e => (fixKey e.1, e.2)).map Prod.fst).Nodup := by
    rw [List.map_map, List.nodup_iff_pairwise_ne, List.pairwise_map]
    have hd' : (d.map Prod.fst).Nodup := hd
    rw [List.nodup_iff_pairwise_ne, List.pairwise_map] at hd'
    refine hd'.imp_of_mem ?_
    rintro ⟨a, v⟩ ⟨b, w⟩ ha hb hne e
    have ha' : a ∈ Dict.keys d := List.mem_map.2 ⟨_, ha, rfl⟩
    have hb' : b ∈ Dict.keys d := List.mem_map.2 ⟨_, hb, rfl⟩
    simp only [Function.comp] at e
    cases a with
    | str s =>
      cases b with
      | str t => exact hne e
      | int n =>
        simp only [fixKey, Key.str.injEq] at e
        exact h n hb' (e ▸ ha')
      | other i => cases e
    | int n =>
      cases b with
      | str t =>
        simp only [fixKey, Key.str.injEq] at e
        exact h n ha' (e ▸ hb')
      | int m =>
        simp only [fixKey, Key.str.injEq] at e
        exact hne (by rw [hinj n m e])
      | other i => cases e
    | other i =>
      cases b with
      | str t => cases e
      | int n => cases e
      | other j => exact hne e
  simp only [fix, Option.some.injEq]
  have key : ∀ (l acc : Dict Key ρ), ((acc ++ l.map fun e => (fixKey e.1, e.2)).map Prod.fst).Nodup →
      l.foldl (fun tmp kv => Dict.set tmp (fixKey kv.1) kv.2) acc = acc ++ l.map fun e => (fixKey e.1, e.2) := by
    intro l
    induction l with
    | nil => intro acc _; simp
    | cons x l ih =>
      intro acc hn
      have hx : fixKey x.1 ∉ Dict.keys acc := by
        simp only [List.map_cons, List.map_append] at hn
        intro hm
        have := (List.nodup_append.1 hn).2.2 _ hm (fixKey x.1) (by simp)
        exact this rfl
      rw [List.foldl_cons, Dict.set_of_not_mem _ hx, ih]
      · simp
      · simpa using hn
  simpa using key d [] (by simpa using hnd)

/-- **C54** (absent). No table stays no table. -/
theorem C54_none : fix (none : Option (Dict Key ρ)) = none := rfl

/-- **C54** (again). Fixing a fixed table changes nothing. -/
theorem C54_again (r : Option (Dict Key ρ)) : fix (fix r) = fix r := by
  cases r with
  | none => rfl
  | some d =>
    obtain ⟨d', h⟩ : ∃ d', fix (some d) = some d' := ⟨_, rfl⟩
    have hwf : Dict.WF d' := by
      simp only [fix, Option.some.injEq] at h
      subst h
      have : ∀ (l acc : Dict Key ρ), Dict.WF acc →
          Dict.WF (l.foldl (fun tmp kv => Dict.set tmp (fixKey kv.1) kv.2) acc) := by
        intro l
        induction l with
        | nil => intro acc h; exact h
        | cons x l ih => intro acc h; exact ih _ (Dict.WF_set h _ _)
      exact this d [] Dict.WF_nil
    have hno : ∀ k ∈ Dict.keys d', fixKey k = k := by
      intro k hk
      rcases C54_keys d d' h k hk with ⟨s, rfl⟩ | ⟨i, rfl, _⟩ <;> rfl
    rw [h, C54_kept d' hwf]
    · congr 1
      have : d'.map (fun e => (fixKey e.1, e.2)) = d'.map id := by
        apply List.map_congr_left
        intro e he
        rw [hno e.1 (List.mem_map.2 ⟨e, he, rfl⟩)]
        rfl
      rw [this, List.map_id]
    · intro n hn
      rcases C54_keys d d' h _ hn with ⟨s, e⟩ | ⟨i, e, _⟩ <;> cases e

/-! ## examples -/

def table : Dict Key Nat := [(.int 200, 1), (.str c!"default", 2), (.int (-1), 3), (.str c!"404", 4)]

example : Dict.WF table ∧ ∀ n, Key.int n ∈ Dict.keys table → Key.str (intStr n) ∉ Dict.keys table := by
  refine ⟨by unfold Dict.WF; decide, fun n hn => ?_⟩
  simp [table, Dict.keys] at hn
  rcases hn with rfl | rfl <;> decide +kernel
example : fix (some table) = some [(.str c!"200", 1), (.str c!"default", 2), (.str c!"-1", 3), (.str c!"404", 4)] := by
  decide +kernel

/-- With both spellings of one code, a response is lost. -/
theorem C54_both_false : ∃ d d' : Dict Key Nat, Dict.WF d ∧ fix (some d) = some d' ∧
    ∃ v, v ∈ d.map Prod.snd ∧ v ∉ d'.map Prod.snd :=
  ⟨[(.int 200, 1), (.str c!"200", 2)], [(.str c!"200", 2)], by unfold Dict.WF; decide, by decide +kernel, 1,
    by decide, by decide⟩

end Props.C54
