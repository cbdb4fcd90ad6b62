import Verif.Spec.Call
import Verif.Proofs.Dict
/-! Lemmas about `Operation.__call__`. -/

namespace Call
open Py Prim Spec.Calls

variable {ω : Type}

/-- the entry of an argument, or why there is none -/
def entry (env : Env ω) (leaf : Prim ω → Except Exc Str) (p : Decl) (c : Prim ω) : Except Exc (Entry ω) :=
  let pairs := fun (add : List Str → Entry ω) =>
    match asArray c with
    | some (f, l) =>
      match (env.node p.obj).items with
      | none => .error .AttributeError
      | some it =>
        if (env.node it).type = some c!"file" then .ok (.file (.prim c))
        else match urlTexts leaf f l with
          | .error e => .error e
          | .ok ts => .ok (add ts)
    | none =>
      match text leaf c with
      | .error e => .error e
      | .ok t => .ok (add [t])
  let single := fun (put : Str → Entry ω) =>
    match text leaf c with
    | .error e => .error e
    | .ok t => .ok (put t)
  if (env.node p.obj).type = some c!"file" then .ok (.file (.prim c))
  else if p.in_ = c!"query" then pairs .query
  else if p.in_ = c!"formData" then pairs .formData
  else if p.in_ = c!"body" then .ok (.body c)
  else if p.in_ = c!"header" then single .header
  else if p.in_ = c!"path" then single .path
  else if p.in_ = c!"file" then single fun t => .file (.text t)
  else .error .KeyError

/-- the request with an entry added -/
def add (n : Str) (s : Sent ω) : Entry ω → Sent ω
  | .header t => { s with header := Dict.set s.header n t }
  | .query ts => { s with query := s.query ++ ts.map fun t => (n, t) }
  | .path t => { s with path := Dict.set s.path n t }
  | .body c => { s with body := Dict.set s.body n c }
  | .formData ts => { s with formData := s.formData ++ ts.map fun t => (n, t) }
  | .file a => { s with file := Dict.set s.file n a }

theorem place_eq (env : Env ω) (leaf : Prim ω → Except Exc Str) (p : Decl) (c : Prim ω) (s : Sent ω) :
    place env leaf p c s = (entry env leaf p c).map (add p.name s) := by
  unfold place entry
  simp only
  by_cases h1 : (env.node p.obj).type = some c!"file"
  · rw [if_pos h1, if_pos h1]; rfl
  rw [if_neg h1, if_neg h1]
  by_cases h2 : p.in_ = c!"query"
  · rw [if_pos h2, if_pos h2]
    cases asArray c with
    | none => cases text leaf c <;> rfl
    | some fl =>
      cases (env.node p.obj).items with
      | none => rfl
      | some it =>
        simp only
        by_cases h : (env.node it).type = some c!"file"
        · rw [if_pos h, if_pos h]; rfl
        · rw [if_neg h, if_neg h]
          cases urlTexts leaf fl.1 fl.2 <;> rfl
  rw [if_neg h2, if_neg h2]
  by_cases h3 : p.in_ = c!"formData"
  · rw [if_pos h3, if_pos h3]
    cases asArray c with
    | none => cases text leaf c <;> rfl
    | some fl =>
      cases (env.node p.obj).items with
      | none => rfl
      | some it =>
        simp only
        by_cases h : (env.node it).type = some c!"file"
        · rw [if_pos h, if_pos h]; rfl
        · rw [if_neg h, if_neg h]
          cases urlTexts leaf fl.1 fl.2 <;> rfl
  rw [if_neg h3, if_neg h3]
  by_cases h4 : p.in_ = c!"body"
  · rw [if_pos h4, if_pos h4]; rfl
  rw [if_neg h4, if_neg h4]
  by_cases h5 : p.in_ = c!"header"
  · rw [if_pos h5, if_pos h5]; cases text leaf c <;> rfl
  rw [if_neg h5, if_neg h5]
  by_cases h6 : p.in_ = c!"path"
  · rw [if_pos h6, if_pos h6]; cases text leaf c <;> rfl
  rw [if_neg h6, if_neg h6]
  by_cases h7 : p.in_ = c!"file"
  · rw [if_pos h7, if_pos h7]; cases text leaf c <;> rfl
  rw [if_neg h7, if_neg h7]
  rfl

theorem asArray_none {c : Prim ω} (h : asArray c = none) : ∀ f l, c ≠ .array f l := by
  rintro f l rfl; cases h

theorem asArray_some {c : Prim ω} {f l} (h : asArray c = some (f, l)) : c = .array f l := by
  cases c <;> cases h; rfl

theorem asArray_of_ne {c : Prim ω} (h : ∀ f l, c ≠ .array f l) : asArray c = none := by
  cases c <;> first | rfl | exact absurd rfl (h _ _)

theorem entry_iff (env : Env ω) (leaf : Prim ω → Except Exc Str) (p : Decl) (c : Prim ω) (e : Entry ω) :
    entry env leaf p c = .ok e ↔ Becomes env leaf p c e := by
  constructor
  · intro h
    unfold entry at h
    simp only at h
    by_cases h1 : (env.node p.obj).type = some c!"file"
    · rw [if_pos h1] at h; cases h; exact .aFile c h1
    rw [if_neg h1] at h
    by_cases h2 : p.in_ = c!"query"
    · rw [if_pos h2] at h
      cases hc : asArray c with
      | none =>
        rw [hc] at h
        simp only at h
        cases ht : text leaf c <;> rw [ht] at h <;> cases h
        exact .query _ _ h1 h2 (asArray_none hc) ht
      | some fl =>
        obtain ⟨f, l⟩ := fl
        rw [hc] at h
        cases asArray_some hc
        simp only at h
        cases hi : (env.node p.obj).items with
        | none => rw [hi] at h; cases h
        | some it =>
          rw [hi] at h
          simp only at h
          by_cases hf : (env.node it).type = some c!"file"
          · rw [if_pos hf] at h; cases h
            exact .files _ _ h1 (.inl h2) ⟨it, hi, hf⟩
          · rw [if_neg hf] at h
            cases hu : urlTexts leaf f l <;> rw [hu] at h <;> cases h
            exact .queryArray _ _ _ it h1 h2 hi hf hu
    rw [if_neg h2] at h
    by_cases h3 : p.in_ = c!"formData"
    · rw [if_pos h3] at h
      cases hc : asArray c with
      | none =>
        rw [hc] at h
        simp only at h
        cases ht : text leaf c <;> rw [ht] at h <;> cases h
        exact .form _ _ h1 h3 (asArray_none hc) ht
      | some fl =>
        obtain ⟨f, l⟩ := fl
        rw [hc] at h
        cases asArray_some hc
        simp only at h
        cases hi : (env.node p.obj).items with
        | none => rw [hi] at h; cases h
        | some it =>
          rw [hi] at h
          simp only at h
          by_cases hf : (env.node it).type = some c!"file"
          · rw [if_pos hf] at h; cases h
            exact .files _ _ h1 (.inr h3) ⟨it, hi, hf⟩
          · rw [if_neg hf] at h
            cases hu : urlTexts leaf f l <;> rw [hu] at h <;> cases h
            exact .formArray _ _ _ it h1 h3 hi hf hu
    rw [if_neg h3] at h
    by_cases h4 : p.in_ = c!"body"
    · rw [if_pos h4] at h; cases h; exact .body c h1 h4
    rw [if_neg h4] at h
    by_cases h5 : p.in_ = c!"header"
    · rw [if_pos h5] at h
      cases ht : text leaf c <;> rw [ht] at h <;> cases h
      exact .header _ _ h1 h5 ht
    rw [if_neg h5] at h
    by_cases h6 : p.in_ = c!"path"
    · rw [if_pos h6] at h
      cases ht : text leaf c <;> rw [ht] at h <;> cases h
      exact .path _ _ h1 h6 ht
    rw [if_neg h6] at h
    by_cases h7 : p.in_ = c!"file"
    · rw [if_pos h7] at h
      cases ht : text leaf c <;> rw [ht] at h <;> cases h
      exact .inFile _ _ h1 h7 ht
    rw [if_neg h7] at h
    cases h
  · intro h
    cases h with
    | aFile _ h1 => simp only [entry, h1, if_true]
    | files f l h1 h2 h3 =>
      obtain ⟨it, hi, hf⟩ := h3
      rcases h2 with h2 | h2 <;> simp [entry, h1, h2, hi, hf, asArray]
    | queryArray f l ts it h1 h2 hi hf hu => simp [entry, h1, h2, hi, hf, hu, asArray]
    | formArray f l ts it h1 h2 hi hf hu => simp [entry, h1, h2, hi, hf, hu, asArray]
    | query _ t h1 h2 h3 ht => simp [entry, h1, h2, ht, asArray_of_ne h3]
    | form _ t h1 h2 h3 ht => simp [entry, h1, h2, ht, asArray_of_ne h3]
    | header _ t h1 h2 ht => simp [entry, h1, h2, ht]
    | path _ t h1 h2 ht => simp [entry, h1, h2, ht]
    | inFile _ t h1 h2 ht => simp [entry, h1, h2, ht]
    | body _ h1 h2 => simp [entry, h1, h2]

theorem becomes_unique {env : Env ω} {leaf : Prim ω → Except Exc Str} {p : Decl} {c : Prim ω} {e e' : Entry ω}
    (h : Becomes env leaf p c e) (h' : Becomes env leaf p c e') : e = e' :=
  Except.ok.inj (((entry_iff env leaf p c e).2 h).symm.trans ((entry_iff env leaf p c e').2 h'))

theorem sends_unique {env : Env ω} {leaf : Prim ω → Except Exc Str} {fuel : Nat} {k : Dict Str Val}
    {p : Decl} {e e' : Entry ω} (h : Sends env leaf fuel k p e) (h' : Sends env leaf fuel k p e') : e = e' := by
  obtain ⟨v, c, h1, h2, h3⟩ := h
  obtain ⟨v', c', h1', h2', h3'⟩ := h'
  rw [h1] at h1'; cases h1'
  rw [h2] at h2'; cases h2'
  exact becomes_unique h3 h3'

theorem value_eq (env : Env ω) (k : Dict Str Val) (p : Decl) :
    (Missing env k p → value env k p = .error .ValueError) ∧
    (¬ Missing env k p → value env k p = .ok (given env k p)) := by
  have hh : Dict.has k p.name = false ↔ Dict.get? k p.name = none := by
    unfold Dict.has; cases Dict.get? k p.name <;> simp
  unfold value given
  simp only
  constructor
  · rintro ⟨h1, h2, h3⟩
    rw [if_pos ⟨hh.2 h2, h3, h1⟩]
  · intro h
    rw [if_neg (fun hx => h ⟨hx.2.2, hh.1 hx.1, hx.2.1⟩)]
    cases hk : Dict.get? k p.name with
    | some v => cases (env.node p.obj).defaultSet <;> rfl
    | none => cases (env.node p.obj).defaultSet <;> rfl

/-- one parameter -/
theorem convertParameter_spec (env : Env ω) (leaf : Prim ω → Except Exc Str) (fuel : Nat)
    (k : Dict Str Val) (p : Decl) (st : Sent ω × List Str) :
    (Missing env k p → convertParameter env leaf fuel k p st = .error .ValueError) ∧
    (¬ Missing env k p → given env k p = none → convertParameter env leaf fuel k p st = .ok st) ∧
    (∀ e, Sends env leaf fuel k p e →
      convertParameter env leaf fuel k p st = .ok (add p.name st.1 e, st.2 ++ [p.name])) ∧
    (¬ Missing env k p → ¬ Fine env leaf fuel k p → ∃ e, convertParameter env leaf fuel k p st = .error e) := by
  obtain ⟨a, b⟩ := value_eq env k p
  unfold convertParameter
  refine ⟨?_, ?_, ?_, ?_⟩
  · intro h; rw [a h]
  · intro h hg; rw [b h, hg]
  · rintro e ⟨v, c, h1, h2, h3⟩
    have hm : ¬ Missing env k p := by
      rintro ⟨_, x, y⟩
      simp [given, x, y] at h1
    rw [b hm, h1]
    simp only [h2, place_eq, (entry_iff env leaf p c e).2 h3, Except.map]
  · intro hm hf
    rw [b hm]
    cases hg : given env k p with
    | none => exact absurd (Or.inl hg) hf
    | some v =>
      simp only
      cases hp : prim env fuel p v with
      | error e => exact ⟨e, rfl⟩
      | ok c =>
        simp only [place_eq]
        cases he : entry env leaf p c with
        | error e => exact ⟨e, rfl⟩
        | ok e => exact absurd (Or.inr ⟨e, v, c, hg, hp, (entry_iff env leaf p c e).1 he⟩) hf

/-- the request with entries added in turn -/
def addAll (s : Sent ω) (es : List (Str × Entry ω)) : Sent ω := es.foldl (fun s e => add e.1 s e.2) s

theorem sends_not_missing {env : Env ω} {leaf : Prim ω → Except Exc Str} {fuel : Nat} {k : Dict Str Val}
    {p : Decl} {e : Entry ω} (h : Sends env leaf fuel k p e) : ¬ Missing env k p := by
  obtain ⟨v, c, h1, -, -⟩ := h
  rintro ⟨_, x, y⟩
  simp [given, x, y] at h1

theorem convertAll_spec (env : Env ω) (leaf : Prim ω → Except Exc Str) (fuel : Nat) (k : Dict Str Val)
    (ps : List Decl) (st : Sent ω × List Str) :
    ((∀ p ∈ ps, ¬ Missing env k p ∧ Fine env leaf fuel k p) →
      ∃ es, Entries env leaf fuel k ps es ∧
        convertAll env leaf fuel k ps st = .ok (addAll st.1 es, st.2 ++ es.map Prod.fst)) ∧
    ((¬ ∀ p ∈ ps, ¬ Missing env k p ∧ Fine env leaf fuel k p) →
      ∃ e, convertAll env leaf fuel k ps st = .error e ∧
        ((∀ p ∈ ps, Missing env k p ∨ Fine env leaf fuel k p) → e = .ValueError)) := by
  induction ps generalizing st with
  | nil => exact ⟨fun _ => ⟨[], rfl, by simp [convertAll, addAll]⟩, fun h => absurd (by simp) h⟩
  | cons p ps ih =>
    obtain ⟨c1, c2, c3, c4⟩ := convertParameter_spec env leaf fuel k p st
    constructor
    · intro h
      obtain ⟨hm, hf⟩ := h p (List.mem_cons_self ..)
      have hrest : ∀ q ∈ ps, ¬ Missing env k q ∧ Fine env leaf fuel k q :=
        fun q hq => h q (List.mem_cons_of_mem _ hq)
      rcases hf with hg | ⟨e, he⟩
      · obtain ⟨es, h1, h2⟩ := (ih st).1 hrest
        exact ⟨es, ⟨hm, Or.inl ⟨hg, h1⟩⟩, by rw [convertAll, c2 hm hg]; exact h2⟩
      · obtain ⟨es, h1, h2⟩ := (ih (add p.name st.1 e, st.2 ++ [p.name])).1 hrest
        refine ⟨(p.name, e) :: es, ⟨hm, Or.inr ⟨e, es, rfl, he, h1⟩⟩, ?_⟩
        rw [convertAll, c3 e he]
        simp only [h2, addAll, List.foldl_cons, List.map_cons, List.append_assoc, List.singleton_append]
    · intro h
      rw [convertAll]
      by_cases hm : Missing env k p
      · exact ⟨.ValueError, by rw [c1 hm], fun _ => rfl⟩
      · by_cases hf : Fine env leaf fuel k p
        · have hrest : ¬ ∀ q ∈ ps, ¬ Missing env k q ∧ Fine env leaf fuel k q := fun hq => h (by
            intro q hq'
            rcases List.mem_cons.1 hq' with rfl | hq'
            · exact ⟨hm, hf⟩
            · exact hq q hq')
          rcases hf with hg | ⟨e, he⟩
          · obtain ⟨e, h1, h2⟩ := (ih st).2 hrest
            exact ⟨e, by rw [c2 hm hg]; exact h1, fun ha => h2 fun q hq => ha q (List.mem_cons_of_mem _ hq)⟩
          · obtain ⟨e', h1, h2⟩ := (ih (add p.name st.1 e, st.2 ++ [p.name])).2 hrest
            exact ⟨e', by rw [c3 e he]; exact h1, fun ha => h2 fun q hq => ha q (List.mem_cons_of_mem _ hq)⟩
        · obtain ⟨e, he⟩ := c4 hm hf
          exact ⟨e, by rw [he], fun ha => by
            rcases ha p (List.mem_cons_self ..) with x | x
            · exact absurd x hm
            · exact absurd x hf⟩

theorem entries_names {env : Env ω} {leaf : Prim ω → Except Exc Str} {fuel : Nat} {k : Dict Str Val}
    {ps : List Decl} {es : List (Str × Entry ω)} (h : Entries env leaf fuel k ps es) (n : Str) :
    n ∈ es.map Prod.fst ↔ ∃ p ∈ ps, p.name = n ∧ given env k p ≠ none := by
  induction ps generalizing es with
  | nil => rw [show es = [] from h]; simp
  | cons p ps ih =>
    obtain ⟨_, ⟨hg, h⟩ | ⟨e, es', rfl, hs, h⟩⟩ := h
    · rw [ih h]; simp [hg]
    · obtain ⟨v, c, hv, -, -⟩ := hs
      rw [List.map_cons, List.mem_cons, ih h]
      constructor
      · rintro (rfl | ⟨q, hq, x⟩)
        · exact ⟨p, List.mem_cons_self .., rfl, by simp [hv]⟩
        · exact ⟨q, List.mem_cons_of_mem _ hq, x⟩
      · rintro ⟨q, hq, x, y⟩
        rcases List.mem_cons.1 hq with rfl | hq
        · exact Or.inl x.symm
        · exact Or.inr ⟨q, hq, x, y⟩

theorem mem_entries {env : Env ω} {leaf : Prim ω → Except Exc Str} {fuel : Nat} {k : Dict Str Val}
    {ps : List Decl} {es : List (Str × Entry ω)} (h : Entries env leaf fuel k ps es) (n : Str) (e : Entry ω) :
    (n, e) ∈ es ↔ ∃ p ∈ ps, p.name = n ∧ Sends env leaf fuel k p e := by
  induction ps generalizing es with
  | nil => rw [show es = [] from h]; simp
  | cons p ps ih =>
    obtain ⟨_, ⟨hg, h⟩ | ⟨e', es', rfl, hs, h⟩⟩ := h
    · rw [ih h]
      constructor
      · rintro ⟨q, hq, x⟩; exact ⟨q, List.mem_cons_of_mem _ hq, x⟩
      · rintro ⟨q, hq, x, y⟩
        rcases List.mem_cons.1 hq with rfl | hq
        · obtain ⟨v, c, hv, -⟩ := y
          rw [hg] at hv; cases hv
        · exact ⟨q, hq, x, y⟩
    · rw [List.mem_cons, ih h]
      constructor
      · rintro (hx | ⟨q, hq, x⟩)
        · cases hx; exact ⟨p, List.mem_cons_self .., rfl, hs⟩
        · exact ⟨q, List.mem_cons_of_mem _ hq, x⟩
      · rintro ⟨q, hq, x, y⟩
        rcases List.mem_cons.1 hq with rfl | hq
        · left; rw [← x, sends_unique y hs]
        · exact Or.inr ⟨q, hq, x, y⟩

/-! ## the request with the entries -/

theorem addAll_query (es : List (Str × Entry ω)) (s : Sent ω) :
    (addAll s es).query = s.query ++ queryOf es := by
  induction es generalizing s with
  | nil => simp [addAll, queryOf]
  | cons e es ih =>
    have h := ih (add e.1 s e.2)
    obtain ⟨n, e⟩ := e
    cases e <;> simpa [addAll, queryOf, add] using h

theorem addAll_form (es : List (Str × Entry ω)) (s : Sent ω) :
    (addAll s es).formData = s.formData ++ formOf es := by
  induction es generalizing s with
  | nil => simp [addAll, formOf]
  | cons e es ih =>
    have h := ih (add e.1 s e.2)
    obtain ⟨n, e⟩ := e
    cases e <;> simpa [addAll, formOf, add] using h

theorem lastOf_cons {α : Type} (f : Entry ω → Option α) (n m : Str) (e : Entry ω) (es : List (Str × Entry ω)) :
    lastOf f n ((m, e) :: es) = (lastOf f n es).or (if m = n then f e else none) := by
  unfold lastOf
  rw [List.filterMap_cons]
  by_cases h : m = n
  · simp only [h, if_true]
    cases f e with
    | none => simp
    | some x => rw [List.getLast?_cons]; cases (List.filterMap _ es).getLast? <;> rfl
  · simp [h]

theorem get_set_if {α : Type} (d : Dict Str α) (m n : Str) (x : α) :
    Dict.get? (Dict.set d m x) n = (if m = n then some x else none).or (Dict.get? d n) := by
  rw [Dict.get?_set]
  by_cases h : m = n
  · simp [h]
  · simp only [h, if_false, Option.none_or]
    exact if_neg fun e => h e.symm

theorem addAll_header (n : Str) (es : List (Str × Entry ω)) (s : Sent ω) :
    Dict.get? (addAll s es).header n = (lastOf headerOf n es).or (Dict.get? s.header n) := by
  induction es generalizing s with
  | nil => simp [addAll, lastOf]
  | cons e es ih =>
    have h := ih (add e.1 s e.2)
    obtain ⟨m, e⟩ := e
    show Dict.get? (addAll (add m s e) es).header n = _
    rw [h, lastOf_cons, Option.or_assoc]
    cases e <;> simp [add, headerOf, get_set_if]

theorem addAll_path (n : Str) (es : List (Str × Entry ω)) (s : Sent ω) :
    Dict.get? (addAll s es).path n = (lastOf pathOf n es).or (Dict.get? s.path n) := by
  induction es generalizing s with
  | nil => simp [addAll, lastOf]
  | cons e es ih =>
    have h := ih (add e.1 s e.2)
    obtain ⟨m, e⟩ := e
    show Dict.get? (addAll (add m s e) es).path n = _
    rw [h, lastOf_cons, Option.or_assoc]
    cases e <;> simp [add, pathOf, get_set_if]

theorem addAll_body (n : Str) (es : List (Str × Entry ω)) (s : Sent ω) :
    Dict.get? (addAll s es).body n = (lastOf bodyOf n es).or (Dict.get? s.body n) := by
  induction es generalizing s with
  | nil => simp [addAll, lastOf]
  | cons e es ih =>
    have h := ih (add e.1 s e.2)
    obtain ⟨m, e⟩ := e
    show Dict.get? (addAll (add m s e) es).body n = _
    rw [h, lastOf_cons, Option.or_assoc]
    cases e <;> simp [add, bodyOf, get_set_if]

theorem addAll_file (n : Str) (es : List (Str × Entry ω)) (s : Sent ω) :
    Dict.get? (addAll s es).file n = (lastOf fileOf n es).or (Dict.get? s.file n) := by
  induction es generalizing s with
  | nil => simp [addAll, lastOf]
  | cons e es ih =>
    have h := ih (add e.1 s e.2)
    obtain ⟨m, e⟩ := e
    show Dict.get? (addAll (add m s e) es).file n = _
    rw [h, lastOf_cons, Option.or_assoc]
    cases e <;> simp [add, fileOf, get_set_if]

end Call
