import Verif.Proofs.Request
import Verif.Proofs.Str
import Verif.Props.C26
/-!
# C27: custom headers are all sent, and the request's own headers win

`values l n`: the values of the headers named `n` in `l`, in order. `lastOf l n`: the last pair
named `n`. `given opt k`: the option `k`, if present and truthy (`Props/C26.lean`).
-/

namespace Props.C27
open Py Utils Io Core Props.C26

/-- the values of the headers named `n`, in order -/
def values (l : List (Str × Str)) (n : Str) : List Str := (l.filter (fun h => h.1 = n)).map (·.2)

theorem values_cons (h : Str × Str) (l) (n) :
    values (h :: l) n = if h.1 = n then h.2 :: values l n else values l n := by
  simp only [values, List.filter_cons]
  by_cases e : h.1 = n <;> simp [e]

theorem join_two (sep v h : Str) (l : List Str) :
    join sep (join sep [v, h] :: l) = join sep (v :: h :: l) := by
  cases l with
  | nil => rfl
  | cons x l =>
    simp only [join, List.append_assoc]

theorem get?_joinFold (l : List (Str × Str)) (d : Dict Str Str) (n : Str) :
    Dict.get? (l.foldl joinStep d) n =
      match Dict.get? d n, values l n with
      | none, [] => none
      | none, vs => some (join c!"," vs)
      | some v, vs => some (join c!"," (v :: vs)) := by
  induction l generalizing d with
  | nil => simp only [List.foldl_nil, values, List.filter_nil, List.map_nil]; cases Dict.get? d n <;> rfl
  | cons h l ih =>
    rw [List.foldl_cons, ih, values_cons]
    by_cases e : h.1 = n
    · subst e
      simp only [if_true]
      unfold joinStep
      cases hg : Dict.get? d h.1 with
      | none =>
        simp only [Dict.get?_set_self]
      | some v =>
        simp only [Dict.get?_set_self]
        rw [join_two]
    · have e' : n ≠ h.1 := fun x => e x.symm
      simp only [e, if_false]
      have : Dict.get? (joinStep d h) n = Dict.get? d n := by
        unfold joinStep
        cases Dict.get? d h.1 <;> exact Dict.get?_set_ne d _ e'
      rw [this]

/-- **C27** (joined values). Each name carries all its values, comma-separated and in order. -/
theorem get?_joinHeaders (l : List (Str × Str)) (n : Str) :
    Dict.get? (joinHeaders l) n = if values l n = [] then none else some (join c!"," (values l n)) := by
  unfold joinHeaders
  rw [get?_joinFold]
  cases values l n <;> rfl

theorem WF_joinHeaders (l : List (Str × Str)) : Dict.WF (joinHeaders l) := by
  unfold joinHeaders
  generalize hd : ([] : Dict Str Str) = d
  have h : Dict.WF d := by rw [← hd]; exact Dict.WF_nil
  clear hd
  induction l generalizing d with
  | nil => exact h
  | cons x l ih =>
    rw [List.foldl_cons]
    apply ih
    unfold joinStep
    cases Dict.get? d x.1 <;> exact Dict.WF_set h _ _

theorem get?_dictOf (l : List (Str × Str)) (n : Str) :
    Dict.get? (dictOf l) n = (lastOf l n).map (·.2) := by
  unfold dictOf
  rw [get?_foldl_set]
  cases lastOf l n <;> rfl

theorem lastOf_get? {d : Dict Str Str} (hd : Dict.WF d) (n : Str) :
    (lastOf d n).map (·.2) = Dict.get? d n := by
  cases h : lastOf d n with
  | none =>
    symm
    rw [Option.map_none, Dict.get?_eq_none_iff]
    intro hm
    obtain ⟨x, hx, rfl⟩ := List.mem_map.1 hm
    exact lastOf_none.1 h x hx rfl
  | some w =>
    obtain ⟨h1, h2⟩ := lastOf_some h
    symm
    rw [Option.map_some]
    exact Dict.get?_of_mem hd (by rw [← h2]; exact h1)

/-- custom headers as a list of pairs -/
def pairs : HeadersArg → Option (List (Str × Str))
  | .list l => some l
  | .dict d => some d
  | _ => none

/-- **C27** (list, not joined). All pairs, request headers first. -/
theorem C27_list (h : CIDict Str) (arg : HeadersArg) (l) (opt) (hp : pairs arg = some l)
    (hj : given opt c!"join_headers" = none) :
    (composeHeaders h arg opt false).map (·.result) = .ok (h.iteritems ++ l) := by
  have hj' := (truthy_pop opt c!"join_headers").trans hj
  cases arg <;> cases hp <;> simp [composeHeaders, composeHeaders.finish, hj', Except.map]

/-- **C27** (joined). Whether a list or a dict is wanted, each name occurs once, with all its
values (of the request and custom ones) comma-separated in order, request headers first. -/
theorem C27_joined (h : CIDict Str) (arg : HeadersArg) (l) (opt) (asDict : Bool)
    (hp : pairs arg = some l) (hj : given opt c!"join_headers" ≠ none) :
    ∃ c, composeHeaders h arg opt asDict = .ok c ∧ Dict.WF c.result ∧
      ∀ n, Dict.get? c.result n =
        if values (h.iteritems ++ l) n = [] then none
        else some (join c!"," (values (h.iteritems ++ l) n)) := by
  have hj' := truthy_pop opt c!"join_headers"
  cases hg : given opt c!"join_headers" with
  | none => exact absurd hg hj
  | some s =>
    rw [hg] at hj'
    have hres : ∃ c, composeHeaders h arg opt asDict = .ok c ∧
        c.result = if asDict then dictOf (joinHeaders (h.iteritems ++ l)) else
          joinHeaders (h.iteritems ++ l) := by
      cases arg <;> cases hp <;> simp [composeHeaders, composeHeaders.finish, hj']
    obtain ⟨c, hc, hr⟩ := hres
    refine ⟨c, hc, ?_, ?_⟩
    · rw [hr]
      cases asDict with
      | false => exact WF_joinHeaders _
      | true => exact Dict.WF_update Dict.WF_nil _
    · intro n
      rw [hr, ← get?_joinHeaders]
      cases asDict with
      | false => rfl
      | true =>
        simp only [if_true]
        rw [get?_dictOf, lastOf_get? (WF_joinHeaders _)]

/-- **C27** (dict, not joined). A request header wins over a custom header spelled the same; every
other custom name is kept with its last value. -/
theorem C27_dict (h : CIDict Str) (arg : HeadersArg) (l) (opt) (hp : pairs arg = some l)
    (hd : ∀ d, arg = .dict d → Dict.WF d) (hj : given opt c!"join_headers" = none) :
    ∃ c, composeHeaders h arg opt true = .ok c ∧ Dict.WF c.result ∧
      ∀ n, Dict.get? c.result n =
        match lastOf h.iteritems n with
        | some w => some w.2
        | none => (lastOf l n).map (·.2) := by
  have hj' := (truthy_pop opt c!"join_headers").trans hj
  cases arg with
  | none => cases hp
  | other => cases hp
  | list l' =>
    cases hp
    refine ⟨⟨Dict.update (dictOf l) h.iteritems, _, _⟩,
      by simp [composeHeaders, hj']; exact ⟨rfl, rfl⟩, ?_, ?_⟩
    · exact Dict.WF_update (Dict.WF_update Dict.WF_nil _) _
    · intro n
      simp only [Dict.update]
      rw [get?_foldl_set, get?_dictOf]
      cases lastOf h.iteritems n <;> rfl
  | dict d =>
    simp only [pairs, Option.some.injEq] at hp
    subst hp
    refine ⟨⟨Dict.update d h.iteritems, _, _⟩,
      by simp [composeHeaders, hj']; exact ⟨rfl, rfl⟩, ?_, ?_⟩
    · exact Dict.WF_update (hd d rfl) _
    · intro n
      simp only [Dict.update]
      rw [get?_foldl_set, lastOf_get? (hd d rfl)]
      cases lastOf h.iteritems n <;> rfl

/-- **C27** (no custom headers). -/
theorem C27_none (h : CIDict Str) (opt) (asDict : Bool) :
    composeHeaders h .none opt asDict = .ok ⟨h.iteritems, .none, opt⟩ := rfl

/-- **C27** (errors). Only an argument that is neither a list nor a dict is refused. -/
theorem C27_errors (h : CIDict Str) (arg : HeadersArg) (opt) (asDict : Bool) :
    (∃ e, composeHeaders h arg opt asDict = .error e) ↔ arg = .other := by
  unfold composeHeaders
  cases arg with
  | none => simp
  | list l => simp only; split <;> simp [composeHeaders.finish]
  | dict l => simp only; split <;> simp [composeHeaders.finish]
  | other => simp only; split <;> simp

/-- **C27** (caller's containers). The headers argument is left alone in every case but one: a
dict, wanted as a dict, not joined. The option dict loses the join option and nothing else. -/
theorem C27_containers (h : CIDict Str) (arg : HeadersArg) (opt) (asDict : Bool) (c : Composed)
    (hc : composeHeaders h arg opt asDict = .ok c) :
    ((asDict = false ∨ given opt c!"join_headers" ≠ none ∨ ∀ d, arg ≠ .dict d) → c.headers = arg) ∧
    c.opt = if arg = .none then opt else (popOpt opt c!"join_headers").2 := by
  have hj' := truthy_pop opt c!"join_headers"
  unfold composeHeaders at hc
  simp only [hj'] at hc
  cases arg with
  | none => simp only [Except.ok.injEq] at hc; subst hc; simp
  | list l =>
    simp only at hc
    split at hc <;> (simp only [composeHeaders.finish, Except.ok.injEq] at hc; subst hc; simp)
  | other => simp only at hc; split at hc <;> cases hc
  | dict d =>
    simp only at hc
    split at hc
    · rename_i hcond
      simp only [Except.ok.injEq] at hc; subst hc
      rw [Bool.and_eq_true, Option.isNone_iff_eq_none] at hcond
      refine ⟨?_, by simp⟩
      rintro (h | h | h)
      · rw [h] at hcond; cases hcond.1
      · exact absurd hcond.2 h
      · exact absurd rfl (h d)
    · simp only [composeHeaders.finish, Except.ok.injEq] at hc; subst hc; simp

/-- **C27**, refuted for dicts: the caller's dict afterwards contains the request's headers (for
example its credentials), which a later request built with the same dict then sends too. -/
theorem C27_containers_false :
    (composeHeaders [(c!"authorization", (c!"Authorization", c!"Basic x"))]
      (.dict [(c!"X", c!"1")]) [] true).map (·.headers) =
      .ok (.dict [(c!"X", c!"1"), (c!"Authorization", c!"Basic x")]) := by decide

/-- **C27**, refuted for spellings: names are compared with their case, so a custom
`content-type` is sent beside the request's own `Content-Type`. -/
theorem C27_spelling_false :
    (composeHeaders [(c!"content-type", (c!"Content-Type", c!"a/b"))]
      (.dict [(c!"content-type", c!"c/d")]) [] true).map (·.result) =
      .ok [(c!"content-type", c!"c/d"), (c!"Content-Type", c!"a/b")] := by decide

/-! Non-vacuity. -/
def hdr : CIDict Str := [(c!"accept", (c!"Accept", c!"a")), (c!"x", (c!"X", c!"1"))]
example : (composeHeaders hdr (.list [(c!"X", c!"2"), (c!"Y", c!"3"), (c!"X", c!"4")])
    [(c!"join_headers", some c!"True")] false).map (·.result) =
    .ok [(c!"Accept", c!"a"), (c!"X", c!"1,2,4"), (c!"Y", c!"3")] := by decide
example : (composeHeaders hdr (.list [(c!"X", c!"2"), (c!"Y", c!"3"), (c!"X", c!"4")]) [] true).map
    (·.result) = .ok [(c!"X", c!"1"), (c!"Y", c!"3"), (c!"Accept", c!"a")] := by decide
example : given [(c!"join_headers", some c!"True")] c!"join_headers" ≠ none := by decide
example : pairs (.list [(c!"X", c!"2")]) = some [(c!"X", c!"2")] ∧ given [] c!"join_headers" = none := by
  decide

end Props.C27
