import Mathlib.Data.List.Forall2
import Verif.Proofs.Call
import Verif.Props.C31
/-!
# C32: every parameter is sent in its declared location only
-/

namespace Props.C32
open Py Prim Call Spec.Calls

variable {ω : Type}

/-- **C32**. The request of a successful call is made of the entries of the parameters that have a
value, in the order of their declarations, and of nothing else. -/
theorem C32_request (env : Env ω) (leaf : Prim ω → Except Exc Str) (fuel : Nat) (ps : List Decl)
    (k : Dict Str Val) (s : Sent ω) (h : call env leaf fuel ps k = .ok s) :
    ∃ es, Entries env leaf fuel k ps es ∧
      s.query = queryOf es ∧ s.formData = formOf es ∧
      ∀ n, Dict.get? s.header n = lastOf headerOf n es ∧ Dict.get? s.path n = lastOf pathOf n es ∧
        Dict.get? s.body n = lastOf bodyOf n es ∧ Dict.get? s.file n = lastOf fileOf n es := by
  obtain ⟨h1, h2, h3⟩ := (C31.C31_succeeds env leaf fuel ps k).1 ⟨s, h⟩
  obtain ⟨es, e1, e2⟩ := (convertAll_spec env leaf fuel k ps ({}, [])).1 fun p hp => ⟨h1 p hp, h3 p hp⟩
  unfold call at h
  rw [e2] at h
  simp only [List.nil_append] at h
  rw [if_neg (fun hx => h2 ((C31.unknown_iff e1).1 hx))] at h
  cases h
  refine ⟨es, e1, ?_, ?_, fun n => ⟨?_, ?_, ?_, ?_⟩⟩
  · rw [addAll_query]; rfl
  · rw [addAll_form]; rfl
  · rw [addAll_header]; cases lastOf headerOf n es <;> rfl
  · rw [addAll_path]; cases lastOf pathOf n es <;> rfl
  · rw [addAll_body]; cases lastOf bodyOf n es <;> rfl
  · rw [addAll_file]; cases lastOf fileOf n es <;> rfl

/-- what the request has under the name `n`, location by location -/
structure Under (s : Sent ω) (n : Str) where
  header : Option Str := none
  query : List Str := []
  path : Option Str := none
  body : Option (Prim ω) := none
  formData : List Str := []
  file : Option (FileArg ω) := none

def under (s : Sent ω) (n : Str) : Under s n where
  header := Dict.get? s.header n
  query := (s.query.filter fun e => e.1 = n).map Prod.snd
  path := Dict.get? s.path n
  body := Dict.get? s.body n
  formData := (s.formData.filter fun e => e.1 = n).map Prod.snd
  file := Dict.get? s.file n

/-- an entry alone -/
def only (s : Sent ω) (n : Str) : Entry ω → Under s n
  | .header t => { header := some t }
  | .query ts => { query := ts }
  | .path t => { path := some t }
  | .body c => { body := some c }
  | .formData ts => { formData := ts }
  | .file a => { file := some a }

theorem pairs_filter (n : Str) (f : Entry ω → Option (List Str)) (es : List (Str × Entry ω)) :
    ((es.flatMap fun e => match f e.2 with | some ts => ts.map fun t => (e.1, t) | none => []).filter
      fun e => e.1 = n).map Prod.snd =
    (es.filter fun e => e.1 = n).flatMap fun e => (f e.2).getD [] := by
  induction es with
  | nil => rfl
  | cons e es ih =>
    simp only [List.flatMap_cons, List.filter_append, List.map_append, ih, List.filter_cons]
    by_cases h : e.1 = n
    · simp only [h, decide_true, if_true, List.flatMap_cons]
      congr 1
      cases f e.2 with
      | none => rfl
      | some ts =>
        simp only [Option.getD_some]
        induction ts with
        | nil => rfl
        | cons t ts ih => simpa using ih
    · simp only [h, decide_false, Bool.false_eq_true, if_false]
      have : ((match f e.2 with | some ts => ts.map fun t => (e.1, t) | none => []).filter
          fun e : Str × Str => decide (e.1 = n)) = [] := by
        cases f e.2 with
        | none => rfl
        | some ts => simp [h]
      rw [this]; rfl

def queryTexts : Entry ω → Option (List Str) | .query ts => some ts | _ => none
def formTexts : Entry ω → Option (List Str) | .formData ts => some ts | _ => none

theorem queryOf_eq (es : List (Str × Entry ω)) : queryOf es =
    es.flatMap fun e => match queryTexts e.2 with | some ts => ts.map fun t => (e.1, t) | none => [] := by
  unfold queryOf
  congr 1
  funext e
  obtain ⟨n, e⟩ := e
  cases e <;> rfl

theorem formOf_eq (es : List (Str × Entry ω)) : formOf es =
    es.flatMap fun e => match formTexts e.2 with | some ts => ts.map fun t => (e.1, t) | none => [] := by
  unfold formOf
  congr 1
  funext e
  obtain ⟨n, e⟩ := e
  cases e <;> rfl

theorem lastOf_eq {α : Type} (f : Entry ω → Option α) (n : Str) (es : List (Str × Entry ω)) :
    lastOf f n es = ((es.filter fun e => e.1 = n).filterMap fun e => f e.2).getLast? := by
  unfold lastOf
  congr 1
  induction es with
  | nil => rfl
  | cons e es ih =>
    rw [List.filterMap_cons, List.filter_cons]
    by_cases h : e.1 = n
    · simp only [h, if_true, decide_true, List.filterMap_cons, ih]
    · simp only [h, if_false, decide_false, Bool.false_eq_true, ih]

theorem entries_filter {env : Env ω} {leaf : Prim ω → Except Exc Str} {fuel : Nat} {k : Dict Str Val}
    {ps : List Decl} {es : List (Str × Entry ω)} (h : Entries env leaf fuel k ps es) (n : Str) :
    ∃ es', Entries env leaf fuel k (ps.filter fun p => p.name = n) es' ∧
      (es.filter fun e => e.1 = n) = es' := by
  refine ⟨_, ?_, rfl⟩
  induction ps generalizing es with
  | nil => rw [show es = [] from h]; rfl
  | cons p ps ih =>
    obtain ⟨hm, ⟨hg, h⟩ | ⟨e, es', rfl, hs, h⟩⟩ := h
    · rw [List.filter_cons]
      by_cases hn : p.name = n
      · simp only [hn, decide_true, if_true]
        exact ⟨hm, Or.inl ⟨hg, ih h⟩⟩
      · simp only [hn, decide_false, Bool.false_eq_true, if_false]
        exact ih h
    · rw [List.filter_cons, List.filter_cons]
      by_cases hn : p.name = n
      · simp only [hn, decide_true, if_true]
        exact ⟨hm, Or.inr ⟨e, _, by rw [hn], hs, ih h⟩⟩
      · simp only [hn, decide_false, Bool.false_eq_true, if_false]
        exact ih h

/-- **C32** (one location). When the names of the parameters differ, a parameter with a value
appears in the request under its name exactly as its entry says, and in no other location. -/
theorem C32_only_there (env : Env ω) (leaf : Prim ω → Except Exc Str) (fuel : Nat) (ps : List Decl)
    (k : Dict Str Val) (s : Sent ω) (h : call env leaf fuel ps k = .ok s)
    (hn : (ps.map Decl.name).Nodup) (p : Decl) (hp : p ∈ ps) (v : Val) (hv : given env k p = some v) :
    ∃ c e, prim env fuel p v = .ok c ∧ Becomes env leaf p c e ∧ under s p.name = only s p.name e := by
  obtain ⟨es, h1, h2, h3, h4⟩ := C32_request env leaf fuel ps k s h
  have hf := ((C31.C31_succeeds env leaf fuel ps k).1 ⟨s, h⟩).2.2
  rcases hf p hp with hx | ⟨e, v', c, hv', hc, hb⟩
  · rw [hv] at hx; cases hx
  rw [hv] at hv'; cases hv'
  refine ⟨c, e, hc, hb, ?_⟩
  obtain ⟨es', f1, f2⟩ := entries_filter h1 p.name
  have hone : (ps.filter fun q => q.name = p.name) = [p] := by
    clear h h1 h2 h3 h4 hf f1
    induction ps with
    | nil => cases hp
    | cons q ps ih =>
      rw [List.map_cons, List.nodup_cons] at hn
      rw [List.filter_cons]
      rcases List.mem_cons.1 hp with rfl | hp
      · simp only [decide_true, if_true, List.cons.injEq, true_and, List.filter_eq_nil_iff,
          decide_eq_true_eq]
        intro r hr he
        exact hn.1 (List.mem_map.2 ⟨r, hr, he⟩)
      · have : q.name ≠ p.name := fun he => hn.1 (List.mem_map.2 ⟨p, hp, he.symm⟩)
        simp only [this, decide_false, Bool.false_eq_true, if_false]
        exact ih hn.2 hp
  rw [hone] at f1
  obtain ⟨_, ⟨hg, _⟩ | ⟨e', es'', rfl, hs, hnil⟩⟩ := f1
  · rw [hv] at hg; cases hg
  have hnil : es'' = [] := hnil
  subst hnil
  have : e' = e := sends_unique hs ⟨v, c, hv, hc, hb⟩
  subst this
  obtain ⟨g1, g2, g3, g4⟩ := h4 p.name
  simp only [under, g1, g2, g3, g4, h2, h3, queryOf_eq, formOf_eq, pairs_filter, lastOf_eq, f2]
  cases e' <;> simp [only, queryTexts, formTexts, headerOf, pathOf, bodyOf, fileOf]

/-- **C32** (absent). A name without value, supplied or default, appears nowhere. -/
theorem C32_absent (env : Env ω) (leaf : Prim ω → Except Exc Str) (fuel : Nat) (ps : List Decl)
    (k : Dict Str Val) (s : Sent ω) (h : call env leaf fuel ps k = .ok s) (n : Str)
    (hn : ∀ p ∈ ps, p.name = n → given env k p = none) : under s n = {} := by
  obtain ⟨es, h1, h2, h3, h4⟩ := C32_request env leaf fuel ps k s h
  have f2 : (es.filter fun e => e.1 = n) = [] := by
    rw [List.filter_eq_nil_iff]
    rintro ⟨m, e⟩ he hm
    have hm : m = n := by simpa using hm
    obtain ⟨p, hp, hpn, v, c, hv, _⟩ := (mem_entries h1 m e).1 he
    rw [hn p hp (hpn.trans hm)] at hv; cases hv
  obtain ⟨g1, g2, g3, g4⟩ := h4 n
  simp only [under, g1, g2, g3, g4, h2, h3, queryOf_eq, formOf_eq, pairs_filter, lastOf_eq, f2]
  rfl

/-- **C32** (arrays). The texts of an array in a query or form: one per element for the format
`multi`, else the one text of the array. -/
theorem C32_array_texts (leaf : Prim ω → Except Exc Str) (f : Str) (l : List (Prim ω)) (ts : List Str)
    (h : List.Forall₂ (fun c t => text leaf c = .ok t) l ts) :
    urlTexts leaf f l = toUrl f ts ∧ text leaf (.array f l) = arrayStr f ts := by
  have ht : texts leaf l = .ok ts := by
    induction h with
    | nil => rfl
    | cons a _ ih => simp only [texts, a, ih]
  have hx : text leaf (.array f l) = arrayStr f ts := by
    simp only [text, ht]
    unfold arrayStr
    cases hs : separator f <;> simp
  refine ⟨?_, hx⟩
  unfold urlTexts toUrl
  rw [hx, ht]
  by_cases hm : f = c!"multi"
  · simp [hm]
  · simp only [hm, if_false]
    cases arrayStr f ts <;> rfl

/-- **C32** (body). A body argument is converted by the schema of the parameter, any other argument
by the parameter itself, both for writing. -/
theorem C32_converted_by (env : Env ω) (fuel : Nat) (p : Decl) (v : Val) :
    (∀ sc, p.in_ = c!"body" → p.schema = some sc → prim env fuel p v = convert env fuel sc v false) ∧
    (p.in_ ≠ c!"body" → prim env fuel p v = convert env fuel p.obj v false) := by
  unfold prim
  exact ⟨fun sc h1 h2 => by rw [if_pos h1, h2], fun h => by rw [if_neg h]⟩

/-! ## examples and refutations -/

example : under (ω := Nat) { path := [(c!"id", c!"5")], query := [(c!"limit", c!"20")] } c!"limit" =
    { query := [c!"20"] } := by rfl

/-- an array of integers in the query, pipes or multi -/
def listed (f : Str) : Nat → Node
  | 0 => { type := some c!"array", items := some 1, collectionFormat := some f }
  | _ => { type := some c!"integer" }

example : call (C33.world (listed c!"multi")) C31.leaf 3 [⟨c!"ids", c!"query", true, 0, none⟩]
    [(c!"ids", .list [.int 1, .int 2])] = .ok { query := [(c!"ids", c!"1"), (c!"ids", c!"2")] } := by rfl
example : call (C33.world (listed c!"pipes")) C31.leaf 3 [⟨c!"ids", c!"query", true, 0, none⟩]
    [(c!"ids", .list [.int 1, .int 2])] = .ok { query := [(c!"ids", c!"1|2")] } := by rfl

/-- An explicit `None` is not the same as no argument: it is sent as the text of `None`. -/
theorem C32_none_sent (name : Str) :
    call (C33.world C31.objs) C31.leaf 2 [⟨name, c!"query", false, 0, none⟩] [(name, .none)] =
      .ok { query := [(name, c!"None")] } := by
  simp [call, convertAll, convertParameter, value, Dict.has, Dict.get?, C33.world, C31.objs, Dict.keys,
    prim, convert, produce, produceBody, place, asArray, text, C31.leaf]

end Props.C32
