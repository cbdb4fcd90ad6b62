import Verif.Proofs.AppResolve
/-!
# C47: `app.resolve` returns the object the reference names, cached or not

`den` says what references mean and `R` is the set of references in play (`Spec.AppResolve.Meaning`).
What holds: whatever was resolved before, an object returned for a reference of `R` is the one the
reference means, and once resolved it is found again. The hypothesis that no pointer of `R` is the
beginning of another one as a text is needed: without it the wrong object is returned.
-/

namespace Props.C47
open Py Utils Tree Spec.Places _root_.AppResolve Spec.AppResolve Proofs.AppResolve

variable {a : App} {den : Str → List Str → Except Exc Tree} {R : Str → List Str → Prop}

/-- a sequence of calls of `app.resolve` (reference, parser), from the cache `objs` on -/
def run (a : App) (n : Nat) (objs : Objs) : List (Str × Option Nat) → Objs
  | [] => objs
  | (r, p) :: calls => run a n (AppResolve.resolve a n objs r p).2 calls

/-- the references called are in play -/
def InPlay (a : App) (R : Str → List Str → Prop) (r u : Str) (ts : List Str) : Prop :=
  jr_split a.path2url a.abspath r = .ok (u, pointer ts) ∧ R u ts

theorem run_coherent (M : Meaning a den R) {n : Nat} {calls : List (Str × Option Nat)} {objs : Objs}
    (hc : Coherent den R objs) (h : ∀ c ∈ calls, ∃ u ts, InPlay a R c.1 u ts) : Coherent den R (run a n objs calls) := by
  induction calls generalizing objs with
  | nil => exact hc
  | cons c calls ih =>
    obtain ⟨u, ts, h1, h2⟩ := h c (by simp)
    exact ih (resolve_ok M n objs c.1 u ts c.2 hc h1 h2).1 fun c hm => h c (by simp [hm])

/-- Whatever was resolved before (starting without cache), an object that is returned is the one the
reference means. -/
theorem C47_right (M : Meaning a den R) {n : Nat} {calls : List (Str × Option Nat)}
    (h : ∀ c ∈ calls, ∃ u ts, InPlay a R c.1 u ts) {r u : Str} {ts : List Str} (hr : InPlay a R r u ts)
    (p : Option Nat) {t : Tree} {objs : Objs}
    (ht : AppResolve.resolve a n (run a n [] calls) r p = (.ok t, objs)) : den u ts = .ok t := by
  have hc : Coherent den R [] := fun _ => trivial
  have := resolve_ok M n _ r u ts p (run_coherent M (n := n) hc h) hr.1 hr.2
  rw [ht] at this
  exact (this.2.2 t rfl).1

/-- Once a reference was resolved, it keeps its object: after any further calls it is returned
again, whatever the parser, and the cache does not change. -/
theorem C47_again (M : Meaning a den R) {n m : Nat} {calls more : List (Str × Option Nat)}
    (h : ∀ c ∈ calls ++ more, ∃ u ts, InPlay a R c.1 u ts) {r u : Str} {ts : List Str} (hr : InPlay a R r u ts)
    (hu : u ≠ []) (p p' : Option Nat) {t : Tree} {objs : Objs}
    (ht : AppResolve.resolve a n (run a n [] calls) r p = (.ok t, objs)) :
    AppResolve.resolve a (m + 1) (run a n objs more) r p' = (.ok t, run a n objs more) := by
  have hc : Coherent den R [] := fun _ => trivial
  have h1 := run_coherent M (n := n) hc fun c hm => h c (List.mem_append_left _ hm)
  have := resolve_ok M n _ r u ts p h1 hr.1 hr.2
  rw [ht] at this
  obtain ⟨g1, _, g3⟩ := this
  obtain ⟨g4, g5, g6⟩ := g3 t rfl
  have hne : r ≠ [] := by
    rintro rfl
    have : AppResolve.resolve a n (run a n [] calls) [] p = (.ok t, objs) := ht
    cases n <;> simp [AppResolve.resolve] at this
  have key : ∀ (more : List (Str × Option Nat)) (objs : Objs), Coherent den R objs → Covers objs u ts →
      (∀ c ∈ more, ∃ u ts, InPlay a R c.1 u ts) →
      Coherent den R (run a n objs more) ∧ Covers (run a n objs more) u ts := by
    intro more
    induction more with
    | nil => intro objs h1 h2 _; exact ⟨h1, h2⟩
    | cons c more ih =>
      intro objs h1 h2 h3
      obtain ⟨v, us, e1, e2⟩ := h3 c (by simp)
      have hg := resolve_ok M n objs c.1 v us c.2 h1 e1 e2
      exact ih _ hg.1 (hg.2.1 u ts h2) fun c hm => h3 c (by simp [hm])
  have hk := key more objs g1 (g6 hu) fun c hm => h c (List.mem_append_right _ hm)
  exact resolve_covered M hk.1 hne hr.1 hr.2 hk.2 g4 g5 m p'

/-- References below a resolved one are answered from the cache, too. -/
theorem C47_below (M : Meaning a den R) {n m : Nat} {calls : List (Str × Option Nat)}
    (h : ∀ c ∈ calls, ∃ u ts, InPlay a R c.1 u ts) {r u : Str} {ts : List Str} (hr : InPlay a R r u ts)
    (hu : u ≠ []) (p p' : Option Nat) {t : Tree} {objs : Objs}
    (ht : AppResolve.resolve a n (run a n [] calls) r p = (.ok t, objs))
    {r' : Str} {us : List Str} (hr' : InPlay a R r' u (ts ++ us)) (hne : r' ≠ []) {w : Tree}
    (hw : den u (ts ++ us) = .ok w) (hs : w ≠ .atom .none) (hs2 : ∀ x, w ≠ .atom (.float x)) :
    AppResolve.resolve a (m + 1) objs r' p' = (.ok w, objs) := by
  have hc : Coherent den R [] := fun _ => trivial
  have h1 := run_coherent M (n := n) hc h
  have := resolve_ok M n _ r u ts p h1 hr.1 hr.2
  rw [ht] at this
  obtain ⟨g1, _, g3⟩ := this
  obtain ⟨g4, g5, g6⟩ := g3 t rfl
  have hcov : Covers objs u (ts ++ us) := by
    have := g6 hu
    unfold Covers at *
    dsimp only at this
    cases ho : Dict.get? objs u with
    | none => rw [ho] at this; exact this
    | some o =>
      rw [ho] at this
      cases o with
      | whole _ => trivial
      | parts d =>
        obtain ⟨ks, h1, h2⟩ := this
        exact ⟨ks, h1.trans (List.prefix_append _ _), h2⟩
  refine resolve_covered M g1 hne hr'.1 hr'.2 hcov hw ?_ m p'
  unfold wrap
  split
  · exact absurd rfl hs
  · next x => exact absurd rfl (hs2 x)
  · rfl

/-- A local reference (without URL) is followed from the root, and never cached. -/
theorem C47_local {n : Nat} {r : Str} {ts : List Str} (objs : Objs) (ho : Dict.get? objs [] = none) (hne : r ≠ [])
    (hj : jr_split a.path2url a.abspath r = .ok ([], pointer ts)) (p : Option Nat) {t : Tree}
    (ht : Tree.resolve ts a.root = .ok t) (hs : t ≠ .atom .none) (hs2 : ∀ x, t ≠ .atom (.float x)) :
    AppResolve.resolve a (n + 1) objs r p = (.ok t, objs) := by
  rw [AppResolve.resolve, if_neg hne, hj]
  dsimp only
  rw [ho]
  simp only [lookup, loadRef, ne_eq, not_true_eq_false, if_false]
  rw [Proofs.ScanTree.split_pointer, List.tail_cons, ht]
  dsimp only
  unfold wrap
  split
  · exact absurd rfl hs
  · next x => exact absurd rfl (hs2 x)
  · rfl

/-- a sequence of calls of `app.resolve`, none of which raises, from one cache to another -/
def AllOk (a : App) (n : Nat) (objs : Objs) : List (Str × Option Nat) → Objs → Prop
  | [], objs' => objs = objs'
  | (r, p) :: calls, objs' => ∃ t mid, AppResolve.resolve a n objs r p = (.ok t, mid) ∧ AllOk a n mid calls objs'

/-- As long as no call has raised, every `$ref` inside of every object in the cache means a schema. -/
theorem C47_closed (M : Meaning a den R) {n : Nat} {calls : List (Str × Option Nat)}
    (h : ∀ c ∈ calls, ∃ u ts, InPlay a R c.1 u ts) {objs : Objs} (hok : AllOk a n [] calls objs)
    {u k : Str} {t : Tree} (ht : Stored objs u k t) {r : Str} (hr : r ∈ a.refs t) :
    ∃ v us s, jr_split a.path2url a.abspath r = .ok (v, pointer us) ∧ den v us = .ok s ∧ a.isSchema s = true := by
  have key : ∀ (calls : List (Str × Option Nat)) (objs0 : Objs), (∀ c ∈ calls, ∃ u ts, InPlay a R c.1 u ts) →
      Coherent den R objs0 → Settled a den (fun _ _ => False) objs0 → AllOk a n objs0 calls objs →
      Settled a den (fun _ _ => False) objs := by
    intro calls
    induction calls with
    | nil => intro objs0 _ _ hs e; cases e; exact hs
    | cons c calls ih =>
      intro objs0 h hc hs ⟨t, mid, h1, h2⟩
      obtain ⟨u, ts, h3, h4⟩ := h c (by simp)
      have g1 := (resolve_ok M n objs0 c.1 u ts c.2 hc h3 h4).1
      rw [h1] at g1
      exact ih mid (fun c hm => h c (by simp [hm])) g1
        (resolve_settled M n _ objs0 c.1 u ts c.2 t mid hc h3 h4 hs h1) h2
  have hs := key calls [] h (fun _ => trivial) (fun _ _ _ h => by
    rcases h with ⟨_, h⟩ | ⟨_, h, _⟩ <;> simp [Dict.get?] at h) hok
  rcases hs u k t ht with h | h
  · exact h.elim
  · exact h r hr

/-- `False`, `0`, `''`, `[]` and `{}` -/
def isEmpty : Tree → Bool
  | .atom (.bool b) => !b
  | .atom (.int i) => i == 0
  | .atom (.str s) => s.isEmpty
  | .list l => l.isEmpty
  | .dict d => d.isEmpty
  | _ => false

/-- A first resolution of an object with one local `$ref` checks the target: an empty one is refused
with `ReferenceError`, anything else that is no schema with `TypeError`. -/
theorem C47_refused (n : Nat) {r u r' : Str} {ts us : List Str} (p : Option Nat) {t s : Tree}
    (hj : jr_split a.path2url a.abspath r = .ok (u, pointer ts)) (hu : u ≠ []) (hr : r ≠ [])
    (ht : a.fresh u (pointer ts) p = .ok t) (hone : a.refs t = [r']) (hr' : r' ≠ [])
    (hj' : jr_split a.path2url a.abspath r' = .ok ([], pointer us)) (hs : Tree.resolve us a.root = .ok s)
    (hn : s ≠ .atom .none) (hf : ∀ x, s ≠ .atom (.float x)) :
    (AppResolve.resolve a (n + 2) [] r p).1 =
      if isEmpty s = true then .error .ReferenceError
      else if a.isSchema s = true then wrap t else .error .TypeError := by
  have hfind : ∀ objs, Dict.get? objs [] = none →
      AppResolve.resolve a (n + 1) objs r' (some a.schemaContext) = (.ok s, objs) := fun objs ho =>
    C47_local objs ho hr' hj' _ hs hn hf
  rw [AppResolve.resolve, if_neg hr, hj]
  have hget : ∀ c : Cached, Dict.get? (Dict.set ([] : Objs) u c) [] = none := by
    intro c
    rw [Dict.get?_set, if_neg (Ne.symm hu)]; rfl
  simp only [lookup, Dict.get?, loadRef, if_pos hu, ht, prepare_obj, store, hone, resolveRefs, hfind _ (hget _)]
  have htr : truthy s = !(isEmpty s) := by
    cases s with
    | atom x =>
      cases x with
      | none => exact absurd rfl hn
      | bool b => cases b <;> rfl
      | int i => by_cases h : i = 0 <;> simp [truthy, isEmpty, h]
      | float x => exact absurd rfl (hf x)
      | str w => rfl
    | list l => rfl
    | dict d => rfl
    | obj c fs => rfl
  rw [htr]
  generalize isEmpty s = b
  cases b <;> cases a.isSchema s <;> simp

/-! ## Cases -/

/-- a schema, with a type and possibly a `$ref` -/
def schema (ty : String) (ref : String := "") : Tree :=
  .obj 7 [(c!"type", .atom (.str ty.toList)), (c!"$ref", .atom (.str ref.toList))]

def theDoc (xs : List (String × Tree)) : Tree :=
  .obj 1 [(c!"definitions", .dict (xs.map fun x => (x.1.toList, x.2)))]

/-- the value of a text field of an object -/
def text (n : Str) : Tree → Str
  | .obj _ fs => match Dict.get? fs n with
    | some (.atom (.str s)) => s
    | _ => []
  | _ => []

/-- an application whose references go into one document -/
def app (doc : Tree) : App where
  root := .atom .none
  fresh u jp _ := if u = c!"http://h/a" then Tree.resolve (jp_split (some jp)).tail doc else .error .OSError
  refs t := if text c!"$ref" t = [] then [] else [text c!"$ref" t]
  schemaContext := 3
  isSchema t := Tree.cls? t == some 7
  path2url := id
  abspath := id

def ref (n : String) : Str := c!"http://h/a#/definitions/" ++ n.toList

/-- the type of what is returned, or the exception -/
def kind (r : Except Exc Tree × Objs) : Except Exc Str := r.1.map (text c!"type")

def world : Tree := theDoc [("User", schema "object" "http://h/a#/definitions/Id"), ("Id", schema "integer")]

/-- the meaning of references into that document -/
def mean (u : Str) (ts : List Str) : Except Exc Tree :=
  if u = c!"http://h/a" then Tree.resolve ts world
  else if u = [] then Tree.resolve ts (.atom .none) else .error .OSError

theorem resolve_append (ts us : List Str) (t t' : Tree) (h : Tree.resolve ts t = .ok t') :
    Tree.resolve (ts ++ us) t = Tree.resolve us t' := by
  induction ts generalizing t with
  | nil => simp [Tree.resolve] at h; subst h; rfl
  | cons x ts ih =>
    cases t with
    | atom a => rw [List.cons_append, Tree.resolve]; rw [Tree.resolve] at h; exact ih _ h
    | list l =>
      rw [List.cons_append, Tree.resolve]; rw [Tree.resolve] at h
      split at h
      · cases h
      · next i hi =>
        split at h
        · next v hv => exact ih _ h
        · cases h
    | dict d =>
      rw [List.cons_append, Tree.resolve]; rw [Tree.resolve] at h
      split at h
      · next v hv => exact ih _ h
      · cases h
    | obj c fs =>
      rw [List.cons_append, Tree.resolve]; rw [Tree.resolve] at h
      split at h
      · next v hv => exact ih _ h
      · cases h

/-- the two references of the document -/
def Two (u : Str) (ts : List Str) : Prop :=
  u = c!"http://h/a" ∧ (ts = [c!"definitions", c!"User"] ∨ ts = [c!"definitions", c!"Id"])

/-- the hypotheses of the theorems can be met -/
example : Meaning (app world) mean Two where
  fresh := by
    rintro u ts p _ ⟨rfl, _⟩
    simp only [app, mean, if_true]
    rw [Proofs.ScanTree.split_pointer]; rfl
  below := by
    intro u ts us t h
    unfold mean at *
    split at h
    · rw [if_pos (by assumption)]; exact resolve_append ts us _ _ h
    · split at h
      · rw [if_neg (by assumption), if_pos (by assumption)]; exact resolve_append ts us _ _ h
      · cases h
  root := by
    intro ts
    simp [mean, app]
  refs := by
    rintro u ts t r ⟨rfl, rfl | rfl⟩ ht hm
    · have : t = schema "object" "http://h/a#/definitions/Id" := by
        simp [mean, world, theDoc, Tree.resolve, Dict.get?] at ht
        exact ht.symm
      subst this
      simp [app, text, schema, Dict.get?] at hm
      subst hm
      exact ⟨c!"http://h/a", [c!"definitions", c!"Id"], by decide +kernel, rfl, Or.inr rfl⟩
    · have : t = schema "integer" := by
        simp [mean, world, theDoc, Tree.resolve, Dict.get?] at ht
        exact ht.symm
      subst this
      simp [app, text, schema, Dict.get?] at hm
  separate := by
    rintro u ts us ⟨rfl, rfl | rfl⟩ ⟨_, rfl | rfl⟩ h
    · exact List.prefix_refl _
    · exact absurd h (by decide +kernel)
    · exact absurd h (by decide +kernel)
    · exact List.prefix_refl _

example : kind (AppResolve.resolve (app world) 9 [] (ref "User") none) = .ok c!"object" := by decide +kernel
example : kind (AppResolve.resolve (app world) 9 (run (app world) 9 [] [(ref "User", none)]) (ref "Id") none)
    = .ok c!"integer" := by decide +kernel

/-- the hypotheses of `C47_refused` can be met: a local `$ref` to a property table -/
def odd (target : Tree) : App :=
  { app (theDoc [("User", schema "object" "#/x")]) with root := .obj 1 [(c!"x", target)] }

example : kind (AppResolve.resolve (odd (.dict [])) 9 [] (ref "User") none) = .error .ReferenceError := by decide +kernel
example : kind (AppResolve.resolve (odd (.dict [(c!"a", schema "object")])) 9 [] (ref "User") none)
    = .error .TypeError := by decide +kernel
example : kind (AppResolve.resolve (odd (schema "integer")) 9 [] (ref "User") none) = .ok c!"object" := by decide +kernel

/-- Afresh, `UserList` is an array; after `User` was resolved, `User` is returned for it, because
its pointer begins with the text of the cached one. -/
theorem C47_prefix_false : ∃ a : App,
    kind (AppResolve.resolve a 9 [] (ref "UserList") none) = .ok c!"array" ∧
    kind (AppResolve.resolve a 9 (run a 9 [] [(ref "User", none)]) (ref "UserList") none) = .ok c!"object" :=
  ⟨app (theDoc [("User", schema "object"), ("UserList", schema "array")]),
    by decide +kernel, by decide +kernel⟩

/-- A schema whose own `$ref` dangles: resolving it raises the first time, and returns it the second
time. -/
theorem C47_retry_false : ∃ a : App,
    kind (AppResolve.resolve a 9 [] (ref "User") none) = .error .KeyError ∧
    kind (AppResolve.resolve a 9 (run a 9 [] [(ref "User", none)]) (ref "User") none) = .ok c!"object" :=
  ⟨app (theDoc [("User", schema "object" "http://h/a#/definitions/Gone")]),
    by decide +kernel, by decide +kernel⟩

end Props.C47
