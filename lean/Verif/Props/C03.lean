import Verif.Props.C02
/-!
# C03: a scan visits every object exactly once, parents first, and skips below leaves
-/

namespace Props.C03
open Py Utils Tree Scan Spec Spec.Places Proofs.ScanTree

/-- **C03** (which). The objects visited are exactly those standing somewhere in the tree not below
an object of a leaf class, each under the pointer of its place. -/
theorem C03_visited (root : Tree) (leaves : List Nat) (hw : WF root) (hr : isObj root = true)
    (p : Str) (o : Tree) :
    (p, o) ∈ traversal root leaves ↔ isObj o = true ∧ ∃ ts, p = pointer ts ∧ At leaves root ts o := by
  obtain ⟨out, h1, h2, _⟩ := C02.traversal_spec root leaves hw hr
  rw [h1]
  simp only [onStack, List.mem_map]
  constructor
  · rintro ⟨⟨ts, u⟩, hx, e⟩
    cases e
    exact ⟨((h2 ts u).1 hx).1, ts, rfl, ((h2 ts u).1 hx).2⟩
  · rintro ⟨ho, ts, rfl, h⟩
    exact ⟨(ts, o), (h2 ts o).2 ⟨ho, h⟩, rfl⟩

/-- **C03** (once, parents first). No path is shown twice, and an object is never shown after
something below it: whatever comes later does not stand at or above an earlier place. -/
theorem C03_order (root : Tree) (leaves : List Nat) (hw : WF root) (hr : isObj root = true) :
    ((traversal root leaves).map Prod.fst).Nodup ∧
    ∃ places : List (List Str), (traversal root leaves).map Prod.fst = places.map pointer ∧
      places.Pairwise (fun a b => ¬ b <+: a) := by
  obtain ⟨out, h1, _, h3⟩ := C02.traversal_spec root leaves hw hr
  have hp : (out.map Prod.fst).Pairwise (fun a b => ¬ b <+: a) := by
    rw [List.pairwise_map]; exact h3
  have he : (traversal root leaves).map Prod.fst = (out.map Prod.fst).map pointer := by
    rw [h1]; simp [onStack]
  refine ⟨?_, out.map Prod.fst, he, hp⟩
  rw [he, List.nodup_iff_pairwise_ne, List.pairwise_map]
  exact hp.imp fun h e => h (by rw [pointer_inj e]; exact List.prefix_refl _)

/-- **C03** (root). The root comes first. -/
theorem C03_root (root : Tree) (leaves : List Nat) (hr : isObj root = true) :
    ∃ rest, traversal root leaves = (['#'], root) :: rest := by
  cases root with
  | obj c fs => unfold traversal; rw [walk]; exact ⟨_, rfl⟩
  | _ => cases hr

/-! ## handlers -/

variable {η : Type}

/-- the handlers a history of registrations gives a class, in order -/
def handlersOf (history : List (List Nat × η)) (t : Nat) : List η :=
  history.flatMap fun h => (h.1.filter (· = t)).map fun _ => h.2

theorem get_addRoute (route : Dict Nat (List η)) (t k : Nat) (f : η) :
    (Dict.get? (addRoute route t f) k).getD [] =
      (Dict.get? route k).getD [] ++ if t = k then [f] else [] := by
  unfold addRoute
  cases h : Dict.get? route t with
  | some fs =>
    simp only [Dict.get?_set]
    by_cases e : t = k
    · subst e; simp [h]
    · have e' : ¬ k = t := fun x => e x.symm
      simp [e, e']
  | none =>
    simp only [Dict.get?_set]
    by_cases e : t = k
    · subst e; simp [h]
    · have e' : ¬ k = t := fun x => e x.symm
      simp [e, e']

theorem get_register (route : Dict Nat (List η)) (ts : List Nat) (k : Nat) (f : η) :
    (Dict.get? (register route ts f) k).getD [] =
      (Dict.get? route k).getD [] ++ (ts.filter (· = k)).map fun _ => f := by
  unfold register
  induction ts generalizing route with
  | nil => simp
  | cons t ts ih =>
    rw [List.foldl_cons, ih, get_addRoute, List.filter_cons]
    by_cases e : t = k <;> simp [e]

theorem get_registered (history : List (List Nat × η)) (k : Nat) :
    (Dict.get? (registered history) k).getD [] = handlersOf history k := by
  unfold registered handlersOf
  suffices H : ∀ route : Dict Nat (List η),
      (Dict.get? (history.foldl (fun r h => register r h.1 h.2) route) k).getD [] =
        (Dict.get? route k).getD [] ++
          history.flatMap fun h => (h.1.filter (· = k)).map fun _ => h.2 from by
    simpa using H []
  induction history with
  | nil => intro route; simp
  | cons h history ih => intro route; rw [List.foldl_cons, ih, get_register]; simp

/-- **C03** (handlers). For every visit, in order, and every route, in order, the handlers
registered for the classes of the object are called, most derived class first, with the path and
the object. A missing root raises `ValueError`. -/
theorem C03_calls (mro : Nat → List Nat) (routes : List (Nat × List (List Nat × η)))
    (root : Option Tree) (leaves : List Nat) :
    scan mro (routes.map fun r => (r.1, registered r.2)) root leaves =
      match root with
      | none => .error .ValueError
      | some root => .ok ((traversal root leaves).flatMap fun v =>
          routes.flatMap fun r => (((cls? v.2).toList.flatMap mro).flatMap (handlersOf r.2)).map
            fun f => ⟨r.1, f, v.1, v.2⟩) := by
  cases root with
  | none => rfl
  | some root =>
    simp only [scan, Except.ok.injEq]
    congr 1
    funext v
    unfold handlers
    cases cls? v.2 with
    | none => simp
    | some c =>
      have hk : ∀ (r : Nat × List (List Nat × η)) (k : Nat),
          ((match Dict.get? (registered r.2) k with
            | some fs => fs.map fun f => (r.1, f)
            | none => []).map fun h : Nat × η => (⟨h.1, h.2, v.1, v.2⟩ : Called η)) =
          (handlersOf r.2 k).map fun f => ⟨r.1, f, v.1, v.2⟩ := by
        intro r k
        rw [← get_registered]
        cases Dict.get? (registered r.2) k with
        | none => rfl
        | some fs => simp
      simp only [List.flatMap_map, List.map_flatMap, Option.toList_some, List.flatMap_cons,
        List.flatMap_nil, List.append_nil]
      congr 1
      funext r
      congr 1
      funext k
      exact hk r k

theorem filter_flatMap_once [DecidableEq η] (f : η) (k : Nat) (ks : List Nat) (hks : ks.Nodup)
    (history : List (List Nat × η))
    (hf : ∀ t, (handlersOf history t).filter (· = f) = if t = k then [f] else []) :
    (ks.flatMap (handlersOf history)).filter (· = f) = if k ∈ ks then [f] else [] := by
  induction ks with
  | nil => rfl
  | cons t ks ih =>
    rw [List.nodup_cons] at hks
    rw [List.flatMap_cons, List.filter_append, hf, ih hks.2]
    by_cases e : t = k
    · subst e; simp [hks.1]
    · have e' : ¬ k = t := fun x => e x.symm
      simp [e, e']

/-- **C03** (once per visit). A handler registered once, for one class, sees exactly the visited
objects of that class (or of classes derived from it), each once, in the order of the visits. -/
theorem C03_sees [DecidableEq η] (mro : Nat → List Nat) (hm : ∀ c, (mro c).Nodup)
    (history : List (List Nat × η)) (root : Tree) (leaves : List Nat) (f : η) (k : Nat)
    (hf : ∀ t, (handlersOf history t).filter (· = f) = if t = k then [f] else [])
    (calls : List (Called η))
    (h : scan mro [(0, registered history)] (some root) leaves = .ok calls) :
    ((calls.filter fun c => c.handler = f).map fun c => (c.path, c.obj)) =
      (traversal root leaves).filter fun v => (cls? v.2).any fun c => k ∈ mro c := by
  have hc := C03_calls mro [(0, history)] (some root) leaves
  simp only [List.map_cons, List.map_nil] at hc
  rw [hc] at h
  cases h
  simp only [List.flatMap_cons, List.flatMap_nil, List.append_nil]
  generalize traversal root leaves = l
  induction l with
  | nil => rfl
  | cons v l ih =>
    rw [List.flatMap_cons, List.filter_append, List.map_append, ih, List.filter_cons, List.filter_map]
    have hcomp : ((fun c : Called η => decide (c.handler = f)) ∘ fun g : η => ⟨0, g, v.1, v.2⟩) =
        fun g => decide (g = f) := rfl
    rw [hcomp]
    cases hv : cls? v.2 with
    | none => simp
    | some c =>
      simp only [Option.toList_some, List.flatMap_cons, List.flatMap_nil, List.append_nil,
        filter_flatMap_once f k (mro c) (hm c) history hf]
      by_cases hk : k ∈ mro c <;> simp [hk]

/-! ## examples -/

/-- `Operation` is class 1, `Parameter` is 2 with base 4; one handler for each -/
def hist : List (List Nat × Str) := [([1], c!"op"), ([4, 3], c!"schema")]
def mro (c : Nat) : List Nat := if c = 2 then [2, 4] else [c]

example : (traversal C02.doc [1]).map Prod.fst =
    [c!"#", c!"#/paths/~1c", c!"#/paths/~1a~0b", c!"#/paths/~1a~0b/get"] := by decide +kernel

example : ∃ calls, scan mro [(0, registered hist)] (some C02.doc) [] = .ok calls ∧
    calls.map (fun c => (c.handler, c.path)) =
      [(c!"schema", c!"#/paths/~1c"), (c!"schema", c!"#/paths/~1a~0b"), (c!"op", c!"#/paths/~1a~0b/get"),
       (c!"schema", c!"#/paths/~1a~0b/get/parameters/1"), (c!"schema", c!"#/paths/~1a~0b/get/parameters/0")] :=
  ⟨_, rfl, by decide +kernel⟩

example : ∀ t, (handlersOf hist t).filter (· = c!"op") = if t = 1 then [c!"op"] else [] := by
  intro t
  by_cases h1 : t = 1
  · subst h1; decide
  · by_cases h4 : t = 4
    · subst h4; decide
    · by_cases h3 : t = 3
      · subst h3; decide
      · have e1 : ¬ 1 = t := fun e => h1 e.symm
        have e4 : ¬ 4 = t := fun e => h4 e.symm
        have e3 : ¬ 3 = t := fun e => h3 e.symm
        simp [handlersOf, hist, h1, e1, e4, e3]

/-- A handler registered for a class and for one of its bases is called twice per visit. -/
theorem C03_twice_false :
    ¬ ∀ (history : List (List Nat × Str)) (calls : List (Called Str)) (f : Str),
      scan mro [(0, registered history)] (some C02.doc) [] = .ok calls →
      ((calls.filter fun c => c.handler = f).map fun c => c.path).Nodup := by
  intro H
  have h := H [([2, 4], c!"f")] _ c!"f" rfl
  revert h
  decide +kernel

end Props.C03
