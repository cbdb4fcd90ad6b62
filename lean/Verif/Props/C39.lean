import Verif.Proofs.PrimEnds
/-!
# C39: Converting a value terminates for every schema graph

`fuel` is the depth of the Python stack; `RecursionError` is what happens when it is exhausted. A
conversion terminates when it has a result (a value or another exception) that it reaches with
some finite stack, and every deeper stack.
-/

namespace Props.C39
open Py Utils Prim Needs

variable {ω : Type}

/-- the conversion ends: with enough stack it always has the same result, which is a value or an
exception other than the exhaustion of the stack -/
def Ends (env : Env ω) (id : Nat) (v : Val) (read : Bool) : Prop :=
  ∃ r, r ≠ .error .RecursionError ∧ ∃ F, ∀ fuel, F ≤ fuel → convert env fuel id v read = r

/-- the graph of objects is finite: every `$ref` leads to one of the objects below `N` -/
def Finite (env : Env ω) (N : Nat) : Prop := ∀ i t, env.deref i = .ok t → t < N

/-- **C39**: more stack never changes the outcome of a conversion that did not exhaust it. -/
theorem C39_stack (env : Env ω) (id : Nat) (v : Val) (read : Bool) (fuel fuel' : Nat)
    (h : fuel ≤ fuel') (hr : convert env fuel id v read ≠ .error .RecursionError) :
    convert env fuel' id v read = convert env fuel id v read :=
  convert_deeper env h id v read rfl hr

theorem bound {α : Type} (P : Nat → α → Prop) (hm : ∀ F F' x, F ≤ F' → P F x → P F' x) :
    ∀ l : List α, (∀ x ∈ l, ∃ F, P F x) → ∃ F, ∀ x ∈ l, P F x
  | [], _ => ⟨0, by simp⟩
  | a :: l, h => by
    obtain ⟨F, hF⟩ := h a (by simp)
    obtain ⟨G, hG⟩ := bound P hm l fun x hx => h x (by simp [hx])
    refine ⟨max F G, fun x hx => ?_⟩
    rcases List.mem_cons.1 hx with hx | hx
    · exact hx ▸ hm F _ _ (by omega) hF
    · exact hm G _ _ (by omega) (hG x hx)

/-- the values of a dict -/
def vals : Val → List Val
  | .dict d => d.map Prod.snd
  | _ => []

/-- everything a conversion can lead to, as a list -/
def succs (env : Env ω) (N : Nat) (w : Val) : List (Nat × Val) :=
  (List.range N).flatMap fun t =>
    (env.node t).items.toList.flatMap (fun it => (pieces w).map fun e => (it, e)) ++
    ((env.node t).properties.flatMap (fun e => (vals w).map fun x => (e.2, x)) ++
    ((env.node t).properties.map (fun e => (e.2, (env.node e.2).default)) ++
    match (env.node t).additional with
    | .schema p => (vals w).map fun x => (p, x)
    | _ => []))

theorem together_lt {env : Env ω} {N : Nat} (hN : Finite env N) {id t : Nat} (h : Together env id t) : t < N := by
  cases h with
  | self h => exact hN _ _ h
  | allOf _ _ h => exact hN _ _ h
  | again _ h => exact hN _ _ h

theorem leads_mem {env : Env ω} {N : Nat} (hN : Finite env N) {q p : Nat × Val} (h : Leads env q p) :
    q ∈ succs env N (given env p.1 p.2) := by
  cases h with
  | item ht hi he =>
    refine List.mem_flatMap.2 ⟨_, List.mem_range.2 (together_lt hN ht), ?_⟩
    simp only [List.mem_append]
    left
    rw [hi]
    simpa using he
  | property ht hp hw hx =>
    refine List.mem_flatMap.2 ⟨_, List.mem_range.2 (together_lt hN ht), ?_⟩
    simp only [List.mem_append]
    right; left
    refine List.mem_flatMap.2 ⟨_, hp, List.mem_map.2 ⟨_, ?_, rfl⟩⟩
    rw [hw]
    exact List.mem_map.2 ⟨_, hx, rfl⟩
  | default ht hp hw hs =>
    refine List.mem_flatMap.2 ⟨_, List.mem_range.2 (together_lt hN ht), ?_⟩
    simp only [List.mem_append]
    right; right; left
    exact List.mem_map.2 ⟨_, hp, rfl⟩
  | additional ht ha hw hx =>
    refine List.mem_flatMap.2 ⟨_, List.mem_range.2 (together_lt hN ht), ?_⟩
    simp only [List.mem_append]
    right; right; right
    rw [ha, hw]
    exact List.mem_map.2 ⟨_, List.mem_map.2 ⟨_, hx, rfl⟩, rfl⟩

/-- the call does not run out of stack from some depth on -/
def Deep (env : Env ω) (F : Nat) (p : Nat × Val) : Prop :=
  ∀ fuel, F ≤ fuel → ∀ read, produce env fuel p.1 p.2 { read := read } ≠ .error .RecursionError

theorem deep_of_acc (env : Env ω) (hq : Quiet env) (N : Nat) (hN : Finite env N) (p : Nat × Val)
    (h : Acc (Leads env) p) : ∃ F, Deep env F p := by
  induction h with
  | intro p _ ih =>
    obtain ⟨id, v⟩ := p
    obtain ⟨F, hF⟩ := bound (fun F q => Leads env q (id, v) → Deep env F q)
      (fun F F' x h h1 h2 fuel hf => h1 h2 fuel (by omega)) (succs env N (given env id v))
      (fun q _ => by
        by_cases hl : Leads env q (id, v)
        · obtain ⟨F, hF⟩ := ih q hl
          exact ⟨F, fun _ => hF⟩
        · exact ⟨0, fun h => absurd h hl⟩)
    have hsub : ∀ q, Leads env q (id, v) → ∀ fuel, F ≤ fuel →
        nested (produce env fuel) q.1 q.2 ≠ .error .RecursionError := by
      intro q hl fuel hf
      have := hF q (leads_mem hN hl) hl fuel hf true
      unfold nested
      intro h
      split at h
      · cases h
      · rename_i e he
        cases h
        exact this he
    have hcalls : ∀ fuel, F ≤ fuel → Calls env (Together env id) (given env id v) (produce env fuel) := by
      intro fuel hf
      exact ⟨fun t it e ht hi he => hsub (it, e) (.item ht hi he) fuel hf,
        fun t k p d x ht hp hw hx => hsub (p, x) (.property ht hp hw hx) fuel hf,
        fun t k p d ht hp hw hs => hsub (p, (env.node p).default) (.default ht hp hw hs) fuel hf,
        fun t k p d x ht hp hw hx => hsub (p, x) (.additional ht hp hw hx) fuel hf⟩
    refine ⟨F + (N + 1), fun fuel hf read => ?_⟩
    by_cases hv : given env id v = .none
    · obtain ⟨f, rfl⟩ : ∃ f, fuel = f + 1 := ⟨fuel - 1, by omega⟩
      have : produce env (f + 1) id v { read := read } = .ok (.none, { read := read }) := by
        simp only [produce, produceBody]
        exact if_pos hv
      simp only [this]
      intro h; cases h
    · have hrec := produce_ends (C := Together env id) (N := N) hq hcalls (fun t t' h h1 => .again h h1)
        (fun t a t' h ha h1 => .allOf h ha h1) (fun t h => together_lt hN h) (N + 1) 0 fuel (by omega) hf
        id (given env id v) { read := read } (fun t h => .self h) (Below.refl _) hv
        ⟨by simp, by simp, by simp, by simp⟩
      have heq : produce env fuel id (given env id v) { read := read } =
          produce env fuel id v { read := read } := by
        obtain ⟨f, rfl⟩ : ∃ f, fuel = f + 1 := ⟨fuel - 1, by omega⟩
        simp only [produce, produceBody, if_neg hv]
        exact (if_neg hv).symm
      rw [← heq]
      exact hrec.ne

/-- **C39**: in a finite graph, however cyclic, a conversion terminates when following the
conversions it can lead to always comes to an end. -/
theorem C39_ends (env : Env ω) (hq : Quiet env) (N : Nat) (hN : Finite env N) (id : Nat) (v : Val)
    (h : Acc (Leads env) (id, v)) (read : Bool) : Ends env id v read := by
  obtain ⟨F, hF⟩ := deep_of_acc env hq N hN (id, v) h
  refine ⟨convert env F id v read, ?_, F, fun fuel hf => ?_⟩
  all_goals
    have h1 : convert env F id v read ≠ .error .RecursionError := by
      have h2 := hF F (Nat.le_refl F) read
      simp only at h2
      unfold convert
      intro h
      split at h
      · cases h
      · rename_i e he
        cases h
        exact h2 he
  · exact h1
  · exact convert_deeper env hf id v read rfl h1

theorem noDict_of_mem : ∀ {l : List Val} {e : Val}, noDicts l = true → e ∈ l → noDict e = true
  | a :: l, e, h, he => by
    simp only [noDicts, Bool.and_eq_true] at h
    rcases List.mem_cons.1 he with he | he
    · exact he ▸ h.1
    · exact noDict_of_mem h.2 he

theorem noDict_pieces {w e : Val} (h : noDict w = true) (he : e ∈ pieces w) : noDict e = true := by
  cases w with
  | list l => exact noDict_of_mem (l := l) (by simpa only [noDict] using h) he
  | dict d => simp [noDict] at h
  | str s =>
    simp only [pieces, List.mem_flatMap, List.mem_map] at he
    obtain ⟨_, _, _, _, rfl⟩ := he
    rfl
  | _ => simp [pieces] at he

theorem sizeOf_pieces {w e : Val} (he : e ∈ pieces w) (h : noDict e = false) : sizeOf e < sizeOf w := by
  cases w with
  | list l =>
    have := List.sizeOf_lt_of_mem (show e ∈ l from he)
    simp only [Val.list.sizeOf_spec]
    omega
  | dict d =>
    simp only [pieces, List.mem_map] at he
    obtain ⟨_, _, rfl⟩ := he
    simp [noDict] at h
  | str s =>
    simp only [pieces, List.mem_flatMap, List.mem_map] at he
    obtain ⟨_, _, _, _, rfl⟩ := he
    simp [noDict] at h
  | _ => simp [pieces] at he

theorem sizeOf_value {d : List (Str × Val)} {k : Str} {x : Val} (h : (k, x) ∈ d) :
    sizeOf x < sizeOf (Val.dict d) := by
  have h1 := List.sizeOf_lt_of_mem h
  simp only [Val.dict.sizeOf_spec, Prod.mk.sizeOf_spec] at *
  omega

/-- how far a conversion is from its end -/
noncomputable def meas (env : Env ω) (rank : Nat → Nat) (p : Nat × Val) : Nat × Nat :=
  (if noDict (given env p.1 p.2) = true then 0 else sizeOf (given env p.1 p.2) + 1, rank p.1)

theorem given_small {env : Env ω} (hd : ∀ i, noDict (env.node i).default = true) {i : Nat} {e w : Val}
    (he : noDict e = false → sizeOf e < sizeOf w) :
    noDict (given env i e) = true ∨ sizeOf (given env i e) < sizeOf w := by
  unfold given
  split
  · exact .inl (hd i)
  · cases h : noDict e with
    | true => exact .inl rfl
    | false => exact .inr (he h)

theorem lex_dict {env : Env ω} (rank : Nat → Nat) (hd : ∀ i, noDict (env.node i).default = true)
    {i id : Nat} {e v : Val} (hw : noDict (given env id v) = false)
    (he : noDict e = false → sizeOf e < sizeOf (given env id v)) :
    Prod.Lex (· < ·) (· < ·) (meas env rank (i, e)) (meas env rank (id, v)) := by
  left
  simp only [hw, Bool.false_eq_true, if_false]
  rcases given_small hd (i := i) he with h | h
  · simp [h]
  · split <;> omega

/-- **C39**: in a finite graph whose arrays of arrays end (the objects can be ranked so that the
items of an object, or of those it is composed of by `$ref` and allOf, have a lower rank) and whose
defaults contain no object, every conversion terminates, whatever the cycles through properties,
additional properties, allOf and `$ref`. -/
theorem C39_schemas (env : Env ω) (hq : Quiet env) (N : Nat) (hN : Finite env N) (rank : Nat → Nat)
    (hr : ∀ i t it, Together env i t → (env.node t).items = some it → rank it < rank i)
    (hd : ∀ i, noDict (env.node i).default = true) (id : Nat) (v : Val) (read : Bool) :
    Ends env id v read := by
  refine C39_ends env hq N hN id v ?_ read
  have hwf : WellFounded (Leads env) := by
    refine Subrelation.wf (r := InvImage (Prod.Lex (· < ·) (· < ·)) (meas env rank)) ?_
      (InvImage.wf _ (Prod.lex ⟨_, Nat.lt_wfRel.wf⟩ ⟨_, Nat.lt_wfRel.wf⟩).wf)
    intro q p h
    simp only [InvImage]
    cases h with
    | @item i t it v e ht hi he =>
      cases hw : noDict (given env i v) with
      | false => exact lex_dict rank hd hw fun h => sizeOf_pieces he h
      | true =>
        have h1 : noDict (given env it e) = true := by
          unfold given
          split
          · exact hd it
          · exact noDict_pieces hw he
        simp only [meas, hw, h1, if_true]
        exact .right _ (hr i t it ht hi)
    | property ht hp hw hx =>
      exact lex_dict rank hd (by rw [hw]; rfl) fun _ => by rw [hw]; exact sizeOf_value hx
    | default ht hp hw hs =>
      exact lex_dict rank hd (by rw [hw]; rfl) fun h => by rw [hd] at h; cases h
    | additional ht ha hw hx =>
      exact lex_dict rank hd (by rw [hw]; rfl) fun _ => by rw [hw]; exact sizeOf_value hx
  exact hwf.apply _

theorem flat_of_mem : ∀ {l : List Val} {e : Val}, noTexts l = true → e ∈ l → noText e = true
  | a :: l, e, h, he => by
    simp only [noTexts, Bool.and_eq_true] at h
    rcases List.mem_cons.1 he with he | he
    · exact he ▸ h.1
    · exact flat_of_mem h.2 he

/-- **C39**: in a finite graph without defaults the conversion of any value that contains neither
texts nor objects terminates, also against arrays of themselves. -/
theorem C39_lists (env : Env ω) (hq : Quiet env) (N : Nat) (hN : Finite env N)
    (hd : ∀ i, (env.node i).default = .none) (id : Nat) (v : Val) (hv : noText v = true) (read : Bool) :
    Ends env id v read := by
  refine C39_ends env hq N hN id v ?_ read
  have key : ∀ n, ∀ id v, noText v = true → sizeOf v < n → Acc (Leads env) (id, v) := by
    intro n
    induction n with
    | zero => intro _ _ _ h; omega
    | succ n ih =>
      intro id v hv hn
      have hg : given env id v = v := by
        unfold given
        split
        · rename_i h; rw [hd, h]
        · rfl
      refine ⟨_, fun q h => ?_⟩
      cases h with
      | item ht hi he =>
        rw [hg] at he
        cases v with
        | list l =>
          have h1 := List.sizeOf_lt_of_mem (show _ ∈ l from he)
          simp only [Val.list.sizeOf_spec] at hn
          exact ih _ _ (flat_of_mem (l := l) (by simpa only [noText] using hv) he) (by omega)
        | dict d => simp [noText] at hv
        | str s => simp [noText] at hv
        | _ => simp [pieces] at he
      | property ht hp hw hx => rw [hg] at hw; subst hw; simp [noText] at hv
      | default ht hp hw hs => rw [hg] at hw; subst hw; simp [noText] at hv
      | additional ht ha hw hx => rw [hg] at hw; subst hw; simp [noText] at hv
  exact key _ id v hv (Nat.lt_succ_self _)

/-- **C39**: a finite graph whose objects refer to each other by `$ref` and allOf only is no
obstacle, whatever the cycles, the value and the defaults. -/
theorem C39_composed (env : Env ω) (hq : Quiet env) (N : Nat) (hN : Finite env N)
    (h1 : ∀ i, (env.node i).items = none) (h2 : ∀ i, (env.node i).properties = [])
    (h3 : ∀ i p, (env.node i).additional ≠ .schema p) (id : Nat) (v : Val) (read : Bool) :
    Ends env id v read := by
  refine C39_ends env hq N hN id v ⟨_, fun q h => ?_⟩ read
  cases h with
  | item ht hi he => rw [h1] at hi; cases hi
  | property ht hp hw hx => rw [h2] at hp; cases hp
  | default ht hp hw hs => rw [h2] at hp; cases hp
  | additional ht ha hw hx => exact absurd ha (h3 _ _)

/-! ## cases -/

/-- a graph: the objects and their `$ref`s -/
def graph (node : Nat → Node) (ref : Nat → Nat) : Env Unit where
  node := node
  deref i := .ok (ref i)
  reg := builtins
  toInt v := match v with | .int n => .ok n | _ => .error .ValueError
  toFloat v := match v with | .int n => .ok (.fin n) | _ => .error .ValueError
  toStr _ := []
  toBool _ := true
  validEmail _ := true
  eq a b := a = b
  atom _ _ _ := .error .ValueError
  mismatch _ _ _ := .error .TypeError
  order l := l

theorem quiet_graph (node : Nat → Node) (ref : Nat → Nat) : Quiet (graph node ref) := by
  refine ⟨fun i h => ?_, fun v h => ?_, fun v h => ?_, fun _ _ _ h => ?_, fun _ _ _ h => ?_⟩
  · simp [graph] at h
  · simp only [graph] at h; split at h <;> cases h
  · simp only [graph] at h; split at h <;> cases h
  · simp [graph] at h
  · simp [graph] at h

/-- a person (0) with children (2: an array of persons), a parent (3: a `$ref` to person), composed
of itself -/
def person : Nat → Node
  | 0 => { type := some c!"object", properties := [(c!"age", 1), (c!"children", 2), (c!"parent", 3)]
           additional := .schema 0, allOf := [3] }
  | 1 => { type := some c!"integer", default := .int 0, defaultSet := true }
  | 2 => { type := some c!"array", items := some 3 }
  | _ => {}

/-- 3 refers to 0 -/
def refs : Nat → Nat
  | 3 => 0
  | i => if i < 3 then i else 0

theorem refs_lt (i : Nat) : refs i < 4 := by
  unfold refs
  repeat' split
  all_goals omega

theorem together_person {i t : Nat} (h : Together (graph person refs) i t) : t = refs i := by
  have h0 : ∀ i t, (graph person refs).deref i = .ok t → t = refs i := by
    intro i t h; cases h; rfl
  induction h with
  | self h => exact h0 _ _ h
  | @allOf t a t' _ ha h ih =>
    rw [h0 _ _ h, ← ih]
    rename_i hz
    have : t < 4 := ih ▸ refs_lt i
    have : t = 0 ∧ a = 3 := by
      match t, this, ha with
      | 0, _, ha => exact ⟨rfl, by simpa [graph, person] using ha⟩
      | 1, _, ha => simp [graph, person] at ha
      | 2, _, ha => simp [graph, person] at ha
      | 3, _, ha => simp [graph, person] at ha
    rw [this.1, this.2]; rfl
  | again _ h ih =>
    rw [h0 _ _ h, ih]
    unfold refs
    repeat' split
    all_goals first | rfl | omega | simp_all

/-- every value is converted in finitely many steps against persons -/
example (v : Val) (read : Bool) : Ends (graph person refs) 0 v read := by
  refine C39_schemas _ (quiet_graph _ _) 4 (fun i t h => by cases h; exact refs_lt i)
    (fun i => if i = 2 then 1 else 0) (fun i t it h hi => ?_) (fun i => ?_) 0 v read
  · have ht := together_person h
    have h4 : t < 4 := ht ▸ refs_lt i
    have : t = 2 ∧ it = 3 := by
      match t, h4, hi with
      | 0, _, hi => simp [graph, person] at hi
      | 1, _, hi => simp [graph, person] at hi
      | 2, _, hi => exact ⟨rfl, by simpa [graph, person] using hi.symm⟩
      | 3, _, hi => simp [graph, person] at hi
    have hi2 : i = 2 := by
      have h2 : refs i = 2 := by rw [← ht, this.1]
      unfold refs at h2
      repeat' split at h2
      all_goals omega
    rw [this.2, hi2]
    simp
  · match i with
    | 0 => rfl
    | 1 => rfl
    | 2 => rfl
    | i + 3 => rfl

/-- an array (0) of itself -/
def nest : Nat → Node
  | 0 => { type := some c!"array", items := some 0 }
  | _ => {}

/-- lists of lists are converted against an array of itself -/
example (v : Val) (h : noText v = true) (read : Bool) : Ends (graph nest fun _ => 0) 0 v read := by
  refine C39_lists _ (quiet_graph _ _) 1 (fun i t h => by cases h; exact Nat.zero_lt_one) (fun i => ?_) 0 v h read
  match i with
  | 0 => rfl
  | i + 1 => rfl

/-- a cycle through allOf: an exception, and not the exhaustion of the stack -/
example : convert (graph (fun _ => { additional := .no, allOf := [1] }) fun _ => 0) 5 0 (.dict []) true =
    .error .CycleDetectionError := rfl

example (v : Val) (read : Bool) :
    Ends (graph (fun _ => { additional := .no, allOf := [1] }) fun _ => 0) 0 v read :=
  C39_composed _ (quiet_graph _ _) 1 (fun i t h => by cases h; exact Nat.zero_lt_one) (fun _ => rfl) (fun _ => rfl)
    (fun _ _ h => by cases h) 0 v read

/-! ## what does not terminate -/

/-- an object with a property of its own type whose default is an empty object -/
def heir : Nat → Node
  | 0 => { type := some c!"object", properties := [(c!"next", 1)] }
  | _ => { default := .dict [], defaultSet := true }

theorem heir_body (rec : Rec Unit) (h : nested rec 1 (.dict []) = .error .RecursionError) (i : Nat) (read : Bool) :
    produceBody (graph heir fun _ => 0) rec i (.dict []) { read := read } = .error .RecursionError := by
  have h1 : fillDefaults (graph heir fun _ => 0) rec (heir 0) [] [c!"next"] = .error .RecursionError := by
    simp [fillDefaults, heir, graph, Dict.get?, h]
  have h2 : ∀ ctx, modelApply (graph heir fun _ => 0) rec 0 [] (.dict []) ctx = .error .RecursionError := by
    intro ctx
    show (fillDefaults (graph heir fun _ => 0) rec (heir 0) [] [c!"next"] >>= _) = _
    rw [h1]
    rfl
  have h3 : ∀ ctx, first (graph heir fun _ => 0) rec 0 (.dict []) ctx = .error .RecursionError := by
    intro ctx
    unfold first
    simp only
    rw [if_pos ⟨by simp [graph, heir], by simp [graph, heir]⟩, show (graph heir fun _ => 0).reg.get
      ((graph heir fun _ => 0).node 0).type ((graph heir fun _ => 0).node 0).format = .handler .model from rfl]
    simp only [create, h2]
  unfold produceBody
  simp [show (graph heir fun _ => 0).deref i = .ok 0 from rfl, CycleGuard.update, h3]

/-- **C39**, refuted: a property of the object's own type with a default that is an object is
converted over and over again. No stack is deep enough. -/
theorem C39_default_false : ∀ fuel,
    convert (graph heir fun _ => 0) fuel 0 (.dict []) true = .error .RecursionError := by
  have h : ∀ fuel i read, produce (graph heir fun _ => 0) fuel i (.dict []) { read := read } =
      .error .RecursionError := by
    intro fuel
    induction fuel with
    | zero => intro i read; rfl
    | succ f ih =>
      intro i read
      refine heir_body _ ?_ i read
      unfold nested
      rw [show produce (graph heir fun _ => 0) f 1 (.dict []) {} = .error .RecursionError from ih 1 true]
  intro fuel
  unfold convert
  rw [h fuel 0 true]

/-- **C39**, refuted: a text against an array of itself is split over and over again. -/
theorem C39_text_false : ∀ fuel,
    convert (graph nest fun _ => 0) fuel 0 (.str c!"a") true = .error .RecursionError := by
  have h : ∀ fuel read, produce (graph nest fun _ => 0) fuel 0 (.str c!"a") { read := read } =
      .error .RecursionError := by
    intro fuel
    induction fuel with
    | zero => intro read; rfl
    | succ f ih =>
      intro read
      have h1 : produceAll (produce (graph nest fun _ => 0) f) 0 [.str c!"a"] = .error .RecursionError := by
        unfold produceAll nested
        rw [show produce (graph nest fun _ => 0) f 0 (.str c!"a") {} = .error .RecursionError from ih true]
      have h2 : arrayApply (graph nest fun _ => 0) (produce (graph nest fun _ => 0) f) 0 [] (.str c!"a") =
          .error .RecursionError := by
        have h3 : extend (produce (graph nest fun _ => 0) f) ((graph nest fun _ => 0).node 0) []
            (.list [.str c!"a"]) = .error .RecursionError := by
          unfold extend
          simp only [show ((graph nest fun _ => 0).node 0).items = some 0 from rfl,
            show elems (.list [.str c!"a"]) = some [.str c!"a"] from rfl, h1]
        show (extend (produce (graph nest fun _ => 0) f) ((graph nest fun _ => 0).node 0) []
            (.list [.str c!"a"]) >>= _) = _
        rw [h3]
        rfl
      have h4 : ∀ ctx, first (graph nest fun _ => 0) (produce (graph nest fun _ => 0) f) 0 (.str c!"a") ctx =
          .error .RecursionError := by
        intro ctx
        unfold first
        simp only
        rw [if_pos ⟨by simp [graph, nest], by simp [graph, nest]⟩, show (graph nest fun _ => 0).reg.get
          ((graph nest fun _ => 0).node 0).type ((graph nest fun _ => 0).node 0).format = .handler .array from rfl]
        simp only [create, h2]
      simp only [produce]
      unfold produceBody
      simp [show (graph nest fun _ => 0).deref 0 = .ok 0 from rfl, CycleGuard.update, h4]
  intro fuel
  unfold convert
  rw [h fuel true]

end Props.C39
