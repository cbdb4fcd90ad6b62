import Verif.Props.C05
/-!
# C06: every identified operation is reachable through app.op

`entryKey` is the spec of the index: the operation id, prefixed with the first tag if that is
non-empty.
-/

namespace Props.C06
open Py Utils Proofs.Scope

/-- The key an operation is expected under: none without operation id; the id alone if there is
no (non-empty) first tag; otherwise `tag sep id`. -/
def entryKey (sep : Str) (o : OpInfo) : Option Str :=
  match o.operationId with
  | none => none
  | some i =>
    if i = [] then none
    else match o.tags with
      | some (t :: _) => if t = [] then some i else some (t ++ sep ++ i)
      | _ => some i

/-- The expected index: one entry per identified operation, in document order. -/
def expected (sep : Str) (ops : List OpInfo) : Dict Str Nat :=
  ops.filterMap fun o => (entryKey sep o).map fun k => (k, o.id)

theorem op_step (sep : Str) (d : Dict Str Nat) (o : OpInfo) :
    TypeReduce._op sep d o =
      match entryKey sep o with
      | none => .ok d
      | some k => if k ∈ d.keys then .error .SchemaError else .ok (d ++ [(k, o.id)]) := by
  obtain ⟨id, tags, oid⟩ := o
  have key : ∀ (k : Str), k ≠ [] →
      (match some k with
        | some (c :: cs) =>
          if d.has (c :: cs) = true then Except.error Exc.SchemaError
          else .ok (d.set (c :: cs) id)
        | _ => .ok d)
      = if k ∈ d.keys then .error .SchemaError else .ok (d ++ [(k, id)]) := by
    intro k hk
    obtain ⟨c, cs, rfl⟩ := List.exists_cons_of_ne_nil hk
    by_cases h : (c :: cs) ∈ d.keys
    · have : d.has (c :: cs) = true := (Dict.has_iff _ _).2 h
      simp [this, h]
    · have : ¬ d.has (c :: cs) = true := fun e => h ((Dict.has_iff _ _).1 e)
      simp [this, h, Dict.set_of_not_mem _ h]
  rcases oid with _ | i
  · rfl
  · rcases i with _ | ⟨a, as⟩
    · rfl
    · rcases tags with _ | ts
      · simpa [TypeReduce._op, truthy, scope_compose, entryKey] using key (a :: as) (by simp)
      · rcases ts with _ | ⟨t, ts⟩
        · simpa [TypeReduce._op, truthy, scope_compose, entryKey] using key (a :: as) (by simp)
        · rcases t with _ | ⟨b, bs⟩
          · simpa [TypeReduce._op, truthy, scope_compose, entryKey] using key (a :: as) (by simp)
          · simpa [TypeReduce._op, truthy, scope_compose, entryKey]
              using key ((b :: bs) ++ sep ++ (a :: as)) (by simp)

theorem run_from (sep : Str) (ops : List OpInfo) (d : Dict Str Nat) (hd : d.WF) :
    ops.foldlM (TypeReduce._op sep) d =
      if (d ++ expected sep ops).WF then .ok (d ++ expected sep ops) else .error .SchemaError := by
  induction ops generalizing d with
  | nil => simp [expected, hd]; rfl
  | cons o ops ih =>
    simp only [List.foldlM_cons, op_step]
    cases hk : entryKey sep o with
    | none =>
      have : expected sep (o :: ops) = expected sep ops := by simp [expected, hk]
      rw [this, ← ih d hd]; rfl
    | some k =>
      have he : expected sep (o :: ops) = (k, o.id) :: expected sep ops := by simp [expected, hk]
      by_cases hm : k ∈ d.keys
      · simp only [hm, if_true]
        have : ¬ (d ++ expected sep (o :: ops)).WF := by
          rw [he]
          simp only [Dict.WF, Dict.keys, List.map_append, List.map_cons]
          intro hn
          rw [List.nodup_append] at hn
          exact hn.2.2 k hm k (by simp) rfl
        rw [if_neg this]; rfl
      · simp only [hm, if_false]
        have hwf : (d ++ [(k, o.id)]).WF := by
          rw [← Dict.set_of_not_mem _ hm]; exact Dict.WF_set hd _ _
        have := ih (d ++ [(k, o.id)]) hwf
        have e : d ++ [(k, o.id)] ++ expected sep ops = d ++ expected sep (o :: ops) := by
          rw [he]; simp
        rw [e] at this
        exact this

/-- **C06** (exact index). Indexing succeeds if and only if no two identified operations share a
key, the index then has exactly one entry per identified operation, in document order, and
operations without operation id have none; otherwise `SchemaError` is raised. -/
theorem C06_index (sep : Str) (ops : List OpInfo) :
    TypeReduce.run sep ops =
      if (ops.filterMap (entryKey sep)).Nodup then .ok (expected sep ops)
      else .error .SchemaError := by
  have := run_from sep ops [] Dict.WF_nil
  simp only [List.nil_append] at this
  have hk : (expected sep ops).keys = ops.filterMap (entryKey sep) := by
    simp only [Dict.keys, expected, List.map_filterMap]
    congr 1; funext o
    cases entryKey sep o <;> rfl
  simp only [TypeReduce.run, this, Dict.WF, hk]

theorem mem_expected (sep : Str) (ops : List OpInfo) (o : OpInfo) (ho : o ∈ ops) (k : Str)
    (hk : entryKey sep o = some k) : (k, o.id) ∈ expected sep ops :=
  List.mem_filterMap.2 ⟨o, ho, by simp [hk]⟩

/-- **C06** (access by first tag). After a successful indexing, `app.op[tag, operationId]` is the
operation, for its first tag; and `app.op[operationId]` if it has no tag. -/
theorem C06_access_partial (sep : Str) (ops : List OpInfo) (d : Dict Str Nat)
    (h : TypeReduce.run sep ops = .ok d) (o : OpInfo) (ho : o ∈ ops) (i : Str) (hi : i ≠ [])
    (hid : o.operationId = some i) :
    (∀ t ts, o.tags = some (t :: ts) → t ≠ [] →
      ScopeDict.getitem sep d (.tuple [some t, some i]) = .ok o.id) ∧
    (o.tags = none ∨ o.tags = some [] → ScopeDict.getitem sep d (.plain i) = .ok o.id) := by
  rw [C06_index] at h
  split at h
  · rename_i hnd
    simp at h; subst h
    have hwf : (expected sep ops).WF := by
      have hk : (expected sep ops).keys = ops.filterMap (entryKey sep) := by
        simp only [Dict.keys, expected, List.map_filterMap]
        congr 1; funext o
        cases entryKey sep o <;> rfl
      simpa [Dict.WF, hk] using hnd
    constructor
    · intro t ts ht htne
      have hk : entryKey sep o = some (t ++ sep ++ i) := by simp [entryKey, hid, hi, ht, htne]
      have := C05.C05_tuple sep (expected sep ops) t [i] htne (by simpa using hi)
      simp only [List.map_cons, List.map_nil] at this
      rw [this]
      apply C05.C05_exact
      simp only [join]
      exact Dict.get?_of_mem hwf (mem_expected sep ops o ho _ hk)
    · intro ht
      have hk : entryKey sep o = some i := by
        rcases ht with ht | ht <;> simp [entryKey, hid, hi, ht]
      exact C05.C05_exact _ _ _ _ (Dict.get?_of_mem hwf (mem_expected sep ops o ho _ hk))
  · cases h

/-- **C06** (other tags, refuted). The documented access through any tag is false: an operation
with tags `user`, `security` and id `get_one` is not found as `op['security', 'get_one']`. -/
theorem C06_every_tag_false :
    ¬ ∀ (ops : List OpInfo) (d : Dict Str Nat), TypeReduce.run SCOPE_SEPARATOR ops = .ok d →
      ∀ o ∈ ops, ∀ i ts t, o.operationId = some i → i ≠ [] → o.tags = some ts → t ∈ ts → t ≠ [] →
        ScopeDict.getitem SCOPE_SEPARATOR d (.tuple [some t, some i]) = .ok o.id := by
  intro h
  have := h [⟨1, some [c!"user", c!"security"], some c!"get_one"⟩]
    [(c!"user!##!get_one", 1)] (by decide) _ (List.mem_singleton.2 rfl) c!"get_one"
    [c!"user", c!"security"] c!"security" rfl (by decide) rfl (by decide) (by decide)
  revert this; decide

/-! Non-vacuity: two tagged operations and one without operation id. -/
def sample : List OpInfo :=
  [⟨1, some [c!"user"], some c!"get"⟩, ⟨2, some [c!"pet", c!"x"], some c!"get"⟩,
   ⟨3, some [c!"pet"], none⟩, ⟨4, none, some c!"ping"⟩]
example : TypeReduce.run SCOPE_SEPARATOR sample
    = .ok [(c!"user!##!get", 1), (c!"pet!##!get", 2), (c!"ping", 4)] := by decide
example : TypeReduce.run SCOPE_SEPARATOR (sample ++ [⟨5, some [c!"pet"], some c!"get"⟩])
    = .error .SchemaError := by decide

end Props.C06
