import Verif.Props.C47
/-!
# C67: `app.s(path)` is the path item declared for the path

What holds: `app.s(p)` looks the whole text `p`, with a slash in front unless it has one, up among the
declared paths, whatever characters it has, and never touches the cache. The documentation says more:
`app.s('user/get')` should reach `#/paths/~1user/get`, the operation. It does not.
-/

namespace Props.C67
open Py Utils Tree Spec.Places _root_.AppResolve Proofs.AppResolve Proofs.ScanTree

/-- the path meant by a text: with a slash in front -/
def absolute : Str → Str
  | '/' :: p => '/' :: p
  | p => '/' :: p

theorem absolute_eq (p : Str) : (if !startsWith p c!"/" then c!"/" ++ p else p) = absolute p := by
  cases p with
  | nil => rfl
  | cons c p =>
    by_cases h : c = '/'
    · subst h; simp [startsWith, absolute]
    · have hst : startsWith (c :: p) c!"/" = false := by
        have : ('/' == c) = false := by simp [Ne.symm h]
        simp [startsWith, List.isPrefixOf, this]
      have ha : absolute (c :: p) = '/' :: c :: p := by
        unfold absolute
        split
        · next h' => exact absurd (List.cons.inj h').1 h
        · rfl
      rw [hst, ha]; rfl

theorem split_hash (path2url abspath : Str → Str) (f : Str) (hf : f ≠ []) :
    jr_split path2url abspath ('#' :: f) = .ok ([], '#' :: f) := by
  have hs : splitScheme ('#' :: f) = ([], '#' :: f) := by
    unfold splitScheme
    cases h : breakAt ':' ('#' :: f) with
    | none => rfl
    | some q =>
      obtain ⟨pre, rest⟩ := q
      simp only [breakAt] at h
      rw [if_neg (by decide)] at h
      cases hb : breakAt ':' f with
      | none => rw [hb] at h; cases h
      | some q =>
        rw [hb] at h
        simp only [Option.some.injEq, Prod.mk.injEq] at h
        obtain ⟨rfl, rfl⟩ := h
        dsimp only
        rw [if_neg]
        rintro ⟨_, h2⟩
        rw [List.all_cons] at h2
        have : isSchemeChar '#' = false := by decide
        rw [this] at h2
        cases h2
  have hn : splitNetloc ('#' :: f) = ([], '#' :: f) := by
    unfold splitNetloc; split
    · next h => cases h
    · rfl
  have hu : urlparse ('#' :: f) = ⟨[], [], [], [], [], f⟩ := by
    have hp : splitParams ([] : Str) = ([], []) := rfl
    unfold urlparse
    rw [hs]
    simp only [hn]
    simp [cutAt, breakAt, hp]
  unfold jr_split
  rw [hu]
  have : urlunparse ⟨[], [], [], [], [], []⟩ = [] := by decide
  simp only [this, normalize_url, if_true, ne_eq, hf, not_false_eq_true]

/-- The reference asked for is the pointer to the path. -/
theorem ref_eq (p : Str) : shortRef p scPath = pointer [c!"paths", absolute p] := by
  have h : shortRef p scPath = Tree.compose (absolute p) (some c!"#/paths") := by
    unfold shortRef scPath
    rw [if_pos (by decide)]
    dsimp only
    rw [absolute_eq]
  rw [h]
  simp [Tree.compose, jp_compose, jp_compose.go, join, pointer, Proofs.JsonPointer.jp_escape_eq]
  rfl

/-- the cache for local references is empty, or holds the root document itself -/
def NoLocal (a : App) (objs : Objs) : Prop :=
  Dict.get? objs [] = none ∨ Dict.get? objs [] = some (.whole a.root)

/-- A reference `#/a/b/…` is followed from the root, whatever the tokens are; `None` and a number with
a point are refused. -/
theorem follow (a : App) (n : Nat) (objs : Objs) (ho : NoLocal a objs) (t : Str) (ts : List Str) (p : Option Nat) :
    AppResolve.resolve a (n + 1) objs (pointer (t :: ts)) p =
      (match Tree.resolve (t :: ts) a.root with
        | .ok v => wrap v
        | .error e => .error e, objs) := by
  have hne : pointer (t :: ts) ≠ [] := by simp [pointer]
  have hj : jr_split a.path2url a.abspath (pointer (t :: ts)) = .ok ([], pointer (t :: ts)) := by
    unfold pointer
    exact split_hash _ _ _ (by simp)
  rw [AppResolve.resolve, if_neg hne, hj]
  dsimp only
  rcases ho with ho | ho
  · rw [ho]
    simp only [lookup, loadRef, ne_eq, not_true_eq_false, if_false]
    rw [split_pointer, List.tail_cons]
    cases Tree.resolve (t :: ts) a.root <;> rfl
  · rw [ho]
    simp only [lookup, loadRef, ne_eq, not_true_eq_false, if_false]
    rw [split_pointer, List.tail_cons]
    cases Tree.resolve (t :: ts) a.root with
    | error e => rfl
    | ok v =>
      simp only [Except.map]
      cases hv : isNone v <;> simp

/-- `app.s(p)` is the path item declared for the path, or raises `KeyError`; the cache stays. -/
theorem C67_path (a : App) (n : Nat) (objs : Objs) (ho : NoLocal a objs) {c : Nat} {fs : List (Str × Tree)}
    {items : List (Str × Tree)} (hr : a.root = .obj c fs) (hp : Dict.get? fs c!"paths" = some (.dict items))
    (hi : ∀ kv ∈ items, isObj kv.2 = true) (p : Str) :
    AppResolve.s a (n + 1) objs p =
      (match Dict.get? items (absolute p) with
        | some item => .ok item
        | none => .error .KeyError, objs) := by
  unfold AppResolve.s
  rw [ref_eq, follow a n objs ho, hr]
  simp only [Tree.resolve, hp]
  cases hg : Dict.get? items (absolute p) with
  | none => rfl
  | some item =>
    have := hi _ (Dict.mem_of_get? hg)
    cases item with
    | obj c fs => rfl
    | _ => cases this

/-- A document without paths raises, for every text. -/
theorem C67_no_paths (a : App) (n : Nat) (objs : Objs) (ho : NoLocal a objs) {c : Nat} {fs : List (Str × Tree)}
    (hr : a.root = .obj c fs) (p : Str) (hp : Dict.get? fs c!"paths" = some (.atom .none)) :
    AppResolve.s a (n + 1) objs p = (.error .ValueError, objs) := by
  unfold AppResolve.s
  rw [ref_eq, follow a n objs ho, hr]
  simp only [Tree.resolve, hp]
  rfl

/-- Distinct path templates (all starting with a slash) are told apart. -/
theorem C67_distinct {p q : Str} (hp : p.head? = some '/') (hq : q.head? = some '/') :
    shortRef p scPath = shortRef q scPath ↔ p = q := by
  have key : ∀ r : Str, r.head? = some '/' → absolute r = r := by
    intro r hr
    cases r with
    | nil => cases hr
    | cons c r => simp only [List.head?_cons, Option.some.injEq] at hr; subst hr; rfl
  rw [ref_eq, ref_eq, key p hp, key q hq]
  refine ⟨fun h => ?_, fun h => by rw [h]⟩
  have := congrArg (fun s => jp_split (some s)) h
  rw [split_pointer, split_pointer] at this
  simpa using this

/-- With another base: the text is one token below it, with the prefix of the base in front. -/
theorem C67_base (a : App) (n : Nat) (objs : Objs) (ho : NoLocal a objs) (t : Str) (ts : List Str) (pre p : Str) :
    AppResolve.s a (n + 1) objs p (pre, pointer (t :: ts)) =
      (match Tree.resolve (t :: ts ++ [if pre <+: p then p else pre ++ p]) a.root with
        | .ok v => wrap v
        | .error e => .error e, objs) := by
  unfold AppResolve.s
  have h : shortRef p (pre, pointer (t :: ts)) = pointer (t :: (ts ++ [if pre <+: p then p else pre ++ p])) := by
    have hc : ∀ q : Str, Tree.compose q (some (pointer (t :: ts))) = pointer (t :: (ts ++ [q])) := by
      intro q
      simp [Tree.compose, jp_compose, jp_compose.go, join, pointer, Proofs.JsonPointer.jp_escape_eq]
    unfold shortRef
    dsimp only
    by_cases hpre : pre = []
    · subst hpre
      rw [if_neg (by simp), hc]; simp
    · rw [if_pos hpre, hc]
      by_cases hx : pre <+: p
      · have : startsWith p pre = true := by simpa [startsWith] using hx
        simp [this, hx]
      · have : startsWith p pre = false := by
          rw [← Bool.not_eq_true]; simpa [startsWith] using hx
        simp [this, hx]
  rw [h, follow a n objs ho]
  rfl

/-! ## Cases -/

/-- a document with one operation `get` at `/user` -/
def doc : Tree := .obj 1 [(c!"paths", .dict [(c!"/user", .obj 2 [(c!"get", .obj 3 [])]), (c!"/a/~{b}#", .obj 2 [])])]

def theApp : App := { Props.C47.app doc with root := doc }

def clsOf (r : Except Exc Tree × Objs) : Except Exc (Option Nat) := r.1.map cls?

example : clsOf (AppResolve.s theApp 9 [] c!"user") = .ok (some 2) ∧
    clsOf (AppResolve.s theApp 9 [] c!"/user") = .ok (some 2) ∧
    clsOf (AppResolve.s theApp 9 [] c!"a/~{b}#") = .ok (some 2) := by decide +kernel
example : NoLocal theApp [] := Or.inl rfl

/-- The documented example: the operation is there under the reference the documentation gives, and
`app.s` does not find it. -/
theorem C67_operation_false : ∃ a : App,
    clsOf (AppResolve.resolve a 9 [] c!"#/paths/~1user/get" none) = .ok (some 3) ∧
    clsOf (AppResolve.s a 9 [] c!"user/get") = .error .KeyError :=
  ⟨theApp, by decide +kernel, by decide +kernel⟩

end Props.C67
