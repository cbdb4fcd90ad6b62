import Verif.Proofs.Resolver
import Verif.Proofs.Scan
/-!
# C46: a document is loaded at most once and pointers are followed exactly

`world n src` is what the n-th fetch finds at `src`; it may change from fetch to fetch. A history is
any sequence of calls on a new resolver.
-/

namespace Props.C46
open Py Utils _root_.Resolver Spec.Resolver Spec.Places Proofs.Resolver Proofs.ScanTree

variable {path2url abspath : Str → Str} {world : Nat → Source → Except Exc Val} {c : Conf}

/-- the state after some calls on a new resolver -/
def after (path2url abspath : Str → Str) (world : Nat → Source → Except Exc Val) (c : Conf)
    (calls : List (Str × Option Getter)) : State := (run path2url abspath world c new calls).2

/-- Once a fetch for a URL brought a document, no later fetch is for that URL. -/
theorem C46_once (calls : List (Str × Option Getter)) {i j : Nat} {x y : Str × Source × Except Exc Val}
    (hij : i < j) (hx : (after path2url abspath world c calls).log[i]? = some x)
    (hy : (after path2url abspath world c calls).log[j]? = some y) {d : Val} (hd : x.2.2 = .ok d)
    (hl : Loaded d) : y.1 ≠ x.1 := by
  have h := run_once (path2url := path2url) (abspath := abspath) (world := world) (c := c) inv_new (by simp [Once, new]) calls
  obtain ⟨h1, rfl⟩ := List.getElem?_eq_some_iff.1 hx
  obtain ⟨h2, rfl⟩ := List.getElem?_eq_some_iff.1 hy
  exact List.pairwise_iff_getElem.1 h i j h1 h2 hij d hd ((truthy_iff d).2 hl)

/-- what a reference into a document with the tokens `ts` is worth -/
theorem finish_iff {d : Val} (hd : Loaded d) (ts : List Str) (w : Val) :
    finish d (pointer ts) = .ok w ↔ Path d ts w := by
  unfold finish
  rw [if_pos ((truthy_iff d).2 hd), split_pointer]
  exact follow_iff ts d w

/-- what a failed search through a document raises -/
def Missing (e : Exc) : Prop := e = .KeyError ∨ e = .IndexError ∨ e = .ValueError ∨ e = .Exception

theorem finish_missing {d : Val} (hd : Loaded d) {ts : List Str} {e : Exc}
    (h : finish d (pointer ts) = .error e) : Missing e := by
  unfold finish at h
  rw [if_pos ((truthy_iff d).2 hd)] at h
  exact follow_error h

/-- A reference into a document that was loaded earlier fetches nothing, and its value is found by
following the pointer through that document; a dangling pointer raises. -/
theorem C46_loaded (calls : List (Str × Option Getter)) {u : Str} {src : Source} {d : Val}
    (h : (u, src, .ok d) ∈ (after path2url abspath world c calls).log) (hd : Loaded d)
    {jref : Str} {ts : List Str} (hj : jr_split path2url abspath jref = .ok (u, pointer ts)) (g : Option Getter) :
    ∃ r, resolve path2url abspath world c (after path2url abspath world c calls) jref g =
        (r, after path2url abspath world c calls) ∧
      (∀ w, r = .ok w ↔ Path d ts w) ∧ ∀ e, r = .error e → Missing e := by
  have hi : Inv (after path2url abspath world c calls) := run_inv inv_new calls
  have hc := hi.2 u src d h ((truthy_iff d).2 hd)
  refine ⟨finish d (pointer ts), ?_, finish_iff hd ts, fun e => finish_missing hd⟩
  unfold resolve
  rw [hj]
  dsimp only
  rw [hc, Option.getD_some, if_pos ((truthy_iff d).2 hd)]

/-- A reference into a document that was not loaded yet fetches once. If that brings a document the
value is found by following the pointer through it; an exception of the fetch is passed on; an
empty document raises. -/
theorem C46_fetch (calls : List (Str × Option Getter)) {u : Str}
    (h : ∀ src d, (u, src, .ok d) ∈ (after path2url abspath world c calls).log → ¬ Loaded d)
    {jref : Str} {ts : List Str} (hj : jr_split path2url abspath jref = .ok (u, pointer ts)) (g : Option Getter) :
    ∃ r s src, resolve path2url abspath world c (after path2url abspath world c calls) jref g = (r, s) ∧
      s.log = (after path2url abspath world c calls).log ++
        [(u, src, world (after path2url abspath world c calls).log.length src)] ∧
      match world (after path2url abspath world c calls).log.length src with
      | .error e => r = .error e
      | .ok d => (Loaded d → (∀ w, r = .ok w ↔ Path d ts w) ∧ ∀ e, r = .error e → Missing e) ∧
          (¬ Loaded d → r = .error .Exception) := by
  have hi : Inv (after path2url abspath world c calls) := run_inv inv_new calls
  have ht : ¬ truthy ((Dict.get? (after path2url abspath world c calls).cache u).getD .none) = true := by
    cases hc : Dict.get? (after path2url abspath world c calls).cache u with
    | none => simp [truthy]
    | some v =>
      intro hv
      obtain ⟨src, hs⟩ := hi.1 u v hc hv
      exact h src v hs ((truthy_iff v).1 hv)
  generalize after path2url abspath world c calls = s at *
  have hr : ∀ src, source c g (match c.hook with
      | some f => f u
      | none => u) = src → resolve path2url abspath world c s jref g =
      match world s.log.length src with
      | .error e => (.error e, { s with log := s.log ++ [(u, src, world s.log.length src)] })
      | .ok obj => (finish obj (pointer ts), ⟨Dict.set s.cache u (if truthy obj then obj else .none),
          s.log ++ [(u, src, world s.log.length src)]⟩) := by
    rintro src rfl
    unfold resolve
    rw [hj]
    dsimp only
    rw [if_neg ht]
    rfl
  obtain ⟨src, hsrc⟩ : ∃ src, source c g (match c.hook with
      | some f => f u
      | none => u) = src := ⟨_, rfl⟩
  have hr := hr src hsrc
  cases hw : world s.log.length src with
  | error e =>
    rw [hw] at hr
    exact ⟨_, _, src, hr, by rw [hw], by rw [hw]⟩
  | ok d =>
    rw [hw] at hr
    refine ⟨_, _, src, hr, by rw [hw], ?_⟩
    rw [hw]
    refine ⟨?_, ?_⟩
    · intro hd; exact ⟨finish_iff hd ts, fun e => finish_missing hd⟩
    · intro hd
      unfold finish
      rw [if_neg fun hx => hd ((truthy_iff d).1 hx)]

/-- A reference whose URL is bad does not reach the world. -/
theorem C46_bad (s : State) {jref : Str} (g : Option Getter) (e : Exc)
    (h : jr_split path2url abspath jref = .error e) : resolve path2url abspath world c s jref g = (.error e, s) := by
  simp [resolve, h]

/-- The pointers of RFC 6901 lead where they should, and nowhere else. -/
theorem C46_rfc {d : Val} {ts : List Str} {w : Val} (h : RfcPath d ts w) :
    Path d ts w ∧ ∀ w', Path d ts w' → w' = w := by
  have key : Path d ts w := by
    induction h with
    | here v => exact .here v
    | key d k v ts w h _ ih => exact .key d k v ts w h ih
    | item l i v ts w h _ ih => exact .item l _ i v ts w (intOf_natStr i) h ih
  refine ⟨key, fun w' h' => ?_⟩
  have h1 := (follow_iff ts d w).2 key
  have h2 := (follow_iff ts d w').2 h'
  rw [h1] at h2; cases h2; rfl

/-- Where a document is fetched from: the caller's getter comes first, files are read by the local
getter even if the resolver has a default getter. -/
theorem C46_source (c : Conf) (l : Str) :
    (∀ k, source c (some (.cls k)) l = .cls k l) ∧ (∀ k, source c (some (.inst k)) l = .inst k) ∧
    ((urlparse l).scheme = c!"file" → (urlparse l).path.head? = some '/' →
      source c none l = .file (urlparse l).path) ∧
    ((urlparse l).scheme ≠ c!"file" → c.default = none → source c none l = .url l) ∧
    (∀ k, (urlparse l).scheme ≠ c!"file" → c.default = some (.cls k) → source c none l = .cls k l) ∧
    (∀ k, (urlparse l).scheme ≠ c!"file" → c.default = some (.inst k) → source c none l = .inst k) := by
  refine ⟨fun _ => rfl, fun _ => rfl, fun h1 h2 => ?_, fun h1 h2 => ?_, fun k h1 h2 => ?_, fun k h1 h2 => ?_⟩
  · have : (urlparse l).path ≠ [] := by intro e; rw [e] at h2; cases h2
    simp [source, h1, h2, this, pathJoin]
  all_goals simp [source, h1, h2, asked]

/-- the fetch of `C46_fetch` goes through the URL hook -/
theorem C46_hook (s : State) {u jref jp : Str} (hj : jr_split path2url abspath jref = .ok (u, jp))
    (g : Option Getter) (x) (hx : x ∈ (resolve path2url abspath world c s jref g).2.log) :
    x ∈ s.log ∨ x.1 = u ∧ x.2.1 = source c g (match c.hook with
      | some f => f u
      | none => u) := by
  unfold resolve at hx
  rw [hj] at hx
  dsimp only at hx
  split at hx
  · exact Or.inl hx
  · split at hx
    all_goals
      dsimp only at hx
      rw [List.mem_append, List.mem_singleton] at hx
      rcases hx with hx | rfl
      · exact Or.inl hx
      · exact Or.inr ⟨rfl, rfl⟩

/-! ## Cases -/

/-- a document, found once; later fetches fail -/
def theDoc : Val := .dict [(c!"a/b", .list [.int 7, .str c!"x"]), (c!"n", .none)]

def once : Nat → Source → Except Exc Val := fun n _ => if n = 0 then .ok theDoc else .error .OSError

def conf : Conf := ⟨none, none⟩

def go (calls : List String) : List (Except Exc Val) × State :=
  run id id once conf new (calls.map fun s => (s.toList, none))

example : (go ["http://h/a#/a~1b/0", "http://h/a#/a~1b/1", "http://h/a#/x", "http://h/b"]).1 =
    [.ok (.int 7), .ok (.str c!"x"), .error .KeyError, .error .OSError] := by decide +kernel
example : jr_split id id c!"http://h/a#/a~1b/0" = .ok (c!"http://h/a", pointer [c!"a/b", c!"0"]) := by
  decide +kernel
example : Loaded theDoc := by simp [Loaded, theDoc]

/-- A negative index is accepted and counts from the end; a fragment that is no pointer is taken for
the whole document. -/
theorem C46_pointer_false :
    (go ["http://h/a#/a~1b/-1"]).1 = [.ok (.str c!"x")] ∧
    (¬ ∃ w, RfcPath theDoc [c!"a/b", c!"-1"] w) ∧
    (go ["http://h/a#anchor"]).1 = [.ok theDoc] := by
  refine ⟨by decide +kernel, ?_, by decide +kernel⟩
  rintro ⟨w, h⟩
  generalize hts : ([c!"a/b", c!"-1"] : List Str) = ts at h
  rw [theDoc] at h
  cases h with
  | here => cases hts
  | key d k v ts w h1 h2 =>
    cases hts
    have : v = .list [.int 7, .str c!"x"] := by
      have h3 : Dict.get? [(c!"a/b", Val.list [.int 7, .str c!"x"]), (c!"n", .none)] c!"a/b" = some v := h1
      simp [Dict.get?] at h3
      exact h3.symm
    subst this
    generalize hts2 : ([c!"-1"] : List Str) = ts2 at h2
    cases h2 with
    | here => cases hts2
    | item l i v ts w h3 h4 =>
      simp only [List.cons.injEq] at hts2
      obtain ⟨ch, s, e, hm, _⟩ := natStr_cons i
      rw [e] at hts2
      simp only [List.cons.injEq] at hts2
      exact hm hts2.1.1.symm

/-- An empty document is fetched again and again. -/
theorem C46_empty_false :
    ((run id id (fun _ _ => .ok (.dict [])) conf new [(c!"http://h/a", none), (c!"http://h/a", none)]).2.log.map
      Prod.fst) = [c!"http://h/a", c!"http://h/a"] := by decide +kernel

end Props.C46
