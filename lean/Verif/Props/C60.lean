import Verif.Proofs.Validate12
/-!
# C60: validation of a 1.2 document lists exactly the violations of the rules

The rules are those of `Spec.Rules12.Breaks`. What holds: unless the document asks for an unknown
authorisation or has a file parameter in an operation without `consumes`, validation lists every
violation once, under the pointer of the object, and nothing else. In these two cases validation
fails with `KeyError` or `TypeError` instead of reporting.
-/

namespace Props.C60
open Py Utils Tree Scan Validate _root_.Validate12 Spec.Places Spec.Rules12 Proofs.Validate12

variable {str : Tree → Str} {root : Tree}

/-- what is known of an object of a document -/
theorem good_obj (S : Shaped className root) (hu : ¬ UnknownAuth className root)
    (hf : ¬ FileUnconsumed className root) {ts : List Str} {c : Nat} {fs : List (Str × Tree)}
    (ha : At [] root ts (.obj c fs)) :
    All root (.obj c fs) (parentAt root (pointer ts)) (hs str c)
      (Breaks str root (Owner root ts) (className c) (.obj c fs)) := by
  refine obj_verdict str root _ (S.isClass ts c fs ha) (fun xs x h1 h2 => S.hasFields ts c fs xs x ha h1 h2) ?_ ?_
  · rintro rfl
    obtain ⟨op, ho⟩ := S.owner ts _ fs ha rfl
    have hpar := parent_owner S.wf ho
    refine ⟨fun p => ⟨fun h => parent_owner S.wf h, fun h => ?_⟩, fun hfile => ?_⟩
    · rw [hpar] at h
      cases h
      exact ho
    · obtain ⟨v, h1, rfl | ⟨l, rfl⟩⟩ := S.op ts op ho
      · exfalso
        apply hf
        obtain ⟨_, _, e, h2⟩ := hfile
        cases e
        exact ⟨ts, _, fs, op, ha, rfl, h2, ho, h1⟩
      · exact ⟨op, l, hpar, h1⟩
  · rintro rfl
    obtain ⟨known, h1, h2⟩ := S.known
    have hnd : (Dict.keys known).Nodup := by
      obtain ⟨rc, rfs, rfl, hk⟩ := h1
      have := wf_field S.wf hk
      rw [WF] at this
      exact this.1
    refine ⟨known, h1, hnd, h2, ?_⟩
    obtain ⟨v, hv⟩ := Option.isSome_iff_exists.1 (S.hasFields ts _ fs
      [c!"type", c!"$ref", c!"items", c!"uniqueItems", c!"authorizations", c!"consumes"] c!"authorizations" ha
      (by decide) (by decide))
    rcases S.used ts _ fs v ha rfl hv with rfl | ⟨used, rfl⟩
    · exact Or.inl ⟨_, _, rfl, hv⟩
    · refine Or.inr ⟨used, ⟨_, _, rfl, hv⟩, ?_, fun k v hm => ?_⟩
      · have := wf_field (wf_at ha S.wf) hv
        rw [WF] at this
        exact this.1
      · by_cases hk : k ∈ Dict.keys known
        · exact hk
        · exact absurd ⟨ts, _, fs, used, known, k, v, ha, rfl, hv, hm, h1, hk⟩ hu

theorem root_obj (S : Shaped className root) : isObj root = true := by
  obtain ⟨c, fs, rfl, _⟩ := S.top
  rfl

/-- Validation lists every violation of a rule once, under the pointer and the class of the object,
and nothing else. -/
theorem C60_errors (S : Shaped className root) (hu : ¬ UnknownAuth className root)
    (hf : ¬ FileUnconsumed className root) :
    ∃ errs, Validate12.errors str root = .ok errs ∧ errs.Nodup ∧
      ∀ e, e ∈ errs ↔ ∃ ts c fs m, At [] root ts (.obj c fs) ∧
        Breaks str root (Owner root ts) (className c) (.obj c fs) m ∧ e = ((pointer ts, className c), m) := by
  have hro := root_obj S
  have hvis : ∀ v ∈ traversal root [], ∃ ts c fs, v = (pointer ts, .obj c fs) ∧ At [] root ts (.obj c fs) := by
    rintro ⟨p, o⟩ hv
    obtain ⟨h1, ts, rfl, h2⟩ := (C03.C03_visited root [] S.wf hro p o).1 hv
    cases o with
    | obj c fs => exact ⟨ts, c, fs, rfl, h2⟩
    | _ => cases h1
  let msgs : Str × Tree → List Str := fun v =>
    ((cls? v.2).toList.flatMap (hs str)).flatMap (out root v.2 (parentAt root v.1))
  have hmsgs : ∀ ts c fs, msgs (pointer ts, .obj c fs) =
      (hs str c).flatMap (out root (.obj c fs) (parentAt root (pointer ts))) := by
    intro ts c fs
    simp [msgs, cls?]
  have hok : Validate12.errors str root = .ok ((traversal root []).flatMap fun v =>
      (msgs v).map fun m => ((v.1, className ((cls? v.2).getD base)), m)) := by
    rw [errors_eq, collect_ok]
    · congr 1
      rw [List.flatMap_assoc]
      congr 1
      funext v
      simp only [List.flatMap_map, msgs, List.map_flatMap, hs, told, List.flatMap_assoc]
    · intro cl hcl
      obtain ⟨v, hv, hcl⟩ := List.mem_flatMap.1 hcl
      obtain ⟨ts, c, fs, rfl, ha⟩ := hvis v hv
      obtain ⟨f, hfm, rfl⟩ := List.mem_map.1 hcl
      have := (good_obj (str := str) S hu hf ha).1 f (by simpa [hs, cls?] using hfm)
      exact this
  refine ⟨_, hok, ?_, fun e => ?_⟩
  · have hnd := (C03.C03_order root [] S.wf hro).1
    have key : ∀ l : List (Str × Tree), (l.map Prod.fst).Nodup →
        (∀ v ∈ l, ∃ ts c fs, v = (pointer ts, .obj c fs) ∧ At [] root ts (.obj c fs)) →
        (l.flatMap fun v => (msgs v).map fun m => ((v.1, className ((cls? v.2).getD base)), m)).Nodup := by
      intro l
      induction l with
      | nil => intro _ _; exact List.nodup_nil
      | cons v l ih =>
        intro hn hl
        rw [List.map_cons, List.nodup_cons] at hn
        rw [List.flatMap_cons, List.nodup_append]
        refine ⟨?_, ih hn.2 fun v hv => hl v (by simp [hv]), ?_⟩
        · obtain ⟨ts, c, fs, rfl, ha⟩ := hl v (by simp)
          have h2 := (good_obj (str := str) S hu hf ha).2.1
          rw [List.nodup_iff_pairwise_ne, List.pairwise_map, hmsgs]
          exact (List.nodup_iff_pairwise_ne.1 h2).imp fun h e => h (Prod.mk.inj e).2
        · intro a ha b hb e
          subst e
          obtain ⟨m, _, rfl⟩ := List.mem_map.1 ha
          obtain ⟨w, hw, hb⟩ := List.mem_flatMap.1 hb
          obtain ⟨m', _, e⟩ := List.mem_map.1 hb
          have := (Prod.mk.inj (Prod.mk.inj e).1).1
          exact hn.1 (List.mem_map.2 ⟨w, hw, this⟩)
    exact key _ hnd hvis
  · rw [List.mem_flatMap]
    constructor
    · rintro ⟨v, hv, hm⟩
      obtain ⟨ts, c, fs, rfl, ha⟩ := hvis v hv
      obtain ⟨m, hm', rfl⟩ := List.mem_map.1 hm
      rw [hmsgs] at hm'
      exact ⟨ts, c, fs, m, ha, ((good_obj (str := str) S hu hf ha).2.2 m).1 hm', by simp [cls?]⟩
    · rintro ⟨ts, c, fs, m, ha, hb, rfl⟩
      refine ⟨(pointer ts, .obj c fs), (C03.C03_visited root [] S.wf hro _ _).2 ⟨rfl, ts, rfl, ha⟩, ?_⟩
      refine List.mem_map.2 ⟨m, ?_, by simp [cls?]⟩
      rw [hmsgs]
      exact ((good_obj (str := str) S hu hf ha).2.2 m).2 hb

theorem auths_of {c : Nat} {fs : List (Str × Tree)} (op : Option Tree) {used known : List (Str × Tree)}
    (hv : Dict.get? fs c!"authorizations" = some (.dict used)) (hk : Has root c!"authorizations" (.dict known))
    (hne : used ≠ []) : validateAuths root op (.obj c fs) = auths known used := by
  obtain ⟨rc, rfs, rfl, hk⟩ := hk
  simp only [validateAuths, field_ok hv, field_ok hk, bind, Except.bind]
  cases used with
  | nil => exact absurd rfl hne
  | cons x used => simp [truth]

theorem handler_error (S : Shaped className root) {ts : List Str} {c : Nat} {fs : List (Str × Tree)}
    (ha : At [] root ts (.obj c fs)) {h : Handler} (hh : h ∈ hs str c) {e : Exc}
    (he : h root (parentAt root (pointer ts)) (.obj c fs) = .error e) :
    (e = .KeyError ∧ UnknownAuth className root) ∨ (e = .TypeError ∧ FileUnconsumed className root) := by
  have hcl := S.isClass ts c fs ha
  have hd := fun xs x h1 h2 => S.hasFields ts c fs xs x ha h1 h2
  have notok : ∀ own, ¬ All root (.obj c fs) (parentAt root (pointer ts)) (hs str c)
      (Breaks str root own (className c) (.obj c fs)) := by
    intro own hall
    obtain ⟨ms, h1⟩ := hall.1 h hh
    rw [h1] at he
    cases he
  by_cases hp : c = parameter
  · subst hp
    right
    obtain ⟨op, ho⟩ := S.owner ts _ fs ha rfl
    have hpar := parent_owner S.wf ho
    by_cases hbad : Says (.obj parameter fs) c!"type" c!"File" ∧ Missing op c!"consumes"
    · obtain ⟨⟨_, _, e1, hty⟩, hm⟩ := hbad
      cases e1
      refine ⟨?_, ts, _, fs, op, ha, rfl, hty, ho, hm⟩
      have hreq : ∀ n ∈ [c!"paramType", c!"name"], (Dict.get? fs n).isSome = true :=
        fun n hn => hd _ n (by decide) hn
      have hdat : ∀ n ∈ [c!"type", c!"$ref", c!"items", c!"uniqueItems", c!"allowMultiple"],
          (Dict.get? fs n).isSome = true := fun n hn => hd _ n (by decide) hn
      have hl : hs str parameter = [validateParam str, checkReqs [c!"paramType", c!"name"], validateData] := rfl
      rw [hl] at hh
      simp only [List.mem_cons, List.not_mem_nil, or_false] at hh
      rcases hh with rfl | rfl | rfl
      · rw [param_error root _ str (c := parameter) (fs := fs) (by
          intro n hn
          simp only [List.mem_cons, List.not_mem_nil, or_false] at hn
          rcases hn with rfl | rfl | rfl | rfl
          · exact hdat _ (by decide)
          · exact hreq _ (by decide)
          · exact hdat _ (by decide)
          · exact hreq _ (by decide)) ⟨_, _, rfl, hty⟩ hpar hm] at he
        cases he
        rfl
      · obtain ⟨ms, h1, _⟩ := reqs_ok (c := parameter) root (parentAt root (pointer ts)) _ hreq
        rw [h1] at he
        cases he
      · obtain ⟨ms, h1, _⟩ := data_ok (c := parameter) (fs := fs) root (parentAt root (pointer ts)) (by
          intro n hn
          apply hdat
          revert n
          decide)
        rw [h1] at he
        cases he
    · exfalso
      apply notok (Owner root ts)
      refine obj_verdict str root _ hcl hd (fun _ => ⟨fun p => ⟨fun h => parent_owner S.wf h, fun h => ?_⟩, fun hfile => ?_⟩)
        (fun h => absurd h (by decide))
      · rw [hpar] at h
        cases h
        exact ho
      · obtain ⟨v, h1, rfl | ⟨l, rfl⟩⟩ := S.op ts op ho
        · exact absurd ⟨hfile, h1⟩ hbad
        · exact ⟨op, l, hpar, h1⟩
  · by_cases hop : c = operation
    · subst hop
      left
      obtain ⟨known, h1, h2⟩ := S.known
      have hnd : (Dict.keys known).Nodup := by
        obtain ⟨rc, rfs, rfl, hk⟩ := h1
        have := wf_field S.wf hk
        rw [WF] at this
        exact this.1
      have hdat : ∀ n ∈ [c!"type", c!"$ref", c!"items", c!"uniqueItems", c!"authorizations", c!"consumes"],
          (Dict.get? fs n).isSome = true := fun n hn => hd _ n (by decide) hn
      obtain ⟨v, hv⟩ := Option.isSome_iff_exists.1 (hdat c!"authorizations" (by decide))
      rcases S.used ts _ fs v ha rfl hv with rfl | ⟨used, rfl⟩
      · exfalso
        apply notok (Owner root ts)
        exact obj_verdict str root _ hcl hd (fun h => absurd h (by decide))
          (fun _ => ⟨known, h1, hnd, h2, Or.inl ⟨_, _, rfl, hv⟩⟩)
      · by_cases hbad : ∃ k v, (k, v) ∈ used ∧ k ∉ Dict.keys known
        · have hbad' := hbad
          obtain ⟨k, v, hm, hk⟩ := hbad
          refine ⟨?_, ts, _, fs, used, known, k, v, ha, rfl, hv, hm, h1, hk⟩
          have hl : hs str operation = [validateAuths, checkReqs [c!"method", c!"nickname", c!"parameters"], validateData] := rfl
          rw [hl] at hh
          simp only [List.mem_cons, List.not_mem_nil, or_false] at hh
          rcases hh with rfl | rfl | rfl
          · rw [auths_of _ hv h1 (by rintro rfl; cases hm), auths_error h2 used hbad'] at he
            cases he
            rfl
          · obtain ⟨ms, h1, _⟩ := reqs_ok (c := operation) (fs := fs) root (parentAt root (pointer ts))
              [c!"method", c!"nickname", c!"parameters"] (fun n hn => hd _ n (by decide) hn)
            rw [h1] at he
            cases he
          · obtain ⟨ms, h1, _⟩ := data_ok (c := operation) (fs := fs) root (parentAt root (pointer ts)) (by
              intro n hn
              apply hdat
              revert n
              decide)
            rw [h1] at he
            cases he
        · exfalso
          apply notok (Owner root ts)
          refine obj_verdict str root _ hcl hd (fun h => absurd h (by decide))
            (fun _ => ⟨known, h1, hnd, h2, Or.inr ⟨used, ⟨_, _, rfl, hv⟩, ?_, fun k v hm => ?_⟩⟩)
          · have := wf_field (wf_at ha S.wf) hv
            rw [WF] at this
            exact this.1
          · by_cases hk : k ∈ Dict.keys known
            · exact hk
            · exact absurd ⟨k, v, hm, hk⟩ hbad
    · exfalso
      apply notok (Owner root ts)
      exact obj_verdict str root _ hcl hd (fun h => absurd h hp) (fun h => absurd h hop)

/-- an error of a handler is an error of the validation -/
theorem raises_of (S : Shaped className root) {ts : List Str} {c : Nat} {fs : List (Str × Tree)}
    (ha : At [] root ts (.obj c fs)) {h : Handler} (hh : h ∈ hs str c) {e : Exc}
    (he : h root (parentAt root (pointer ts)) (.obj c fs) = .error e) :
    ∃ e, Validate12.errors str root = .error e ∧
      ((e = .KeyError ∧ UnknownAuth className root) ∨ (e = .TypeError ∧ FileUnconsumed className root)) := by
  rw [errors_eq]
  obtain ⟨cl, hcl, e', h1, h2⟩ := collect_error (root := root)
    (calls := (traversal root []).flatMap fun v =>
      (((cls? v.2).toList.flatMap mro).flatMap (Props.C03.handlersOf (rules str))).map fun f => ⟨0, f, v.1, v.2⟩) (by
    refine ⟨⟨0, h, pointer ts, .obj c fs⟩, ?_, e, he⟩
    refine List.mem_flatMap.2 ⟨(pointer ts, .obj c fs),
      (C03.C03_visited root [] S.wf (root_obj S) _ _).2 ⟨rfl, ts, rfl, ha⟩, ?_⟩
    exact List.mem_map.2 ⟨h, by simpa [hs, cls?] using hh, rfl⟩)
  refine ⟨e', h2, ?_⟩
  obtain ⟨⟨p, o⟩, hv, hm⟩ := List.mem_flatMap.1 hcl
  obtain ⟨h3, us, rfl, h4⟩ := (C03.C03_visited root [] S.wf (root_obj S) p o).1 hv
  cases o with
  | obj c' fs' =>
    obtain ⟨f, hf, rfl⟩ := List.mem_map.1 hm
    exact handler_error (str := str) S h4 (by simpa [hs, cls?] using hf) h1
  | _ => cases h3

/-- Validation fails exactly if an operation asks for an unknown authorisation (`KeyError`) or has a
file parameter without `consumes` (`TypeError`). -/
theorem C60_raises (S : Shaped className root) :
    (∃ e, Validate12.errors str root = .error e) ↔ UnknownAuth className root ∨ FileUnconsumed className root := by
  constructor
  · rintro ⟨e, he⟩
    by_cases hu : UnknownAuth className root
    · exact Or.inl hu
    · by_cases hf : FileUnconsumed className root
      · exact Or.inr hf
      · obtain ⟨errs, h, _⟩ := C60_errors (str := str) S hu hf
        rw [h] at he
        cases he
  · rintro (⟨ts, c, fs, used, known, k, v, ha, hc, hv, hm, hk, hn⟩ | ⟨ts, c, fs, op, ha, hc, hty, ho, hmi⟩)
    · obtain ⟨known', h1, h2⟩ := S.known
      have : known' = known := by
        obtain ⟨rc, rfs, rfl, hk⟩ := hk
        have := (has_iff hk _).1 h1
        cases this
        rfl
      subst this
      have hcc : c = operation := by
        have h20 := (class_cases (S.isClass ts c fs ha)).1
        have key : ∀ c < 20, className c = c!"Operation" → c = operation := by decide
        exact key c h20 hc
      subst hcc
      obtain ⟨e, h, _⟩ := raises_of (str := str) S ha (h := validateAuths) (by simp [hs, mro, C03.handlersOf, rules, operation, parameter, property, items, authorization, grantType, dataType, base])
        (by rw [auths_of _ hv h1 (by rintro rfl; cases hm)]; exact auths_error h2 used ⟨k, v, hm, hn⟩)
      exact ⟨e, h⟩
    · have hcc : c = parameter := by
        have h20 := (class_cases (S.isClass ts c fs ha)).1
        have key : ∀ c < 20, className c = c!"Parameter" → c = parameter := by decide
        exact key c h20 hc
      subst hcc
      have hreq : ∀ n ∈ [c!"paramType", c!"name"], (Dict.get? fs n).isSome = true :=
        fun n hn => S.hasFields ts _ fs _ n ha (by decide) hn
      have hdat : ∀ n ∈ [c!"type", c!"$ref", c!"items", c!"uniqueItems", c!"allowMultiple"],
          (Dict.get? fs n).isSome = true := fun n hn => S.hasFields ts _ fs _ n ha (by decide) hn
      have hl : hs str parameter = [validateParam str, checkReqs [c!"paramType", c!"name"], validateData] := rfl
      obtain ⟨e, h, _⟩ := raises_of (str := str) S ha (h := validateParam str) (by rw [hl]; simp)
        (param_error root _ str (c := parameter) (fs := fs) (by
          intro n hn
          simp only [List.mem_cons, List.not_mem_nil, or_false] at hn
          rcases hn with rfl | rfl | rfl | rfl
          · exact hdat _ (by decide)
          · exact hreq _ (by decide)
          · exact hdat _ (by decide)
          · exact hreq _ (by decide)) ⟨_, _, rfl, hty⟩ (parent_owner S.wf ho) hmi)
      exact ⟨e, h⟩

/-- which exception it is -/
theorem C60_exception (S : Shaped className root) {e : Exc} (h : Validate12.errors str root = .error e) :
    (e = .KeyError ∧ UnknownAuth className root) ∨ (e = .TypeError ∧ FileUnconsumed className root) := by
  have hall : ∃ cl ∈ (traversal root []).flatMap fun v =>
      (((cls? v.2).toList.flatMap mro).flatMap (Props.C03.handlersOf (rules str))).map
        fun f => (⟨0, f, v.1, v.2⟩ : Called Handler), ∃ e, cl.handler root (parentAt root cl.path) cl.obj = .error e := by
    apply Classical.byContradiction
    intro hno
    have := collect_ok (root := root) (calls := (traversal root []).flatMap fun v =>
      (((cls? v.2).toList.flatMap mro).flatMap (Props.C03.handlersOf (rules str))).map
        fun f => ⟨0, f, v.1, v.2⟩) (by
      intro cl hcl
      cases hx : cl.handler root (parentAt root cl.path) cl.obj with
      | ok ms => exact ⟨ms, rfl⟩
      | error e => exact absurd ⟨cl, hcl, e, hx⟩ hno)
    rw [errors_eq, this] at h
    cases h
  obtain ⟨cl, hcl, e', he'⟩ := hall
  obtain ⟨⟨p, o⟩, hv, hm⟩ := List.mem_flatMap.1 hcl
  obtain ⟨h3, us, rfl, h4⟩ := (C03.C03_visited root [] S.wf (root_obj S) p o).1 hv
  cases o with
  | obj c' fs' =>
    obtain ⟨f, hf, rfl⟩ := List.mem_map.1 hm
    obtain ⟨e2, h5, h6⟩ := raises_of (str := str) S h4 (by simpa [hs, cls?] using hf) he'
    rw [h] at h5
    cases h5
    exact h6
  | _ => cases h3

/-- In strict mode `validate` raises `ValidationError` exactly if there is an error; otherwise, and
without strict mode, it returns the list. -/
theorem C60_strict (strict : Bool) (errs : List Err) (h : Validate12.errors str root = .ok errs) :
    Validate12.validate str root strict =
      if strict = true ∧ errs ≠ [] then .error .ValidationError else .ok errs := by
  unfold Validate12.validate
  rw [h]
  cases strict <;> cases errs <;> simp

/-! ## Cases -/

mutual
/-- a property of all objects of a tree and their places -/
def every (P : List Str → Tree → Bool) (pre : List Str) : Tree → Bool
  | .atom _ => true
  | .list l => everyL P pre 0 l
  | .dict d => everyD P pre d
  | .obj c fs => P pre (.obj c fs) && everyD P pre fs
def everyL (P : List Str → Tree → Bool) (pre : List Str) (i : Nat) : List Tree → Bool
  | [] => true
  | t :: l => every P (pre ++ [natStr i]) t && everyL P pre (i + 1) l
def everyD (P : List Str → Tree → Bool) (pre : List Str) : List (Str × Tree) → Bool
  | [] => true
  | (k, t) :: d => every P (pre ++ [k]) t && everyD P pre d
end

theorem everyL_mem {P : List Str → Tree → Bool} {pre : List Str} {l : List Tree} {i j : Nat} {v : Tree}
    (h : everyL P pre j l = true) (hi : l[i]? = some v) : every P (pre ++ [natStr (j + i)]) v = true := by
  induction l generalizing i j with
  | nil => simp at hi
  | cons t l ih =>
    rw [everyL, Bool.and_eq_true] at h
    cases i with
    | zero => simp at hi; subst hi; exact h.1
    | succ i => have := ih h.2 (i := i) (by simpa using hi); rwa [Nat.add_right_comm] at this

theorem everyD_mem {P : List Str → Tree → Bool} {pre : List Str} {d : List (Str × Tree)} {k : Str} {v : Tree}
    (h : everyD P pre d = true) (hk : (k, v) ∈ d) : every P (pre ++ [k]) v = true := by
  induction d with
  | nil => cases hk
  | cons x d ih =>
    obtain ⟨k', t⟩ := x
    rw [everyD, Bool.and_eq_true] at h
    rcases List.mem_cons.1 hk with e | hk
    · cases e; exact h.1
    · exact ih h.2 hk

theorem every_at {P : List Str → Tree → Bool} {t : Tree} {ts : List Str} {o : Tree} (h : At [] t ts o) :
    ∀ {pre : List Str}, every P pre t = true → isObj o = true → P (pre ++ ts) o = true := by
  induction h with
  | here t =>
    intro pre h ho
    cases t with
    | obj c fs => rw [every, Bool.and_eq_true] at h; simpa using h.1
    | _ => cases ho
  | field c fs n v ts u _ hn _ ih =>
    intro pre h ho
    rw [every, Bool.and_eq_true] at h
    have := ih (everyD_mem h.2 hn) ho
    simpa using this
  | item l i v ts u hi _ ih =>
    intro pre h ho
    rw [every] at h
    have := ih (everyL_mem h hi) ho
    simpa using this
  | key d k v ts u hk _ ih =>
    intro pre h ho
    rw [every] at h
    have := ih (everyD_mem h hk) ho
    simpa using this

def txt (s : String) : Tree := .atom (.str s.toList)
def non : Tree := .atom .none

/-- a file parameter in the body, called `f` -/
def param : Tree := .obj 12 [(c!"paramType", txt "body"), (c!"name", txt "f"), (c!"type", txt "File"), (c!"$ref", non),
  (c!"items", non), (c!"uniqueItems", non), (c!"allowMultiple", non)]

/-- an operation with that parameter -/
def oper (auths consumes : Tree) : Tree := .obj 13 [(c!"method", txt "POST"), (c!"nickname", txt "up"),
  (c!"parameters", .list [param]), (c!"type", txt "void"), (c!"$ref", non), (c!"items", non), (c!"uniqueItems", non),
  (c!"authorizations", auths), (c!"consumes", consumes)]

/-- a resource list with an API key, and a resource without base path -/
def doc (auths consumes : Tree) : Tree := .obj 19 [(c!"swaggerVersion", txt "1.2"),
  (c!"apis", .dict [(c!"pet", .obj 17 [(c!"swaggerVersion", txt "1.2"), (c!"basePath", non),
    (c!"apis", .dict [(c!"up", oper auths consumes)])])]),
  (c!"authorizations", .dict [(c!"key", .obj 10 [(c!"type", txt "apiKey"), (c!"passAs", txt "header"),
    (c!"keyname", txt ""), (c!"grantTypes", non)])])]

def aKey : Tree := .dict [(c!"key", .list [txt "read"])]

/-- the boolean version of `Shaped` -/
def check (where_ : List Str) (pre : List Str) (o : Tree) : Bool :=
  match o with
  | .obj c fs =>
    (className c ∈ classes) && (declared.all fun x => x.1 != className c || x.2.all fun n => (Dict.get? fs n).isSome) &&
    (className c != c!"Parameter" || pre == where_) &&
    (className c != c!"Operation" ||
      match Dict.get? fs c!"authorizations" with
      | some (.atom .none) => true
      | some (.dict _) => true
      | _ => false) &&
    (match Dict.get? fs c!"parameters" with
      | some (.list _) =>
        match Dict.get? fs c!"consumes" with
        | some (.atom .none) => true
        | some (.list _) => true
        | _ => false
      | _ => true)
  | _ => true

theorem check_shaped {root : Tree} (w : List Str) (h : every (check w) [] root = true) (hw : WF root)
    (ht : ∃ c fs, root = .obj c fs ∧ className c = c!"ResourceList") (ho : ∃ op, Owner root w op)
    (hk : ∃ d, Has root c!"authorizations" (.dict d) ∧ ∀ k a, (k, a) ∈ d → ∃ v, Has a c!"type" v) :
    Shaped className root where
  wf := hw
  top := ht
  isClass := by
    intro ts c fs ha
    have := every_at ha h rfl
    simp only [check, Bool.and_eq_true, decide_eq_true_eq] at this
    exact this.1.1.1.1
  hasFields := by
    intro ts c fs xs x ha h1 h2
    have := every_at ha h rfl
    simp only [check, Bool.and_eq_true] at this
    have := List.all_eq_true.1 this.1.1.1.2 _ h1
    simp only [bne_self_eq_false, Bool.false_or] at this
    exact List.all_eq_true.1 this x h2
  owner := by
    intro ts c fs ha hc
    have := every_at ha h rfl
    simp only [check, Bool.and_eq_true, hc, bne_self_eq_false, Bool.false_or, beq_iff_eq] at this
    have := this.1.1.2
    rw [List.nil_append] at this
    rw [this]
    exact ho
  op := by
    rintro ts op ⟨us, i, l, rfl, ha, c, fs, rfl, hp⟩
    have := every_at ha h rfl
    simp only [check, Bool.and_eq_true, hp] at this
    have := this.2
    split at this
    · next hc => exact ⟨_, ⟨_, _, rfl, hc⟩, Or.inl rfl⟩
    · next l hc => exact ⟨_, ⟨_, _, rfl, hc⟩, Or.inr ⟨l, rfl⟩⟩
    · cases this
  used := by
    intro ts c fs v ha hc hv
    have := every_at ha h rfl
    simp only [check, Bool.and_eq_true, hc, bne_self_eq_false, Bool.false_or, hv] at this
    have := this.1.2
    split at this
    · next e => cases e; exact Or.inl rfl
    · next d e => cases e; exact Or.inr ⟨d, rfl⟩
    · cases this
  known := hk

theorem doc_shaped (auths consumes : Tree) (hw : WF (doc auths consumes))
    (h : every (check [c!"apis", c!"pet", c!"apis", c!"up", c!"parameters", c!"0"]) [] (doc auths consumes) = true) :
    Shaped className (doc auths consumes) := by
  refine check_shaped _ h hw ⟨_, _, rfl, rfl⟩ ?_ ?_
  · refine ⟨oper auths consumes, [c!"apis", c!"pet", c!"apis", c!"up"], 0, [param], by decide +kernel, ?_,
      _, _, rfl, rfl⟩
    refine .field _ _ _ _ _ _ (by simp) (List.mem_cons_of_mem _ (List.mem_cons_self ..)) ?_
    refine .key _ _ _ _ _ (List.mem_cons_self ..) ?_
    refine .field _ _ _ _ _ _ (by simp) (List.mem_cons_of_mem _ (List.mem_cons_of_mem _ (List.mem_cons_self ..))) ?_
    exact .key _ _ _ _ _ (List.mem_cons_self ..) (.here _)
  · refine ⟨_, ⟨_, _, rfl, rfl⟩, ?_⟩
    intro k a hm
    simp only [List.mem_singleton, Prod.mk.injEq] at hm
    obtain ⟨_, rfl⟩ := hm
    exact ⟨_, _, _, rfl, rfl⟩

/-- the hypotheses of the theorems can be met -/
example : Shaped className (doc aKey (.list [])) :=
  doc_shaped _ _ (by simp [doc, oper, param, aKey, txt, non, WF, WFDict, WFList, Dict.keys]) (by decide +kernel)

/-- the violations of that document -/
example : Validate12.errors (fun _ => []) (doc aKey (.list [])) = .ok
    [((c!"#/authorizations/key", c!"Authorization"), c!"need \"keyname\" for apiKey"),
     ((c!"#/apis/pet", c!"Resource"), c!"requirement basePath not meet."),
     ((c!"#/apis/pet/apis/up", c!"Operation"), c!"auth key should be an empty list"),
     ((c!"#/apis/pet/apis/up/parameters/0", c!"Parameter"), c!"body parameter with invalid name: f"),
     ((c!"#/apis/pet/apis/up/parameters/0", c!"Parameter"), c!"File parameter should be form type: f"),
     ((c!"#/apis/pet/apis/up/parameters/0", c!"Parameter"),
      c!"File parameter should consume multipart/form-data: f")] := by decide +kernel

/-- An unknown authorisation is not reported: validation raises `KeyError`. -/
theorem C60_unknown_false : ∃ root, Shaped className root ∧ UnknownAuth className root ∧
    Validate12.errors (fun _ => []) root = .error .KeyError := by
  refine ⟨doc (.dict [(c!"oauth", .list [])]) (.list [txt "multipart/form-data"]),
    doc_shaped _ _ (by simp [doc, oper, param, txt, non, WF, WFDict, WFList, Dict.keys]) (by decide +kernel), ?_,
    by decide +kernel⟩
  have ha : At [] (doc (.dict [(c!"oauth", .list [])]) (.list [txt "multipart/form-data"]))
      [c!"apis", c!"pet", c!"apis", c!"up"] (oper (.dict [(c!"oauth", .list [])]) (.list [txt "multipart/form-data"])) := by
    refine .field _ _ _ _ _ _ (by simp) (List.mem_cons_of_mem _ (List.mem_cons_self ..)) ?_
    refine .key _ _ _ _ _ (List.mem_cons_self ..) ?_
    refine .field _ _ _ _ _ _ (by simp) (List.mem_cons_of_mem _ (List.mem_cons_of_mem _ (List.mem_cons_self ..))) ?_
    exact .key _ _ _ _ _ (List.mem_cons_self ..) (.here _)
  exact ⟨_, _, _, _, _, c!"oauth", .list [], ha, rfl, rfl, List.mem_cons_self .., ⟨_, _, rfl, rfl⟩, by decide +kernel⟩

/-- A file parameter in an operation without `consumes` is not reported: validation raises
`TypeError`. -/
theorem C60_file_false : ∃ root, Shaped className root ∧ Validate12.errors (fun _ => []) root = .error .TypeError :=
  ⟨doc non non, doc_shaped _ _ (by simp [doc, oper, param, txt, non, WF, WFDict, WFList, Dict.keys])
    (by decide +kernel), by decide +kernel⟩

end Props.C60
