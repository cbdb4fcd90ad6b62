import Verif.Proofs.Prim
import Verif.Proofs.Str
import Mathlib.Data.List.Forall2
import Verif.Props.C33
/-!
# C35: arrays respect item limits, uniqueness and serialise reversibly
-/

namespace Props.C35
open Py Prim

variable {ω : Type}

/-- the values an array is built from: a list, the pieces of a text, the keys of a dict -/
def given (sep : Option Char) : Val → Option (List Val)
  | .list l => some l
  | .str s => sep.map fun c => (splitChar c s).map .str
  | .dict d => some (d.map fun e => .str e.1)
  | _ => none

/-- the elements that do not equal `e` -/
def without (eq : Val → Val → Bool) (e : Val) (l : List Val) : List Val := l.filter fun x => !eq x e

/-- the list without the elements equal to an earlier one -/
def firsts (eq : Val → Val → Bool) : List Val → List Val
  | [] => []
  | e :: l => e :: firsts eq (without eq e l)
  termination_by l => l.length
  decreasing_by
    simp only [List.length_cons]
    exact Nat.lt_succ_of_le (List.length_filter_le ..)

/-- the number of elements respects the limits; 0 is no limit -/
structure Limits (o : Node) (k : Nat) : Prop where
  min : ∀ m, o.minItems = some m → m ≤ k
  max : ∀ m, o.maxItems = some m → m ≠ 0 → k ≤ m

theorem unique_eq (eq : Val → Val → Bool) (seen l : List Val) :
    unique eq seen l = seen ++ firsts eq (l.filter fun x => !seen.any (eq x)) := by
  induction l generalizing seen with
  | nil => simp [unique, firsts]
  | cons e l ih =>
    rw [unique]
    by_cases h : seen.any (eq e) = true
    · rw [if_pos h, ih, List.filter_cons, if_neg (by simp [h])]
    · rw [if_neg h, ih, List.filter_cons, if_pos (by simp at h; simpa using h), firsts,
        List.append_assoc, List.singleton_append, without, List.filter_filter]
      congr 3
      apply List.filter_congr
      intro x _
      simp [Bool.and_comm]

theorem produceAll_iff (env : Env ω) (n it : Nat) (es : List Val) (xs : List (Prim ω)) :
    produceAll (produce env n) it es = .ok xs ↔
      List.Forall₂ (fun v x => convert env n it v true = .ok x) es xs := by
  induction es generalizing xs with
  | nil =>
    simp only [produceAll, Except.ok.injEq]
    constructor
    · rintro rfl; exact .nil
    · intro h; cases h; rfl
  | cons v es ih =>
    have hn : nested (produce env n) it v = convert env n it v true := rfl
    rw [produceAll, hn]
    constructor
    · intro h
      cases hx : convert env n it v true with
      | error e => rw [hx] at h; simp at h
      | ok x =>
        rw [hx] at h
        cases hp : produceAll (produce env n) it es with
        | error e => rw [hp] at h; simp at h
        | ok ys =>
          rw [hp] at h
          simp only [Except.ok.injEq] at h
          subst h
          exact .cons hx ((ih ys).1 hp)
    · intro h
      cases h with
      | cons h1 h2 =>
        rw [h1]
        simp only
        rw [(ih _).2 h2]

theorem produceAll_error (env : Env ω) (n it : Nat) (es : List Val) (e : Exc) :
    produceAll (produce env n) it es = .error e ↔
      ∃ a v b, es = a ++ v :: b ∧ (∀ w ∈ a, ∃ x, convert env n it w true = .ok x) ∧
        convert env n it v true = .error e := by
  induction es with
  | nil => simp [produceAll]
  | cons v es ih =>
    have hn : nested (produce env n) it v = convert env n it v true := rfl
    rw [produceAll, hn]
    cases hx : convert env n it v true with
    | error e' =>
      simp only [Except.error.injEq]
      constructor
      · rintro rfl; exact ⟨[], v, es, rfl, by simp, hx⟩
      · rintro ⟨a, w, b, h1, h2, h3⟩
        cases a with
        | nil => cases h1; rw [hx] at h3; cases h3; rfl
        | cons y a =>
          cases h1
          obtain ⟨x, hx'⟩ := h2 v (List.mem_cons_self ..)
          rw [hx] at hx'; cases hx'
    | ok x =>
      simp only
      constructor
      · intro h
        have : produceAll (produce env n) it es = .error e := by
          cases hp : produceAll (produce env n) it es with
          | error e' => rw [hp] at h; cases h; rfl
          | ok ys => rw [hp] at h; cases h
        obtain ⟨a, w, b, h1, h2, h3⟩ := ih.1 this
        refine ⟨v :: a, w, b, by rw [h1]; rfl, ?_, h3⟩
        intro u hu
        rcases List.mem_cons.1 hu with rfl | hu
        · exact ⟨x, hx⟩
        · exact h2 u hu
      · rintro ⟨a, w, b, h1, h2, h3⟩
        cases a with
        | nil => cases h1; rw [hx] at h3; cases h3
        | cons y a =>
          cases h1
          rw [ih.2 ⟨a, w, b, rfl, fun u hu => h2 u (List.mem_cons_of_mem _ hu), h3⟩]

theorem checkItems_spec (o : Node) (l : List (Prim ω)) :
    (Limits o l.length → checkItems o l = .ok ()) ∧
    (¬ Limits o l.length → checkItems o l = .error .ValidationError) := by
  have h1 : exceeds o.maxItems l.length = true ↔ ¬ ∀ m, o.maxItems = some m → m ≠ 0 → l.length ≤ m := by
    unfold exceeds
    cases o.maxItems with
    | none => simp
    | some m => simp
  have h2 : fallsShort o.minItems l.length = true ↔ ¬ ∀ m, o.minItems = some m → m ≤ l.length := by
    unfold fallsShort
    cases o.minItems with
    | none => simp
    | some m => simp; omega
  unfold checkItems
  constructor
  · intro hc
    rw [if_neg (fun h => (h2.1 h) hc.min), if_neg (fun h => (h1.1 h) hc.max)]
  · intro hc
    split
    · rfl
    · split
      · rfl
      next b c =>
        exfalso
        apply hc
        exact ⟨Classical.byContradiction fun hx => b (h2.2 hx),
          Classical.byContradiction fun hx => c (h1.2 hx)⟩

/-- the collection format in force -/
def formatOf (o : Node) : Str := o.collectionFormat.getD c!"csv"

theorem arrayApply_eq (env : Env ω) (n i it : Nat) (v : Val) (es : List Val)
    (hit : (env.node i).items = some it)
    (hg : given (separator (formatOf (env.node i))) v = some es) :
    ∃ rest : List (Prim ω) → Val, arrayApply env (produce env n) i [] v =
      match produceAll (produce env n) it (if (env.node i).uniqueItems then firsts env.eq es else es) with
      | .error e => .error e
      | .ok xs =>
        match checkItems (env.node i) xs with
        | .error e => .error e
        | .ok () => .ok (formatOf (env.node i), xs, rest xs) := by
  have hu : unique env.eq [] es = firsts env.eq es := by
    rw [unique_eq]
    have : es.filter (fun x => !([] : List Val).any (env.eq x)) = es := by simp
    rw [this, List.nil_append]
  -- a helper: what happens once the elements are known
  have main : ∀ w : Val, elems w = some es →
      ∃ rest : List (Prim ω) → Val, (do
        let v ← dedup env (env.node i) w
        let r ← extend (produce env n) (env.node i) [] v
        checkItems (env.node i) r.1
        pure (formatOf (env.node i), r.1, r.2) : Except Exc (Str × List (Prim ω) × Val)) =
      match produceAll (produce env n) it (if (env.node i).uniqueItems then firsts env.eq es else es) with
      | .error e => .error e
      | .ok xs =>
        match checkItems (env.node i) xs with
        | .error e => .error e
        | .ok () => .ok (formatOf (env.node i), xs, rest xs) := by
    intro w hw
    have h2 : ∃ w' fs, dedup env (env.node i) w = .ok w' ∧ elems w' = some fs ∧
        fs = (if (env.node i).uniqueItems then firsts env.eq es else es) := by
      unfold dedup
      by_cases h : (env.node i).uniqueItems = true
      · simp only [h, if_true, hw]
        exact ⟨_, _, rfl, rfl, hu⟩
      · simp only [h]
        exact ⟨_, _, rfl, hw, rfl⟩
    obtain ⟨w', fs, h3, h4, h5⟩ := h2
    rw [← h5]
    simp only [h3, bind, Except.bind, extend, hit, h4]
    cases fs with
    | nil =>
      refine ⟨fun _ => w', ?_⟩
      simp only [produceAll]
      cases checkItems (env.node i) ([] : List (Prim ω)) <;> rfl
    | cons x fs =>
      refine ⟨fun _ => .list [], ?_⟩
      simp only
      cases produceAll (produce env n) it (x :: fs) with
      | error e => rfl
      | ok xs =>
        simp only [List.nil_append]
        cases checkItems (env.node i) xs <;> rfl
  cases v with
  | str s =>
    simp only [given] at hg
    cases hsep : separator (formatOf (env.node i)) with
    | none => rw [hsep] at hg; simp at hg
    | some c =>
      rw [hsep] at hg
      simp only [Option.map_some, Option.some.injEq] at hg
      obtain ⟨rest, hr⟩ := main (.list es) rfl
      refine ⟨rest, ?_⟩
      rw [← hr]
      have : splitText ((env.node i).collectionFormat.getD c!"csv") (Val.str s) = .ok (.list es) := by
        have hsep' : separator ((env.node i).collectionFormat.getD c!"csv") = some c := hsep
        simp only [splitText, hsep', hg]
      unfold arrayApply
      simp only [this, bind, Except.bind]
      rfl
  | list l =>
    simp only [given, Option.some.injEq] at hg
    subst hg
    exact main (.list l) rfl
  | dict d =>
    exact main (.dict d) hg
  | none => simp [given] at hg
  | bool b => simp [given] at hg
  | int b => simp [given] at hg
  | float b => simp [given] at hg
  | other b => simp [given] at hg

/-- **C35** (elements). An array schema with items and without allOf, applied to a list, a text or
a dict: let `fs` be the given values, with `uniqueItems` only the first of equal ones. The result
is an array exactly when every value of `fs` converts by the items schema and the number of
elements respects the limits; its elements are the converted values in order. Otherwise the first
failing conversion or a `ValidationError` is raised. -/
theorem C35_array (env : Env ω) (n id i it : Nat) (v : Val) (read : Bool) (es fs : List Val)
    (hd : env.deref id = .ok i) (ht : Typed env i .array) (ha : (env.node i).allOf = [])
    (hit : (env.node i).items = some it)
    (hg : given (separator (formatOf (env.node i))) (effective env id v) = some es)
    (hfs : fs = if (env.node i).uniqueItems then firsts env.eq es else es) :
    (∀ r, convert env (n + 1) id v read = .ok r ↔
      ∃ xs, r = .array (formatOf (env.node i)) xs ∧
        List.Forall₂ (fun v x => convert env n it v true = .ok x) fs xs ∧
        Limits (env.node i) fs.length) ∧
    ((∃ a w b e, fs = a ++ w :: b ∧ (∀ u ∈ a, ∃ x, convert env n it u true = .ok x) ∧
        convert env n it w true = .error e ∧ convert env (n + 1) id v read = .error e) ∨
     ∃ xs, List.Forall₂ (fun v x => convert env n it v true = .ok x) fs xs ∧
        (¬ Limits (env.node i) fs.length → convert env (n + 1) id v read = .error .ValidationError)) := by
  have hv : effective env id v ≠ .none := by
    intro h; rw [h] at hg; simp [given] at hg
  obtain ⟨rest, hr⟩ := arrayApply_eq env n i it (effective env id v) es hit hg
  rw [← hfs] at hr
  have hc : convert env (n + 1) id v read =
      match produceAll (produce env n) it fs with
      | .error e => .error e
      | .ok xs => match checkItems (env.node i) xs with
        | .error e => .error e
        | .ok () => .ok (.array (formatOf (env.node i)) xs) := by
    rw [convert_step env n id i v read hd hv, first_typed env _ i _ _ ht.1 ht.2]
    simp only [create, hr]
    cases produceAll (produce env n) it fs with
    | error e => rfl
    | ok xs =>
      simp only
      cases checkItems (env.node i) xs with
      | error e => rfl
      | ok u =>
        simp only [isFinalAtom, applyAllOf_nil env _ i _ ha, finish, Bool.false_eq_true, if_false]
  rw [hc]
  cases hp : produceAll (produce env n) it fs with
  | error e =>
    refine ⟨?_, ?_⟩
    · intro r
      simp only [reduceCtorEq, false_iff]
      rintro ⟨xs, _, h, _⟩
      rw [(produceAll_iff env n it fs xs).2 h] at hp
      cases hp
    · obtain ⟨a, w, b, h1, h2, h3⟩ := (produceAll_error env n it fs e).1 hp
      exact Or.inl ⟨a, w, b, e, h1, h2, h3, rfl⟩
  | ok xs =>
    have hf := (produceAll_iff env n it fs xs).1 hp
    have hlen : fs.length = xs.length := by
      clear hp hc hr hg hfs
      induction hf with
      | nil => rfl
      | cons _ _ ih => simp [ih]
    rw [hlen]
    obtain ⟨c1, c2⟩ := checkItems_spec (env.node i) xs
    refine ⟨?_, Or.inr ⟨xs, hf, fun hl => by simp only [c2 hl]⟩⟩
    intro r
    by_cases hl : Limits (env.node i) xs.length
    · simp only [c1 hl, Except.ok.injEq]
      constructor
      · rintro rfl; exact ⟨xs, rfl, hf, hl⟩
      · rintro ⟨ys, rfl, h, _⟩
        have := (produceAll_iff env n it fs ys).2 h
        rw [hp] at this
        cases this
        rfl
    · simp only [c2 hl, reduceCtorEq, false_iff]
      rintro ⟨_, _, _, h⟩
      exact hl h

/-- **C35** (uniqueness). `firsts` keeps a sublist without equal elements (as far as `eq` sees
them, the later one on the left) and for every value an equal one or the value itself. -/
theorem C35_firsts (eq : Val → Val → Bool) (l : List Val) :
    (firsts eq l).Sublist l ∧
    (firsts eq l).Pairwise (fun a b => eq b a = false) ∧
    ∀ x ∈ l, ∃ y ∈ firsts eq l, x = y ∨ eq x y = true := by
  suffices H : ∀ (n : Nat) (l : List Val), l.length ≤ n →
      (firsts eq l).Sublist l ∧
      (firsts eq l).Pairwise (fun a b => eq b a = false) ∧
      ∀ x ∈ l, ∃ y ∈ firsts eq l, x = y ∨ eq x y = true from H _ _ (Nat.le_refl _)
  intro n
  induction n with
  | zero =>
    intro l hl
    have : l = [] := List.length_eq_zero_iff.1 (Nat.le_zero.1 hl)
    subst this
    simp [firsts]
  | succ n ih =>
    intro l hl
    cases l with
    | nil => simp [firsts]
    | cons e l =>
      have hle : (without eq e l).length ≤ n := by
        have := List.length_filter_le (fun x => !eq x e) l
        unfold without
        simp only [List.length_cons] at hl
        omega
      obtain ⟨h1, h2, h3⟩ := ih _ hle
      rw [firsts]
      refine ⟨?_, ?_, ?_⟩
      · exact (h1.trans List.filter_sublist).cons_cons e
      · refine List.pairwise_cons.2 ⟨?_, h2⟩
        intro b hb
        have := List.mem_filter.1 (h1.subset hb)
        simpa using this.2
      · intro x hx
        rcases List.mem_cons.1 hx with rfl | hx
        · exact ⟨x, List.mem_cons_self .., Or.inl rfl⟩
        · by_cases hq : eq x e = true
          · exact ⟨e, List.mem_cons_self .., Or.inr hq⟩
          · obtain ⟨y, hy, hxy⟩ := h3 x (List.mem_filter.2 ⟨hx, by simp [hq]⟩)
            exact ⟨y, List.mem_cons_of_mem _ hy, hxy⟩

/-! ## text form -/

theorem conv_nonempty (c : Char) (s : Str) (hs : s ≠ []) (l : List Str) :
    conv c s l = join [c] (s :: l) := by
  induction l generalizing s with
  | nil => rfl
  | cons v l ih =>
    rw [conv, if_pos hs, ih _ (by simp [hs])]
    cases l with
    | nil => simp [join]
    | cons w l => simp [join]

theorem conv_eq (c : Char) (l : List Str) :
    conv c [] l = join [c] (l.dropWhile (· = [])) := by
  induction l with
  | nil => rfl
  | cons v l ih =>
    rw [conv]
    by_cases hv : v = []
    · subst hv; simpa using ih
    · have hd : (v :: l).dropWhile (· = []) = v :: l := by
        rw [List.dropWhile_cons, if_neg (by simp [hv])]
      rw [hd, ← conv_nonempty c v hv l]
      rfl

/-- **C35** (text). The text of an array in a format with a separator is the elements from the
first non-empty one on, joined by the separator; read back with the same format it gives the same
elements exactly when the list is not empty and its first element is not empty unless it is the
only one (elements that contain the separator aside). -/
theorem C35_text (format : Str) (c : Char) (hc : separator format = some c) (l : List Str)
    (hl : ∀ x ∈ l, c ∉ x) :
    arrayStr format l = .ok (join [c] (l.dropWhile (· = []))) ∧
    (∀ s, arrayStr format l = .ok s →
      (given (separator format) (.str s) = some (l.map .str) ↔
        l = [[]] ∨ ∃ x rest, l = x :: rest ∧ x ≠ [])) := by
  have h1 : arrayStr format l = .ok (join [c] (l.dropWhile (· = []))) := by
    unfold arrayStr
    rw [hc]
    simp only [conv_eq]
  refine ⟨h1, ?_⟩
  intro s hs
  rw [h1] at hs
  cases hs
  simp only [given, hc, Option.map_some, Option.some.injEq]
  have hinj : ∀ a b : List Str, a.map Val.str = b.map Val.str ↔ a = b := by
    intro a
    induction a with
    | nil => intro b; cases b <;> simp
    | cons x a ih => intro b; cases b <;> simp [ih]
  rw [hinj]
  cases l with
  | nil => simp [join, splitChar]
  | cons x l =>
    by_cases hx : x = []
    · subst hx
      rw [List.dropWhile_cons, if_pos (by simp)]
      have hnx : ¬ ∃ y rest, ([] : Str) :: l = y :: rest ∧ y ≠ [] := by
        rintro ⟨y, r, h, hy⟩
        cases h
        exact hy rfl
      constructor
      · intro h
        left
        by_cases he : l.dropWhile (· = []) = []
        · rw [he] at h
          simpa [join, splitChar] using h.symm
        · have hj := splitChar_join (c := c) he (fun y hy =>
            hl y (List.mem_cons_of_mem _ ((List.dropWhile_suffix _).subset hy)))
          rw [hj] at h
          have hlen : (l.dropWhile (· = [])).length ≤ l.length := (List.dropWhile_suffix _).length_le
          have := congrArg List.length h
          simp only [List.length_cons] at this
          omega
      · rintro (h | h)
        · cases h
          simp [join, splitChar]
        · exact absurd h hnx
    · rw [List.dropWhile_cons, if_neg (by simpa using hx)]
      constructor
      · intro _
        exact Or.inr ⟨x, l, rfl, hx⟩
      · intro _
        exact splitChar_join (by simp) hl

/-- **C35** (URL form). The values put in a URL: one per element for `multi`, otherwise the text
form alone; formats without separator raise `SchemaError`. -/
theorem C35_url (format : Str) (l : List Str) :
    (format = c!"multi" → toUrl format l = .ok l) ∧
    (∀ c, separator format = some c → ∀ s, arrayStr format l = .ok s → toUrl format l = .ok [s]) ∧
    (format ≠ c!"multi" → separator format = none → toUrl format l = .error .SchemaError) := by
  refine ⟨?_, ?_, ?_⟩
  · intro h; simp [toUrl, h]
  · intro c hc s hs
    have : format ≠ c!"multi" := by rintro rfl; revert hc; simp [separator]
    unfold toUrl
    rw [if_neg this, hs]
  · intro h hs
    unfold toUrl arrayStr
    rw [if_neg h, hs]

/-- The four formats and their separators. -/
theorem C35_separators (format : Str) (c : Char) :
    separator format = some c ↔
      (format, c) ∈ [(c!"csv", ','), (c!"ssv", ' '), (c!"tsv", '\t'), (c!"pipes", '|')] := by
  unfold separator
  constructor
  · intro h
    repeat' split at h
    all_goals simp only [Option.some.injEq, reduceCtorEq] at h
    all_goals subst h
    all_goals simp_all
  · intro h
    simp only [List.mem_cons, Prod.mk.injEq, List.not_mem_nil, or_false] at h
    rcases h with ⟨rfl, rfl⟩ | ⟨rfl, rfl⟩ | ⟨rfl, rfl⟩ | ⟨rfl, rfl⟩ <;> decide

/-! ## examples and refutations -/

def objs (i : Nat) : Node :=
  if i = 0 then { type := some c!"array", items := some 1, uniqueItems := true, maxItems := some 2 }
  else { type := some c!"integer" }

example :
    Typed (C33.world objs) 0 .array ∧
    convert (C33.world objs) 2 0 (.list [.int 1, .int 2, .int 1]) true = .ok (.array c!"csv" [.int 1, .int 2]) ∧
    convert (C33.world objs) 2 0 (.list [.int 1, .int 2, .int 3]) true = .error .ValidationError :=
  ⟨⟨by decide, by decide⟩, by rfl, by rfl⟩

/-- Leading empty elements are lost in the text form. -/
theorem C35_empty_elements_false :
    ¬ ∀ (l : List Str) (s : Str), l ≠ [] → (∀ x ∈ l, ',' ∉ x) → arrayStr c!"csv" l = .ok s →
      splitChar ',' s = l := by
  intro H
  have := H [[], c!"a"] c!"a" (by decide) (by decide) (by decide)
  revert this; decide

/-- Duplicates are removed before conversion, so the array may still hold equal elements. -/
theorem C35_unique_after_conversion_false :
    ¬ ∀ (v : Val) (l : List (Prim Nat)),
      convert { C33.world objs with toInt := fun _ => .ok 7 } 2 0 v true = .ok (.array c!"csv" l) →
      l.Pairwise (· ≠ ·) := by
  intro H
  have := H (.list [.int 1, .str c!"1"]) [.int 7, .int 7] (by rfl)
  simp at this

/-- Without an items schema the given elements are dropped. -/
theorem C35_no_items_false :
    ¬ ∀ (o : Node) (l : List Val) (xs : List (Prim Nat)), o.type = some c!"array" →
      convert (C33.world fun _ => o) 2 0 (.list l) true = .ok (.array c!"csv" xs) →
      xs.length = l.length := by
  intro H
  have := H { type := some c!"array" } [.int 1] [] rfl (by rfl)
  revert this; decide

end Props.C35
