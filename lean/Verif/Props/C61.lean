import Verif.Model.Getter
import Verif.Proofs.Quote
import Verif.Props.C13
/-!
# C61: getters deliver every requested resource once, in order

`Reads` says what a loaded object is read as; `Locates` which file a path stands for, and under
which base path.
-/

namespace Props.C61
open Py Utils Getters

/-- What a loaded object is read as. -/
inductive Reads (json yaml : Str → Except Exc Val) : Loaded → Except Exc Val → Prop
  /-- a dict is passed through -/
  | dict (d) : Reads json yaml (.dict d) (.ok (.dict d))
  /-- text starting with a brace is JSON -/
  | json {s v} : json ('{' :: s) = .ok v → Reads json yaml (.text ('{' :: s)) (.ok v)
  /-- any other text is YAML -/
  | yaml {s v} : s.head? ≠ some '{' → yaml s = .ok v → Reads json yaml (.text s) (.ok v)
  /-- text refused by the JSON parser with `ValueError` -/
  | notJson {s} : json ('{' :: s) = .error .ValueError →
      Reads json yaml (.text ('{' :: s)) (.error .Exception)
  /-- text refused by the YAML parser with `ValueError` -/
  | notYaml {s} : s.head? ≠ some '{' → yaml s = .error .ValueError →
      Reads json yaml (.text s) (.error .Exception)
  /-- other failures of the JSON parser -/
  | jsonFails {s e} : json ('{' :: s) = .error e → e ≠ .ValueError →
      Reads json yaml (.text ('{' :: s)) (.error e)
  /-- other failures of the YAML parser -/
  | yamlFails {s e} : s.head? ≠ some '{' → yaml s = .error e → e ≠ .ValueError →
      Reads json yaml (.text s) (.error e)
  /-- bytes are decoded and read as text -/
  | bytes {s r} : Reads json yaml (.text s) r → Reads json yaml (.bytes (utf8 s)) r
  /-- bytes that are no UTF-8 -/
  | notText {b} : (∀ s, utf8 s ≠ b) → Reads json yaml (.bytes b) (.error .ValueError)
  /-- any other type -/
  | other : Reads json yaml .other (.error .ValueError)

variable {json yaml : Str → Except Exc Val}

theorem parse_brace (s : Str) : parse json yaml ('{' :: s) = unknownFormat (json ('{' :: s)) := by
  simp [parse, startsWith]

theorem parse_other {s : Str} (h : s.head? ≠ some '{') :
    parse json yaml s = unknownFormat (yaml s) := by
  have : startsWith s c!"{" = false := by
    cases s with
    | nil => rfl
    | cons c s =>
      simp only [List.head?_cons, ne_eq, Option.some.injEq] at h
      simp only [startsWith, List.isPrefixOf, Bool.and_true, beq_eq_false_iff_ne]
      exact fun hh => h hh.symm
  simp [parse, this]

theorem reads_text (s : Str) : Reads json yaml (.text s) (parse json yaml s) := by
  by_cases h : s.head? = some '{'
  · obtain ⟨s, rfl⟩ : ∃ t, s = '{' :: t := by
      cases s with
      | nil => simp at h
      | cons c s => simp at h; exact ⟨s, by rw [h]⟩
    rw [parse_brace]
    cases hj : json ('{' :: s) with
    | ok v => exact .json hj
    | error e =>
      by_cases he : e = .ValueError
      · subst he; exact .notJson hj
      · simp only [unknownFormat, if_neg he]
        exact .jsonFails hj he
  · rw [parse_other h]
    cases hj : yaml s with
    | ok v => exact .yaml h hj
    | error e =>
      by_cases he : e = .ValueError
      · subst he; exact .notYaml h hj
      · simp only [unknownFormat, if_neg he]
        exact .yamlFails h hj he

theorem reads_content (o : Loaded) : Reads json yaml o (content json yaml o) := by
  cases o with
  | dict d => exact .dict d
  | text s => exact reads_text s
  | other => exact .other
  | bytes b =>
    simp only [content]
    cases h : utf8Decode b with
    | some s =>
      have := utf8_of_decode h
      subst this
      exact .bytes (reads_text s)
    | none =>
      refine .notText fun s hs => ?_
      subst hs
      rw [utf8Decode_utf8] at h
      exact absurd h (by simp)

theorem eq_content {o : Loaded} {r : Except Exc Val} (h : Reads json yaml o r) :
    r = content json yaml o := by
  induction h with
  | dict d => rfl
  | json h => simp [content, parse_brace, h, unknownFormat]
  | yaml h0 h => simp [content, parse_other h0, h, unknownFormat]
  | notJson h => simp [content, parse_brace, h, unknownFormat]
  | notYaml h0 h => simp [content, parse_other h0, h, unknownFormat]
  | jsonFails h he => simp [content, parse_brace, h, unknownFormat, he]
  | yamlFails h0 h he => simp [content, parse_other h0, h, unknownFormat, he]
  | bytes h ih => rw [ih]; simp only [content, utf8Decode_utf8]
  | @notText b h =>
    simp only [content]
    cases hd : utf8Decode b with
    | none => rfl
    | some s => exact absurd (utf8_of_decode hd) (h s)
  | other => rfl

/-- Every loaded object is read in exactly one way. -/
theorem C61_reads (json yaml : Str → Except Exc Val) (o : Loaded) (r : Except Exc Val) :
    Reads json yaml o r ↔ content json yaml o = r :=
  ⟨fun h => (eq_content h).symm, fun h => h ▸ reads_content o⟩

/-- The outcome of asking a getter for its `k`-th resource, given what is found then. -/
inductive Outcome (json yaml : Str → Except Exc Val) (load : Str → Except Exc Loaded) :
    Option Str → Except Exc Val → Prop
  /-- there is none -/
  | stop : Outcome json yaml load none (.error .StopIteration)
  /-- it cannot be loaded -/
  | fails {u e} : load u = .error e → Outcome json yaml load (some u) (.error e)
  /-- it is loaded and read -/
  | reads {u o r} : load u = .ok o → Reads json yaml o r → Outcome json yaml load (some u) r

/-- Asking a getter again and again gives the contents of its URLs in order, one each, whatever is
found at each moment and whether or not an earlier one failed, and then `StopIteration` for ever. -/
theorem C61_order (json yaml : Str → Except Exc Val)
    (loads : List (Str → Str → Except Exc Loaded)) (g : Getter) :
    (run json yaml loads g).1.length = loads.length ∧
    (run json yaml loads g).2 = { g with urls := g.urls.drop loads.length } ∧
    ∀ (k : Nat) (l : Str → Str → Except Exc Loaded) (r : Except Exc Val), loads[k]? = some l → (run json yaml loads g).1[k]? = some r →
      Outcome json yaml (l g.base) g.urls[k]? r := by
  induction loads generalizing g with
  | nil => simp [run]
  | cons l ls ih =>
    obtain ⟨h1, h2, h3⟩ := ih (next json yaml l g).2
    have hb : (next json yaml l g).2 = { g with urls := g.urls.drop 1 } := by
      unfold next
      cases hu : g.urls with
      | nil => cases g; simp_all
      | cons u us => cases hl : l g.base u <;> simp [hl]
    have hr : Outcome json yaml (l g.base) g.urls[0]? (next json yaml l g).1 := by
      unfold next
      cases hu : g.urls with
      | nil => exact .stop
      | cons u us =>
        cases hl : l g.base u with
        | error e => simpa [hl] using Outcome.fails hl
        | ok o => simpa [hl] using Outcome.reads hl (reads_content o)
    refine ⟨by simp [run, h1], ?_, ?_⟩
    · simp only [run, List.length_cons]
      rw [h2, hb]
      simp only [List.drop_drop]
      rw [Nat.add_comm]
    · intro k l' r hl hk
      cases k with
      | zero =>
        simp only [List.getElem?_cons_zero, Option.some.injEq, run] at hl hk
        subst hl; subst hk
        exact hr
      | succ k =>
        simp only [List.getElem?_cons_succ, run] at hl hk
        have := h3 k l' r hl hk
        rw [hb] at this
        simpa [Nat.add_comm] using this

/-! ## Files -/

/-- the names looked for -/
def names : List Str := [c!"resource_list.json", c!"swagger.json", c!"swagger.yaml", c!"swagger.yml"]

/-- the extensions looked for -/
def exts : List Str := [c!"json", c!"yaml", c!"yml"]

/-- the file `n` in the directory `dir` -/
def inDir (dir n : Str) : Str := if dir = [] ∨ ['/'] <:+ dir then dir ++ n else dir ++ c!"/" ++ n

/-- Which file (`url`) a path stands for, and the base path. `given` is what the caller wrote,
`path` the path in the file system. -/
inductive Locates (isfile : Str → Bool) (given path : Str) : (base url : Str) → Prop
  /-- it ends in a well-known name -/
  | named {before n after} (h : names = before ++ n :: after)
      (hb : ∀ m ∈ before, ¬ m <:+ given ∧ isfile (inDir path m) = false) (hn : n <:+ given) :
      Locates isfile given path (dirname given) path
  /-- it is a directory with a file of a well-known name -/
  | inside {before n after} (h : names = before ++ n :: after)
      (hb : ∀ m ∈ before, ¬ m <:+ given ∧ isfile (inDir path m) = false) (hn : ¬ n <:+ given)
      (hf : isfile (inDir path n) = true) :
      Locates isfile given path given (inDir path n)
  /-- it has an extension -/
  | extension (hb : ∀ m ∈ names, ¬ m <:+ given ∧ isfile (inDir path m) = false)
      (he : ∃ e ∈ exts, e <:+ splitextExt path) :
      Locates isfile given path (dirname path) path
  /-- it is a file when an extension is added -/
  | added {before e after} (hb : ∀ m ∈ names, ¬ m <:+ given ∧ isfile (inDir path m) = false)
      (hne : ∀ e ∈ exts, ¬ e <:+ splitextExt path) (h : exts = before ++ e :: after)
      (hd : ∀ d ∈ before, isfile (path ++ c!"." ++ d) = false)
      (hf : isfile (path ++ c!"." ++ e) = true) :
      Locates isfile given path given (path ++ c!"." ++ e)

theorem names_eq : SWAGGER_FILE_NAMES = names := rfl

theorem pathJoin_inDir {dir n : Str} (h : n ∈ names) : pathJoin dir n = inDir dir n := by
  have h1 : n.head? ≠ some '/' := by
    simp only [names, List.mem_cons, List.not_mem_nil, or_false] at h
    rcases h with rfl | rfl | rfl | rfl <;> decide
  have h2 : (dir.getLast? = some '/') ↔ ['/'] <:+ dir := by
    constructor
    · intro h
      obtain ⟨l, hl⟩ := List.getLast?_eq_some_iff.1 h
      exact ⟨l, hl.symm⟩
    · rintro ⟨l, rfl⟩; simp
  unfold pathJoin inDir
  rw [if_neg h1]
  simp only [h2]
  split <;> simp

theorem wellKnown_some (isfile : Str → Bool) (given path : Str) (g : Getter) :
    ∀ l : List Str, (∀ n ∈ l, n ∈ names) → (wellKnown isfile given path l = some g ↔
      ∃ before n after, l = before ++ n :: after ∧
        (∀ m ∈ before, ¬ m <:+ given ∧ isfile (inDir path m) = false) ∧
        ((n <:+ given ∧ g = ⟨dirname given, [path]⟩) ∨
         (¬ n <:+ given ∧ isfile (inDir path n) = true ∧ g = ⟨given, [inDir path n]⟩)))
  | [], _ => by simp [wellKnown]
  | n :: l, hl => by
    have ih := wellKnown_some isfile given path g l (fun m hm => hl m (by simp [hm]))
    have hj : pathJoin path n = inDir path n := pathJoin_inDir (hl n (by simp))
    simp only [wellKnown, hj]
    by_cases h1 : n <:+ given
    · rw [if_pos ((endsWith_iff _ _).2 h1)]
      constructor
      · intro h
        exact ⟨[], n, l, rfl, by simp, Or.inl ⟨h1, (Option.some.inj h).symm⟩⟩
      · rintro ⟨before, m, after, he, hb, h⟩
        cases before with
        | nil =>
          simp only [List.nil_append, List.cons.injEq] at he
          obtain ⟨rfl, rfl⟩ := he
          rcases h with ⟨_, h⟩ | ⟨h, _⟩
          · rw [h]
          · exact absurd h1 h
        | cons b bs =>
          simp only [List.cons_append, List.cons.injEq] at he
          obtain ⟨rfl, rfl⟩ := he
          exact absurd h1 (hb n (by simp)).1
    · rw [if_neg (fun h => h1 ((endsWith_iff _ _).1 h))]
      cases hf : isfile (inDir path n) with
      | true =>
        simp only [if_true]
        constructor
        · intro h
          exact ⟨[], n, l, rfl, by simp, Or.inr ⟨h1, hf, (Option.some.inj h).symm⟩⟩
        · rintro ⟨before, m, after, he, hb, h⟩
          cases before with
          | nil =>
            simp only [List.nil_append, List.cons.injEq] at he
            obtain ⟨rfl, rfl⟩ := he
            rcases h with ⟨h, _⟩ | ⟨_, _, h⟩
            · exact absurd h h1
            · rw [h]
          | cons b bs =>
            simp only [List.cons_append, List.cons.injEq] at he
            obtain ⟨rfl, rfl⟩ := he
            have := (hb n (by simp)).2
            rw [hf] at this; cases this
      | false =>
        simp only [Bool.false_eq_true, if_false]
        rw [ih]
        constructor
        · rintro ⟨before, m, after, rfl, hb, h⟩
          exact ⟨n :: before, m, after, rfl, by
            intro x hx
            rcases List.mem_cons.1 hx with rfl | hx
            · exact ⟨h1, hf⟩
            · exact hb x hx, h⟩
        · rintro ⟨before, m, after, he, hb, h⟩
          cases before with
          | nil =>
            simp only [List.nil_append, List.cons.injEq] at he
            obtain ⟨rfl, rfl⟩ := he
            rcases h with ⟨h, _⟩ | ⟨_, h, _⟩
            · exact absurd h h1
            · rw [hf] at h; cases h
          | cons b bs =>
            simp only [List.cons_append, List.cons.injEq] at he
            obtain ⟨rfl, rfl⟩ := he
            exact ⟨bs, m, after, rfl, fun x hx => hb x (by simp [hx]), h⟩

theorem wellKnown_none (isfile : Str → Bool) (given path : Str) :
    ∀ l : List Str, (∀ n ∈ l, n ∈ names) → (wellKnown isfile given path l = none ↔
      ∀ m ∈ l, ¬ m <:+ given ∧ isfile (inDir path m) = false)
  | [], _ => by simp [wellKnown]
  | n :: l, hl => by
    have ih := wellKnown_none isfile given path l (fun m hm => hl m (by simp [hm]))
    have hj : pathJoin path n = inDir path n := pathJoin_inDir (hl n (by simp))
    simp only [wellKnown, hj, List.mem_cons, forall_eq_or_imp]
    by_cases h1 : n <:+ given
    · rw [if_pos ((endsWith_iff _ _).2 h1)]; simp [h1]
    · rw [if_neg (fun h => h1 ((endsWith_iff _ _).1 h))]
      cases hf : isfile (inDir path n) with
      | true => simp
      | false => simp only [Bool.false_eq_true, if_false, ih]; simp [h1]

theorem byExtension_eq (path ext : Str) : ∀ l : List Str, byExtension path ext l =
    if ∃ e ∈ l, e <:+ ext then some ⟨dirname path, [path]⟩ else none
  | [] => by simp [byExtension]
  | e :: l => by
    simp only [byExtension, byExtension_eq path ext l, List.mem_cons, exists_eq_or_imp, endsWith_iff]
    by_cases h : e <:+ ext <;> simp [h]

theorem withExtension_some (isfile : Str → Bool) (given path : Str) (g : Getter) :
    ∀ l : List Str, (withExtension isfile given path l = some g ↔
      ∃ before e after, l = before ++ e :: after ∧
        (∀ d ∈ before, isfile (path ++ c!"." ++ d) = false) ∧
        isfile (path ++ c!"." ++ e) = true ∧ g = ⟨given, [path ++ c!"." ++ e]⟩)
  | [] => by simp [withExtension]
  | n :: l => by
    have ih := withExtension_some isfile given path g l
    have hj : path ++ '.' :: n = path ++ c!"." ++ n := by simp
    simp only [withExtension, hj]
    cases hf : isfile (path ++ c!"." ++ n) with
    | true =>
      simp only [if_true]
      constructor
      · intro h
        exact ⟨[], n, l, rfl, by simp, hf, (Option.some.inj h).symm⟩
      · rintro ⟨before, m, after, he, hb, _, h⟩
        cases before with
        | nil =>
          simp only [List.nil_append, List.cons.injEq] at he
          obtain ⟨rfl, rfl⟩ := he
          rw [h]
        | cons b bs =>
          simp only [List.cons_append, List.cons.injEq] at he
          obtain ⟨rfl, rfl⟩ := he
          have := hb n (by simp)
          rw [hf] at this; cases this
    | false =>
      simp only [Bool.false_eq_true, if_false]
      rw [ih]
      constructor
      · rintro ⟨before, m, after, rfl, hb, h⟩
        exact ⟨n :: before, m, after, rfl, by
          intro x hx
          rcases List.mem_cons.1 hx with rfl | hx
          · exact hf
          · exact hb x hx, h⟩
      · rintro ⟨before, m, after, he, hb, h⟩
        cases before with
        | nil =>
          simp only [List.nil_append, List.cons.injEq] at he
          obtain ⟨rfl, rfl⟩ := he
          rw [hf] at h; exact absurd h.1 (by simp)
        | cons b bs =>
          simp only [List.cons_append, List.cons.injEq] at he
          obtain ⟨rfl, rfl⟩ := he
          exact ⟨bs, m, after, rfl, fun x hx => hb x (by simp [hx]), h⟩

theorem withExtension_none (isfile : Str → Bool) (given path : Str) :
    ∀ l : List Str, (withExtension isfile given path l = none ↔
      ∀ d ∈ l, isfile (path ++ c!"." ++ d) = false)
  | [] => by simp [withExtension]
  | n :: l => by
    have ih := withExtension_none isfile given path l
    have hj : path ++ '.' :: n = path ++ c!"." ++ n := by simp
    simp only [withExtension, hj, List.mem_cons, forall_eq_or_imp]
    cases hf : isfile (path ++ c!"." ++ n) with
    | true => simp
    | false => simp only [Bool.false_eq_true, if_false, ih]; simp

/-- `LocalGetter(path)` asks for exactly the one file the path stands for, with its base path; when
there is none it fails with `ValueError`. -/
theorem C61_local (abspath : Str → Str) (isfile : Str → Bool) (given : Str) :
    (∀ g, localGetter abspath isfile given = .ok g ↔
      ∃ base url, Locates isfile given (localPath abspath given) base url ∧ g = ⟨base, [url]⟩) ∧
    (∀ e, localGetter abspath isfile given = .error e ↔
      e = .ValueError ∧
      ¬ ∃ base url, Locates isfile given (localPath abspath given) base url) := by
  generalize hp : localPath abspath given = path
  have hn : ∀ n ∈ names, n ∈ names := fun _ h => h
  have exts_eq : [FILE_EXT_JSON, FILE_EXT_YAML, FILE_EXT_YML] = exts := rfl
  have key : ∀ g, localGetter abspath isfile given = .ok g ↔
      ∃ base url, Locates isfile given path base url ∧ g = ⟨base, [url]⟩ := by
    intro g
    constructor
    · intro h
      simp only [localGetter, hp, names_eq, exts_eq] at h
      cases hw : wellKnown isfile given path names with
      | some g' =>
        rw [hw] at h
        cases h
        obtain ⟨before, n, after, h, hb, hg⟩ := (wellKnown_some isfile given path g names hn).1 hw
        rcases hg with ⟨h1, rfl⟩ | ⟨h1, h2, rfl⟩
        · exact ⟨_, _, .named h hb h1, rfl⟩
        · exact ⟨_, _, .inside h hb h1 h2, rfl⟩
      | none =>
        have hb := (wellKnown_none isfile given path names hn).1 hw
        rw [hw] at h
        simp only [byExtension_eq] at h
        by_cases he : ∃ e ∈ exts, e <:+ splitextExt path
        · rw [if_pos he] at h
          cases h
          exact ⟨_, _, .extension hb he, rfl⟩
        · rw [if_neg he] at h
          simp only at h
          cases hx : withExtension isfile given path exts with
          | none => rw [hx] at h; cases h
          | some g' =>
            rw [hx] at h
            cases h
            obtain ⟨before, e, after, h1, h2, h3, rfl⟩ :=
              (withExtension_some isfile given path g exts).1 hx
            exact ⟨_, _, .added hb (fun e he' hs => he ⟨e, he', hs⟩) h1 h2 h3, rfl⟩
    · rintro ⟨base, url, hl, rfl⟩
      cases hl with
      | named h hb h1 =>
        have := (wellKnown_some isfile given path _ names hn).2 ⟨_, _, _, h, hb, Or.inl ⟨h1, rfl⟩⟩
        simp only [localGetter, hp, names_eq, this]
      | inside h hb h1 h2 =>
        have := (wellKnown_some isfile given path _ names hn).2
          ⟨_, _, _, h, hb, Or.inr ⟨h1, h2, rfl⟩⟩
        simp only [localGetter, hp, names_eq, this]
      | extension hb he =>
        have := (wellKnown_none isfile given path names hn).2 hb
        simp only [localGetter, hp, names_eq, this, exts_eq, byExtension_eq, if_pos he]
      | added hb he h h2 h3 =>
        have := (wellKnown_none isfile given path names hn).2 hb
        have hx := (withExtension_some isfile given path _ exts).2 ⟨_, _, _, h, h2, h3, rfl⟩
        have he' : ¬ ∃ e ∈ exts, e <:+ splitextExt path := fun ⟨e, h1, h2⟩ => he e h1 h2
        simp only [localGetter, hp, names_eq, this, exts_eq, byExtension_eq, if_neg he', hx]
  refine ⟨key, fun e => ?_⟩
  constructor
  · intro h
    refine ⟨?_, ?_⟩
    · simp only [localGetter] at h
      split at h
      · cases h
      · split at h
        · cases h
        · split at h
          · cases h
          · cases h; rfl
    · rintro ⟨base, url, hl⟩
      have := (key _).2 ⟨base, url, hl, rfl⟩
      rw [this] at h
      cases h
  · rintro ⟨rfl, hno⟩
    cases hg : localGetter abspath isfile given with
    | ok g =>
      obtain ⟨base, url, hl, _⟩ := (key g).1 hg
      exact absurd ⟨base, url, hl⟩ hno
    | error e =>
      simp only [localGetter] at hg
      split at hg
      · cases hg
      · split at hg
        · cases hg
        · split at hg
          · cases hg
          · cases hg; rfl

/-- a path that begins with a drive, `/C:` -/
def Drive (p : Str) : Prop :=
  ∃ drive rest, drive ≠ [] ∧ (∀ c ∈ drive, 'A' ≤ c ∧ c ≤ 'Z') ∧ p = c!"/" ++ drive ++ c!":" ++ rest

theorem drivePath_iff (p : Str) : drivePath p = true ↔ Drive p := by
  constructor
  · intro h
    unfold drivePath at h
    split at h
    · rename_i rest
      simp only [Bool.and_eq_true, decide_eq_true_eq] at h
      obtain ⟨h1, h2⟩ := h
      have hsplit := List.takeWhile_append_dropWhile (p := fun c => decide ('A' ≤ c) && decide (c ≤ 'Z')) (l := rest)
      obtain ⟨t, ht⟩ : ∃ t, rest.dropWhile (fun c => decide ('A' ≤ c) && decide (c ≤ 'Z')) = ':' :: t := by
        cases hd : rest.dropWhile (fun c => decide ('A' ≤ c) && decide (c ≤ 'Z')) with
        | nil => rw [hd] at h2; simp at h2
        | cons c t => rw [hd] at h2; simp at h2; exact ⟨t, by rw [h2]⟩
      refine ⟨rest.takeWhile (fun c => decide ('A' ≤ c) && decide (c ≤ 'Z')), t, ?_, ?_, ?_⟩
      · intro h0
        rw [h0] at hsplit
        simp only [List.nil_append] at hsplit
        rw [hsplit] at h1
        omega
      · intro c hc
        have hall := List.all_takeWhile (p := fun c => decide ('A' ≤ c) && decide (c ≤ 'Z')) (l := rest)
        have := List.all_eq_true.1 hall c hc
        simpa using this
      · rw [ht] at hsplit
        simp [hsplit]
    · cases h
  · rintro ⟨drive, rest, h0, h1, rfl⟩
    have hd : (drive ++ ':' :: rest).dropWhile (fun c => decide ('A' ≤ c) && decide (c ≤ 'Z')) = ':' :: rest := by
      rw [List.dropWhile_append_of_pos]
      · simp
      · intro c hc; simpa using h1 c hc
    simp only [drivePath, List.cons_append, List.nil_append, List.append_assoc, hd]
    have : 0 < drive.length := List.length_pos_iff.2 h0
    simp
    omega

/-- A path that is no `file:` URL and does not begin with a drive is taken as it is. -/
theorem C61_plain (abspath : Str → Str) (p : Str) (h1 : ¬ c!"file://" <+: p) (h2 : ¬ Drive p) :
    localPath abspath p = p := by
  have h3 : startsWith p c!"file://" = false := by
    rw [Bool.eq_false_iff]; intro h; exact h1 (List.isPrefixOf_iff_prefix.1 h)
  have h4 : drivePath p = false := by
    rw [Bool.eq_false_iff]; intro h; exact h2 ((drivePath_iff p).1 h)
  simp [localPath, h3, h4]

/-- A `file:` URL without host stands for its path. -/
theorem C61_file_url (abspath : Str → Str) (p : Str) (h0 : c!"/" <+: p)
    (h1 : '?' ∉ p ∧ '#' ∉ p) (h2 : ¬ Drive p) :
    localPath abspath (c!"file://" ++ p) = p := by
  have h3 : startsWith (c!"file://" ++ p) c!"file://" = true := by
    exact List.isPrefixOf_iff_prefix.2 (List.prefix_append _ _)
  have h4 : drivePath p = false := by
    rw [Bool.eq_false_iff]; intro h; exact h2 ((drivePath_iff p).1 h)
  obtain ⟨t, rfl⟩ := h0
  have hs : splitScheme (c!"file://" ++ (c!"/" ++ t)) = (c!"file", c!"//" ++ (c!"/" ++ t)) :=
    splitScheme_of (s := c!"file") (by decide) (by decide) (by decide)
  have hn : splitNetloc (c!"//" ++ (c!"/" ++ t)) = ([], c!"/" ++ t) := by
    simp [splitNetloc, endsNetloc]
  have hu : (urlparse (c!"file://" ++ (c!"/" ++ t))).path = c!"/" ++ t := by
    simp only [urlparse, hs, hn, cutAt_of_not_mem h1.2, cutAt_of_not_mem h1.1]
    rw [if_neg (by decide)]
  simp only [localPath, h3, if_true, hu, h4, Bool.false_eq_true, if_false]

/-- A `file:` URL with a drive stands for the path without the leading slash. -/
theorem C61_drive (abspath : Str → Str) (p : Str) (h : Drive p) :
    localPath abspath p = abspath p.tail := by
  have h4 : drivePath p = true := (drivePath_iff p).2 h
  obtain ⟨drive, rest, _, _, rfl⟩ := h
  have h3 : startsWith (c!"/" ++ drive ++ c!":" ++ rest) c!"file://" = false := by
    simp [startsWith, List.isPrefixOf]
  simp only [localPath, h3, Bool.false_eq_true, if_false, h4, if_true]

/-- the first thing a getter made for a path delivers -/
def first (json yaml : Str → Except Exc Val) (abspath : Str → Str) (isfile : Str → Bool)
    (read : Str → Except Exc Str) (given : Str) : Except Exc Val :=
  match localGetter abspath isfile given with
  | .ok g => (next json yaml (localLoad read) g).1
  | .error e => .error e

/-- the content of a file -/
def FileContent (json yaml : Str → Except Exc Val) (read : Str → Except Exc Str) (p : Str)
    (r : Except Exc Val) : Prop :=
  (∃ s, read p = .ok s ∧ Reads json yaml (.text s) r) ∨ ∃ e, read p = .error e ∧ r = .error e

theorem first_of {json yaml : Str → Except Exc Val} {abspath : Str → Str} {isfile : Str → Bool}
    {read : Str → Except Exc Str} {given base url : Str}
    (h : Locates isfile given (localPath abspath given) base url) :
    FileContent json yaml read (patch_path base url)
      (first json yaml abspath isfile read given) := by
  have hg := ((C61_local abspath isfile given).1 _).2 ⟨base, url, h, rfl⟩
  simp only [first, hg, next, localLoad]
  cases hr : read (patch_path base url) with
  | error e => exact Or.inr ⟨e, hr, rfl⟩
  | ok s => exact Or.inl ⟨s, hr, reads_text s⟩

open Props.C13 (Ext HasExt C13_spec Chosen hasExt_iff not_ext_iff)

theorem patch_own {base url e : Str} (he : e ∈ Ext) (hs : HasExt url e)
    (hb : ∀ x ∈ Ext, HasExt base x → x = e) : patch_path base url = url := by
  obtain ⟨e', hc, hu, _, h1, _⟩ := C13_spec base url
  have : e' = e := by
    cases hc with
    | base he' h => exact hb _ he' h
    | path he' _ h => exact ((hasExt_iff he').2 h).symm.trans ((hasExt_iff he).2 hs)
    | default hb' hp => exact absurd hs (hp e he)
  subst this
  obtain ⟨dir, stem, heq, _⟩ := hs
  exact h1 ⟨dir ++ stem, heq.symm⟩

theorem ext_cases {e : Str} (h : e ∈ Ext) : ∃ x ∈ exts, e = c!"." ++ x := by
  simp only [Ext, List.mem_cons, List.not_mem_nil, or_false] at h
  rcases h with rfl | rfl | rfl
  · exact ⟨c!"json", by decide, rfl⟩
  · exact ⟨c!"yaml", by decide, rfl⟩
  · exact ⟨c!"yml", by decide, rfl⟩

theorem first_name {l : List Str} {P : Str → Prop} [DecidablePred P] (h : ∃ n ∈ l, P n) :
    ∃ before n after, l = before ++ n :: after ∧ (∀ m ∈ before, ¬ P m) ∧ P n := by
  induction l with
  | nil => obtain ⟨n, hn, _⟩ := h; cases hn
  | cons a l ih =>
    by_cases ha : P a
    · exact ⟨[], a, l, rfl, by simp, ha⟩
    · obtain ⟨n, hn, hp⟩ := h
      rcases List.mem_cons.1 hn with rfl | hn
      · exact absurd hp ha
      · obtain ⟨before, m, after, h1, h2, h3⟩ := ih ⟨n, hn, hp⟩
        refine ⟨a :: before, m, after, by rw [h1]; rfl, ?_, h3⟩
        intro x hx
        rcases List.mem_cons.1 hx with rfl | hx
        · exact ha
        · exact h2 x hx

/-- The path of a JSON or YAML file is read from that very file, provided its directory is not
named like a file of another kind. -/
theorem C61_file (json yaml : Str → Except Exc Val) (abspath : Str → Str) (isfile : Str → Bool)
    (read : Str → Except Exc Str) (p e : Str) (h1 : ¬ c!"file://" <+: p) (h2 : ¬ Drive p)
    (he : e ∈ Ext) (hp : HasExt p e) (hd : ∀ x ∈ Ext, HasExt (dirname p) x → x = e)
    (hno : ∀ n ∈ names, isfile (inDir p n) = false) :
    FileContent json yaml read p (first json yaml abspath isfile read p) := by
  have hl : Locates isfile p p (dirname p) p := by
    by_cases h : ∃ n ∈ names, n <:+ p
    · obtain ⟨before, n, after, hs, hb, hn⟩ := first_name h
      exact .named hs (fun m hm => ⟨hb m hm, hno m (by rw [hs]; simp [hm])⟩) hn
    · refine .extension (fun m hm => ⟨fun hs => h ⟨m, hm, hs⟩, hno m hm⟩) ?_
      obtain ⟨x, hx, rfl⟩ := ext_cases he
      exact ⟨x, hx, by rw [(hasExt_iff he).2 hp]; exact List.suffix_append _ _⟩
  have := first_of (json := json) (yaml := yaml) (read := read) (abspath := abspath)
    (by rw [C61_plain abspath p h1 h2]; exact hl)
  rwa [patch_own he hp hd] at this

theorem no_ext {p : Str} (hx : ∀ x ∈ exts, ¬ x <:+ p) (e : Str) (he : e ∈ Ext) : ¬ HasExt p e := by
  rintro ⟨dir, stem, rfl, _⟩
  obtain ⟨x, hx', rfl⟩ := ext_cases he
  exact hx x hx' ⟨dir ++ stem ++ c!".", by simp⟩

theorem no_name {p : Str} (hx : ∀ x ∈ exts, ¬ x <:+ p) (n : Str) (hn : n ∈ names) : ¬ n <:+ p := by
  intro hs
  have : ∃ x ∈ exts, x <:+ n := by
    simp only [names, List.mem_cons, List.not_mem_nil, or_false] at hn
    rcases hn with rfl | rfl | rfl | rfl
    · exact ⟨c!"json", by decide, by decide⟩
    · exact ⟨c!"json", by decide, by decide⟩
    · exact ⟨c!"yaml", by decide, by decide⟩
    · exact ⟨c!"yml", by decide, by decide⟩
  obtain ⟨x, h1, h2⟩ := this
  exact hx x h1 (h2.trans hs)

theorem inDir_split (p n : Str) : ∃ dir, inDir p n = dir ++ n ∧ (dir = [] ∨ ∃ d, dir = d ++ ['/']) := by
  unfold inDir
  split
  · rename_i h
    refine ⟨p, rfl, ?_⟩
    rcases h with h | ⟨d, h⟩
    · exact Or.inl h
    · exact Or.inr ⟨d, h.symm⟩
  · exact ⟨p ++ c!"/", rfl, Or.inr ⟨p, rfl⟩⟩

theorem name_hasExt (p n : Str) (hn : n ∈ names) : ∃ e ∈ Ext, HasExt (inDir p n) e := by
  obtain ⟨dir, h, hd⟩ := inDir_split p n
  rw [h]
  simp only [names, List.mem_cons, List.not_mem_nil, or_false] at hn
  rcases hn with rfl | rfl | rfl | rfl
  · exact ⟨c!".json", by decide, dir, c!"resource_list", by simp, by decide, hd, 'r', by decide, by decide⟩
  · exact ⟨c!".json", by decide, dir, c!"swagger", by simp, by decide, hd, 's', by decide, by decide⟩
  · exact ⟨c!".yaml", by decide, dir, c!"swagger", by simp, by decide, hd, 's', by decide, by decide⟩
  · exact ⟨c!".yml", by decide, dir, c!"swagger", by simp, by decide, hd, 's', by decide, by decide⟩

/-- A directory is read from the first of the well-known files it has. -/
theorem C61_dir (json yaml : Str → Except Exc Val) (abspath : Str → Str) (isfile : Str → Bool)
    (read : Str → Except Exc Str) (p n : Str) (before after : List Str)
    (h1 : ¬ c!"file://" <+: p) (h2 : ¬ Drive p) (hx : ∀ x ∈ exts, ¬ x <:+ p)
    (hn : names = before ++ n :: after) (hb : ∀ m ∈ before, isfile (inDir p m) = false)
    (hf : isfile (inDir p n) = true) :
    FileContent json yaml read (inDir p n) (first json yaml abspath isfile read p) := by
  have hmem : n ∈ names := by rw [hn]; simp
  have hl : Locates isfile p p p (inDir p n) :=
    .inside hn (fun m hm => ⟨no_name hx m (by rw [hn]; simp [hm]), hb m hm⟩) (no_name hx n hmem) hf
  have := first_of (json := json) (yaml := yaml) (read := read) (abspath := abspath)
    (by rw [C61_plain abspath p h1 h2]; exact hl)
  obtain ⟨e, he, hh⟩ := name_hasExt p n hmem
  rwa [patch_own he hh (fun x hx' hp => absurd hp (no_ext hx x hx'))] at this

theorem splitext_suffix (p : Str) : splitextExt p <:+ p := by
  rw [Props.C13.splitextExt_def]
  obtain ⟨dir, hp, _⟩ := Props.C13.lastSeg_spec p
  cases hb : breakAtLast '.' (lastSeg p) with
  | none => exact List.nil_suffix
  | some q =>
    obtain ⟨a, b⟩ := q
    obtain ⟨d, _, hd, _⟩ := breakAtLast_some_iff.1 hb
    simp only
    split
    · exact List.nil_suffix
    · exact ⟨dir ++ d, by rw [List.append_assoc, ← hd]; exact hp.symm⟩

/-- A path without extension is read from the first file obtained by adding one. -/
theorem C61_bare (json yaml : Str → Except Exc Val) (abspath : Str → Str) (isfile : Str → Bool)
    (read : Str → Except Exc Str) (p e : Str) (before after : List Str)
    (h1 : ¬ c!"file://" <+: p) (h2 : ¬ Drive p) (hx : ∀ x ∈ exts, ¬ x <:+ p)
    (hseg : ∃ dir seg, p = dir ++ seg ∧ '/' ∉ seg ∧ (dir = [] ∨ ∃ d, dir = d ++ ['/']) ∧
      ∃ c ∈ seg, c ≠ '.')
    (hno : ∀ n ∈ names, isfile (inDir p n) = false)
    (hn : exts = before ++ e :: after) (hb : ∀ d ∈ before, isfile (p ++ c!"." ++ d) = false)
    (hf : isfile (p ++ c!"." ++ e) = true) :
    FileContent json yaml read (p ++ c!"." ++ e) (first json yaml abspath isfile read p) := by
  have hmem : e ∈ exts := by rw [hn]; simp
  have hl : Locates isfile p p p (p ++ c!"." ++ e) :=
    .added (fun m hm => ⟨no_name hx m hm, hno m hm⟩)
      (fun x hx' hs => hx x hx' (hs.trans (splitext_suffix p))) hn hb hf
  have := first_of (json := json) (yaml := yaml) (read := read) (abspath := abspath)
    (by rw [C61_plain abspath p h1 h2]; exact hl)
  have he : c!"." ++ e ∈ Ext := by
    simp only [exts, List.mem_cons, List.not_mem_nil, or_false] at hmem
    rcases hmem with rfl | rfl | rfl <;> decide
  obtain ⟨dir, seg, rfl, hs1, hs2, hs3⟩ := hseg
  have hh : HasExt (dir ++ seg ++ c!"." ++ e) (c!"." ++ e) :=
    ⟨dir, seg, by simp, hs1, hs2, hs3⟩
  rwa [patch_own he hh (fun x hx' hp => absurd hp (no_ext hx x hx'))] at this

/-- A path for which there is no file is refused. -/
theorem C61_missing (abspath : Str → Str) (isfile : Str → Bool) (p : Str)
    (h1 : ¬ c!"file://" <+: p) (h2 : ¬ Drive p) (hx : ∀ x ∈ exts, ¬ x <:+ p)
    (hno : ∀ n ∈ names, isfile (inDir p n) = false)
    (hne : ∀ d ∈ exts, isfile (p ++ c!"." ++ d) = false) :
    localGetter abspath isfile p = .error .ValueError := by
  refine ((C61_local abspath isfile p).2 _).2 ⟨rfl, ?_⟩
  rw [C61_plain abspath p h1 h2]
  rintro ⟨base, url, h⟩
  cases h with
  | named h _ hn => exact no_name hx _ (by rw [h]; simp) hn
  | @inside _ n _ h _ _ hf =>
    have := hno n (by rw [h]; simp)
    rw [hf] at this; cases this
  | extension _ he =>
    obtain ⟨e, h1, h2⟩ := he
    exact hx e h1 (h2.trans (splitext_suffix p))
  | @added _ e _ _ _ h _ hf =>
    have := hne e (by rw [h]; simp)
    rw [hf] at this; cases this

/-- The file that was located is not always the file that is read: in a directory named
`api.yaml`, the existing file `swagger.json` is looked for under the name `swagger.json.yaml`. -/
theorem C61_file_false (abspath : Str → Str) (read : Str → Except Exc Str) :
    ∃ g, localGetter abspath (fun p => p = c!"api.yaml/swagger.json") c!"api.yaml/swagger.json" =
        .ok g ∧ g.urls = [c!"api.yaml/swagger.json"] ∧
      localLoad read g.base c!"api.yaml/swagger.json" =
        (read c!"api.yaml/swagger.json.yaml").map .text := by
  refine ⟨⟨c!"api.yaml", [c!"api.yaml/swagger.json"]⟩, rfl, rfl, ?_⟩
  have : patch_path c!"api.yaml" c!"api.yaml/swagger.json" = c!"api.yaml/swagger.json.yaml" := by
    decide +kernel
  simp only [localLoad, this]
  cases read c!"api.yaml/swagger.json.yaml" <;> rfl

/-! ## Getters over a callback and over a dict -/

/-- `SimpleGetter` and `UrlGetter` fetch exactly the URL given, once, unchanged; a value that is no
text is refused. -/
theorem C61_simple (json yaml : Str → Except Exc Val) (callbacks : List (Str → Except Exc Loaded))
    (url : Str) :
    simpleGetter none = .error .Exception ∧
    ∃ g, simpleGetter (some url) = .ok g ∧
      (∀ stem, url = stem ++ c!"/" → g.base = stem) ∧ (¬ c!"/" <:+ url → g.base = url) ∧
      ∀ (k : Nat) cb r, callbacks[k]? = some cb →
        (run json yaml (callbacks.map simpleLoad) g).1[k]? = some r →
        Outcome json yaml cb (if k = 0 then some url else none) r := by
  refine ⟨rfl, _, rfl, ?_, ?_, ?_⟩
  · rintro stem rfl
    have : endsWith (stem ++ c!"/") c!"/" = true := (endsWith_iff _ _).2 (List.suffix_append _ _)
    simp [this]
  · intro h
    have : endsWith url c!"/" = false := by
      rw [Bool.eq_false_iff]; exact fun hh => h ((endsWith_iff _ _).1 hh)
    simp [this]
  · intro k cb r hk hr
    have := (C61_order json yaml (callbacks.map simpleLoad) _).2.2 k (simpleLoad cb) r
      (by simp [hk]) hr
    have hs : ∀ b, simpleLoad cb b = cb := fun _ => rfl
    simp only [hs] at this
    cases k with
    | zero => simpa using this
    | succ k => simpa using this

/-- `DictGetter` delivers what the mapping holds for each URL, in order, an empty dict for a URL
it lacks, and then stops. -/
theorem C61_dict (json yaml : Str → Except Exc Val) (u : Str) (us : List Str)
    (m : Option (Dict Str Loaded)) (n : Nat) :
    ∃ g, dictGetter (u :: us) = .ok g ∧
      ∀ (k : Nat) r, k < n → (run json yaml (List.replicate n (dictLoad m)) g).1[k]? = some r →
        match (u :: us)[k]? with
        | none => r = .error .StopIteration
        | some v => match (m.getD []).get? v with
          | some o => Reads json yaml o r
          | none => r = .ok (.dict []) := by
  refine ⟨_, rfl, ?_⟩
  intro k r hk hr
  have := (C61_order json yaml (List.replicate n (dictLoad m)) _).2.2 k (dictLoad m) r
    (by simp [hk]) hr
  simp only at this
  cases hu : (u :: us)[k]? with
  | none => rw [hu] at this; cases this; rfl
  | some v =>
    rw [hu] at this
    cases this with
    | fails h => simp [dictLoad] at h
    | reads h h' =>
      simp only [dictLoad, Except.ok.injEq] at h
      subst h
      cases hg : (m.getD []).get? v with
      | none =>
        rw [hg] at h'
        simp only [hg]
        exact ((C61_reads json yaml _ _).1 h').symm
      | some o => rw [hg] at h'; simp only [hg]; exact h'

/-- A list of URLs serves for one getter only: the getter empties the list it was given, and a
second one made from it raises `IndexError`. -/
theorem C61_dict_false (json yaml : Str → Except Exc Val) (u : Str) (us : List Str)
    (m : Option (Dict Str Loaded)) :
    ∃ g, dictGetter (u :: us) = .ok g ∧
      dictGetter (run json yaml (List.replicate (u :: us).length (dictLoad m)) g).2.urls =
        .error .IndexError := by
  refine ⟨_, rfl, ?_⟩
  rw [(C61_order json yaml _ _).2.1]
  simp [dictGetter]

/-! ## A concrete case -/

/-- two documents, as text and as bytes; the third request finds nothing more -/
example : (run (fun _ => .ok (.int 1)) (fun _ => .ok (.int 2))
    (List.replicate 3 (dictLoad (some [(c!"a", .text c!"{}"), (c!"b", .bytes (utf8 c!"x: 1"))])))
    ⟨c!"a", [c!"a", c!"b"]⟩).1 = [.ok (.int 1), .ok (.int 2), .error .StopIteration] := by
  simp [run, next, dictLoad, Dict.get?, content, utf8Decode_utf8, parse, startsWith, unknownFormat]

/-- a file, a directory and a bare name meeting the hypotheses -/
example : ¬ c!"file://" <+: c!"/srv/api.yml" ∧ ¬ Drive c!"/srv/api.yml" ∧
    HasExt c!"/srv/api.yml" c!".yml" ∧
    (∀ x ∈ Ext, HasExt (dirname c!"/srv/api.yml") x → x = c!".yml") ∧
    (∀ x ∈ exts, ¬ x <:+ c!"/srv") ∧ ¬ Drive c!"/srv" := by
  refine ⟨by decide, ?_, ?_, ?_, by decide, ?_⟩
  · rw [← drivePath_iff]; decide
  · exact ⟨c!"/srv/", c!"api", rfl, by decide, Or.inr ⟨c!"/srv", rfl⟩, 'a', by decide, by decide⟩
  · intro x hx h
    rw [← hasExt_iff hx] at h
    have h2 : splitextExt (dirname c!"/srv/api.yml") = [] := by decide +kernel
    rw [h2] at h; subst h; exact absurd hx (by decide)
  · rw [← drivePath_iff]; decide

end Props.C61
