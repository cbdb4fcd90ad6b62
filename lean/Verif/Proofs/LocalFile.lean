import Verif.Model.LocalFile
import Verif.Spec.File
import Verif.Proofs.Quote
import Verif.Proofs.Str
import Verif.Proofs.Url
import Mathlib.Data.List.Induction
/-! # Paths of files and their URLs -/

namespace Proofs.LocalFile
open Py Utils _root_.LocalFile Spec.File

/-! ## absolute paths -/

theorem fold_leads {d steps r : List Str} (h : Leads d steps r) : c!".." ∉ d → steps.foldl (normStep true) d = r := by
  induction h with
  | done d => exact fun _ => rfl
  | stay hs _ ih =>
    intro hd
    rw [List.foldl_cons, normStep, if_pos hs]
    exact ih hd
  | @up d ss r _ ih =>
    intro hd
    have hl : d.getLast? ≠ some c!".." := fun e => hd (List.mem_of_getLast? e)
    rw [List.foldl_cons, normStep, if_neg (by decide), if_neg (by simp [hl])]
    exact ih fun hm => hd (List.dropLast_subset _ hm)
  | down h1 h2 h3 _ ih =>
    intro hd
    rw [List.foldl_cons, normStep, if_neg (by simp [h1, h2]), if_pos (.inl h3)]
    refine ih ?_
    rw [List.mem_append, List.mem_singleton]
    rintro (h | h)
    · exact hd h
    · exact h3 h.symm

theorem leads_names {d steps r : List Str} (h : Leads d steps r) : (∀ s ∈ steps, '/' ∉ s) → Names d → Names r := by
  induction h with
  | done d => exact fun _ h => h
  | stay _ _ ih => exact fun hs hd => ih (fun s h => hs s (List.mem_cons_of_mem _ h)) hd
  | up _ ih => exact fun hs hd => ih (fun s h => hs s (List.mem_cons_of_mem _ h)) fun s h => hd s (List.dropLast_subset _ h)
  | down h1 h2 h3 _ ih =>
    refine fun hs hd => ih (fun s h => hs s (List.mem_cons_of_mem _ h)) fun s h => ?_
    rcases List.mem_append.1 h with h | h
    · exact hd s h
    · rw [List.mem_singleton] at h; subst h
      exact ⟨h1, h2, h3, hs s (by simp)⟩

theorem leads_self {d e : List Str} (h : Names e) : Leads d e (d ++ e) := by
  induction e generalizing d with
  | nil => rw [List.append_nil]; exact .done _
  | cons s e ih =>
    obtain ⟨h1, h2, h3, -⟩ := h s (by simp)
    have := ih (d := d ++ [s]) fun x hx => h x (List.mem_cons_of_mem _ hx)
    rw [List.append_assoc, List.singleton_append] at this
    exact .down h1 h2 h3 this

/-- the first name does not begin with a slash -/
theorem head_join {l : List Str} (hl : ∀ s ∈ l, '/' ∉ s) (hne : ∀ s, l.head? = some s → s ≠ []) : (join ['/'] l).head? ≠ some '/' := by
  cases l with
  | nil => simp [join]
  | cons s l =>
    have h1 := hl s (by simp)
    have h2 := hne s rfl
    obtain ⟨c, t, rfl⟩ := List.exists_cons_of_ne_nil h2
    have h3 : c ≠ '/' := fun e => h1 (by simp [e])
    cases l with
    | nil => simp [join, h3]
    | cons x l => simp [join, h3]

theorem normpath_rooted {s : Str} (hs : s.head? ≠ some '/') {r : List Str} (h : Leads [] (splitChar '/' s) r) :
    normpath ('/' :: s) = path r := by
  have hn : slashes ('/' :: s) = 1 := by
    cases s with
    | nil => rfl
    | cons c s =>
      have : c ≠ '/' := fun e => hs (by simp [e])
      unfold slashes
      split
      · next e => cases e; exact absurd rfl this
      · next e => cases e; exact absurd rfl this
      · rfl
      · next h => exact absurd rfl (h _)
  unfold normpath
  rw [hn]
  have : splitChar '/' ('/' :: s) = [] :: splitChar '/' s := by rw [splitChar, if_pos rfl]
  rw [this]
  dsimp only
  rw [List.foldl_cons]
  have h0 : normStep (decide (1 ≠ 0)) [] [] = [] := rfl
  rw [h0]
  have := fold_leads h (by simp)
  simp only [ne_eq, Nat.succ_ne_self, not_false_eq_true, decide_true, List.replicate_one, List.cons_append, List.nil_append,
    reduceCtorEq, if_false] at this ⊢
  rw [this]
  rfl

theorem abspath_means {cwd : List Str} {p : Str} {r : List Str} (hc : Names cwd) (h : Means cwd p r) (hp : ¬ c!"//" <+: p) :
    abspath (path cwd) p = path r ∧ Names r := by
  obtain ⟨steps, hs, ⟨rfl, hne, hl⟩ | ⟨rfl, hp0, hh, hl⟩⟩ := h
  · refine ⟨?_, leads_names hl hs (fun s h => by cases h)⟩
    have h1 : (join ['/'] steps).head? ≠ some '/' := by
      intro e
      apply hp
      cases hj : join ['/'] steps with
      | nil => rw [hj] at e; cases e
      | cons c t =>
        rw [hj] at e
        cases e
        exact ⟨t, rfl⟩
    unfold abspath pathJoin
    rw [if_pos (by rfl)]
    exact normpath_rooted h1 (by rw [splitChar_join hne hs]; exact hl)
  · refine ⟨?_, leads_names hl hs hc⟩
    have hne : steps ≠ [] := by rintro rfl; exact hp0 rfl
    unfold abspath pathJoin
    rw [if_neg hh]
    have hj : (if path cwd = [] ∨ (path cwd).getLast? = some '/' then path cwd ++ join ['/'] steps
        else path cwd ++ '/' :: join ['/'] steps) = '/' :: join ['/'] (cwd ++ steps) := by
      cases cwd with
      | nil => rfl
      | cons s cwd =>
        have hlast : (path (s :: cwd)).getLast? ≠ some '/' := by
          obtain ⟨l, x, e⟩ : ∃ l x, s :: cwd = l ++ [x] := ⟨_, _, (List.dropLast_concat_getLast (by simp)).symm⟩
          rw [e] at hc ⊢
          obtain ⟨h1, -, -, h4⟩ := hc x (by simp)
          have : ∃ t, path (l ++ [x]) = t ++ x := by
            clear e hc
            unfold path
            induction l with
            | nil => exact ⟨['/'], rfl⟩
            | cons y l ih =>
              obtain ⟨t, ht⟩ := ih
              rw [List.cons_append, join_cons _ _ _ (by simp)]
              have ht' := congrArg List.tail ht
              cases t with
              | nil =>
                exfalso
                apply h4
                rw [List.nil_append] at ht
                rw [← ht]; simp
              | cons c t =>
                simp only [List.tail_cons, List.cons_append] at ht'
                exact ⟨'/' :: y ++ ['/'] ++ t, by rw [ht']; simp⟩
          obtain ⟨t, ht⟩ := this
          rw [ht, List.getLast?_append]
          intro e
          obtain ⟨y, z, rfl⟩ : ∃ y z, x = y ++ [z] := ⟨_, _, (List.dropLast_concat_getLast h1).symm⟩
          simp at e
          exact h4 (by simp [e])
        rw [if_neg (by rintro (h | h); exact absurd h (by simp [path]); exact hlast h)]
        unfold path
        have key : ∀ (a b : List Str), a ≠ [] → b ≠ [] → join ['/'] (a ++ b) = join ['/'] a ++ '/' :: join ['/'] b := by
          intro a
          induction a with
          | nil => intro b h; exact absurd rfl h
          | cons y a ih =>
            intro b _ hb
            cases a with
            | nil => rw [List.singleton_append, join_cons _ _ _ hb]; simp [join]
            | cons z a =>
              rw [List.cons_append, join_cons _ _ _ (by simp), ih b (by simp) hb, join_cons _ y (z :: a) (by simp)]
              simp
        rw [key _ _ (by simp) hne]
        simp
    rw [hj]
    have hall : ∀ s ∈ cwd ++ steps, '/' ∉ s := by
      intro s h
      rcases List.mem_append.1 h with h | h
      · exact (hc s h).2.2.2
      · exact hs s h
    refine normpath_rooted (head_join hall ?_) ?_
    · intro s hs'
      cases cwd with
      | nil =>
        intro e
        subst e
        cases steps with
        | nil => cases hs'
        | cons x steps =>
          cases hs'
          cases steps with
          | nil => exact hp0 rfl
          | cons y steps => exact hh rfl
      | cons x cwd =>
        cases hs'
        exact (hc s (by simp)).1
    · rw [splitChar_join (by simp [hne]) hall]
      have hself : Leads [] cwd cwd := by simpa using leads_self (d := []) hc
      have trans : ∀ {a b c d e : List Str}, Leads a b c → Leads c d e → Leads a (b ++ d) e := by
        intro a b c d e h1 h2
        induction h1 with
        | done => exact h2
        | stay h _ ih => exact .stay h (ih h2)
        | up _ ih => exact .up (ih h2)
        | down g1 g2 g3 _ ih => exact .down g1 g2 g3 (ih h2)
      exact trans hself hl

/-! ## the URL of a path -/

/-- a text within the URL of a file -/
def quoted (s : Str) : Str := (utf8 s).flatMap quoteByte

/-- a character within the URL of a file -/
def quotedChar (c : Char) : Str := (String.utf8EncodeChar c).flatMap quoteByte

/-- characters that are not escaped -/
def Safe (c : Char) : Prop := Unreserved c ∨ c = '/'

/-- characters of escapes -/
def escapes : List Char := c!"%0123456789ABCDEF"

instance (c : Char) : Decidable (Safe c) := by unfold Safe; infer_instance

theorem quoted_flat (s : Str) : quoted s = s.flatMap quotedChar := by
  unfold quoted utf8 quotedChar
  rw [List.flatMap_assoc]

theorem quoted_append (s t : Str) : quoted (s ++ t) = quoted s ++ quoted t := by
  rw [quoted_flat, quoted_flat, quoted_flat, List.flatMap_append]

theorem quoted_cons (c : Char) (t : Str) : quoted (c :: t) = quotedChar c ++ quoted t := by
  rw [quoted_flat, quoted_flat, List.flatMap_cons]

theorem ascii_quoted : ∀ n : Fin 128, (Safe (Char.ofNat n.val) ∧ quotedChar (Char.ofNat n.val) = [Char.ofNat n.val]) ∨
    (¬ Safe (Char.ofNat n.val) ∧ 3 ≤ (quotedChar (Char.ofNat n.val)).length ∧ ∀ x ∈ quotedChar (Char.ofNat n.val), x ∈ escapes) := by
  decide +kernel

theorem high_quoted (b : UInt8) : 128 ≤ b.toNat → 3 ≤ (quoteByte b).length ∧ ∀ x ∈ quoteByte b, x ∈ escapes := by
  refine byte_all (P := fun b => 128 ≤ b.toNat → 3 ≤ (quoteByte b).length ∧ ∀ x ∈ quoteByte b, x ∈ escapes) ?_ b
  decide +kernel

theorem safe_ascii {c : Char} (h : Safe c) : c.toNat < 128 := by
  have key : ∀ d : Char, d.toNat < 128 → c ≤ d → c.toNat < 128 := fun d hd hc => Nat.lt_of_le_of_lt hc hd
  rcases h with (h | h | h | h) | h
  · exact key _ (by decide) h.2
  · exact key _ (by decide) h.2
  · exact key _ (by decide) h.2
  · simp only [List.mem_cons, List.not_mem_nil, or_false] at h
    rcases h with rfl | rfl | rfl | rfl <;> decide
  · subst h; decide

theorem char_quoted (c : Char) : (Safe c ∧ quotedChar c = [c]) ∨
    (¬ Safe c ∧ 3 ≤ (quotedChar c).length ∧ ∀ x ∈ quotedChar c, x ∈ escapes) := by
  by_cases h : c.toNat < 128
  · have := ascii_quoted ⟨c.toNat, h⟩
    simp only [Char.ofNat_toNat] at this
    exact this
  · right
    refine ⟨fun hs => h (safe_ascii hs), ?_, ?_⟩
    · unfold quotedChar
      have h1 := utf8EncodeChar_nonascii h
      cases hb : String.utf8EncodeChar c with
      | nil =>
        have := String.utf8EncodeChar_ne_nil (c := c)
        exact absurd hb this
      | cons b bs =>
        rw [hb] at h1
        rw [List.flatMap_cons, List.length_append]
        have := (high_quoted b (h1 b (by simp))).1
        omega
    · intro x hx
      obtain ⟨b, hb, hx⟩ := List.mem_flatMap.1 hx
      exact (high_quoted b (utf8EncodeChar_nonascii h b hb)).2 x hx

theorem quoted_safe {s : Str} (h : ∀ c ∈ s, Safe c) : quoted s = s := by
  induction s with
  | nil => rfl
  | cons c s ih =>
    rw [quoted_cons, ih fun x hx => h x (List.mem_cons_of_mem _ hx)]
    rcases char_quoted c with ⟨-, h1⟩ | ⟨h1, -⟩
    · rw [h1]; rfl
    · exact absurd (h c (by simp)) h1

theorem quoted_length (s : Str) : s.length ≤ (quoted s).length := by
  induction s with
  | nil => exact Nat.le_refl _
  | cons c s ih =>
    rw [quoted_cons, List.length_append, List.length_cons]
    rcases char_quoted c with ⟨-, h1⟩ | ⟨-, h1, -⟩
    · rw [h1, List.length_singleton]; omega
    · omega

theorem quoted_iff {s : Str} : quoted s = s ↔ ∀ c ∈ s, Safe c := by
  refine ⟨fun h => ?_, quoted_safe⟩
  induction s with
  | nil => exact fun c hc => by cases hc
  | cons c s ih =>
    rw [quoted_cons] at h
    rcases char_quoted c with ⟨h0, h1⟩ | ⟨-, h1, -⟩
    · rw [h1] at h
      have := ih (List.cons_inj_right c |>.1 h)
      intro x hx
      rcases List.mem_cons.1 hx with rfl | hx
      · exact h0
      · exact this x hx
    · have := congrArg List.length h
      rw [List.length_append, List.length_cons] at this
      have := quoted_length s
      omega

theorem mem_quoted {s : Str} {c : Char} (h : c ∈ quoted s) : (c ∈ s ∧ Safe c) ∨ c ∈ escapes := by
  rw [quoted_flat] at h
  obtain ⟨x, hx, hc⟩ := List.mem_flatMap.1 h
  rcases char_quoted x with ⟨h0, h1⟩ | ⟨-, -, h1⟩
  · rw [h1, List.mem_singleton] at hc
    subst hc
    exact .inl ⟨hx, h0⟩
  · exact .inr (h1 c hc)

theorem quoted_join (l : List Str) : quoted (join ['/'] l) = join ['/'] (l.map quoted) := by
  induction l with
  | nil => rfl
  | cons x l ih =>
    cases l with
    | nil => rfl
    | cons y l =>
      rw [join, quoted_append, quoted_append, ih]
      rfl

theorem quoted_path (r : List Str) : quoted (path r) = path (r.map quoted) := by
  unfold path
  rw [quoted_cons, quoted_join]
  rfl

theorem quoted_ne {s : Str} (h : s ≠ []) : quoted s ≠ [] := by
  intro e
  have := quoted_length s
  rw [e] at this
  exact h (List.length_eq_zero_iff.1 (Nat.le_zero.1 this))

/-- the end of a quoted text, if it is free of characters of escapes, is the end of the text -/
theorem quoted_end {s a e : Str} (he : ∀ c ∈ e, c ∉ escapes) (h : quoted s = a ++ e) : ∃ b, s = b ++ e ∧ quoted b = a := by
  induction s using List.reverseRecOn generalizing a e with
  | nil =>
    have := (List.append_eq_nil_iff.1 h.symm)
    exact ⟨[], by rw [this.2]; rfl, this.1.symm⟩
  | append_singleton s c ih =>
    cases e using List.reverseRecOn with
    | nil => exact ⟨s ++ [c], by simp, by rw [h]; simp⟩
    | append_singleton e x =>
      have hx := he x (by simp)
      rw [quoted_append] at h
      have hq : quoted [c] = quotedChar c := by rw [quoted_cons]; exact List.append_nil _
      rw [hq] at h
      rcases char_quoted c with ⟨-, h1⟩ | ⟨-, h1, h2⟩
      · rw [h1, ← List.append_assoc] at h
        obtain ⟨g1, g2⟩ := List.append_inj' h rfl
        cases g2
        obtain ⟨b, rfl, hb⟩ := ih (fun y hy => he y (by simp [hy])) g1
        exact ⟨b, by simp, hb⟩
      · exfalso
        have hne : quotedChar c ≠ [] := by intro e; rw [e] at h1; cases h1
        have := congrArg List.getLast? h
        rw [List.getLast?_append, ← List.append_assoc, List.getLast?_append] at this
        cases hl : (quotedChar c).getLast? with
        | none => exact hne (List.getLast?_eq_none_iff.1 hl)
        | some y =>
          rw [hl] at this
          simp at this
          exact hx (this ▸ h2 y (List.mem_of_getLast? hl))

/-! ## folders and extensions -/

/-- names on the way to a file -/
def Segs (l : List Str) : Prop := ∀ s ∈ l, s ≠ [] ∧ '/' ∉ s

theorem segs_names {l : List Str} (h : Names l) : Segs l := fun s hs => ⟨(h s hs).1, (h s hs).2.2.2⟩

theorem segs_quoted {l : List Str} (h : Segs l) : Segs (l.map quoted) := by
  intro s hs
  obtain ⟨t, ht, rfl⟩ := List.mem_map.1 hs
  obtain ⟨h1, h2⟩ := h t ht
  refine ⟨quoted_ne h1, fun hm => ?_⟩
  rcases mem_quoted hm with hm | hm
  · exact h2 hm.1
  · revert hm; decide

theorem path_snoc (d : List Str) (n : Str) : path (d ++ [n]) = (if d = [] then [] else path d) ++ '/' :: n := by
  cases d with
  | nil => rfl
  | cons x d =>
    rw [if_neg (by simp)]
    unfold path
    rw [List.cons_append, List.cons_append]
    congr 1
    induction d generalizing x with
    | nil => simp [join]
    | cons y d ih =>
      rw [List.cons_append, join_cons _ _ _ (by simp), ih y, join_cons _ x (y :: d) (by simp)]
      simp

theorem cut_path {d : List Str} {n : Str} (hn : '/' ∉ n) :
    breakAtLast '/' (path (d ++ [n])) = some ((if d = [] then [] else path d) ++ ['/'], n) :=
  breakAtLast_some_iff.2 ⟨_, rfl, path_snoc d n, hn⟩

theorem last_path {d : List Str} (hd : Segs d) (hne : d ≠ []) : (path d).getLast? ≠ some '/' := by
  obtain ⟨l, x, rfl⟩ : ∃ l x, d = l ++ [x] := ⟨_, _, (List.dropLast_concat_getLast hne).symm⟩
  obtain ⟨h1, h2⟩ := hd x (by simp)
  rw [path_snoc]
  obtain ⟨y, z, rfl⟩ : ∃ y z, x = y ++ [z] := ⟨_, _, (List.dropLast_concat_getLast h1).symm⟩
  intro e
  rw [List.getLast?_append, show '/' :: (y ++ [z]) = ('/' :: y) ++ [z] from rfl, List.getLast?_append] at e
  simp at e
  exact h2 (by simp [e])

theorem dirname_path {d : List Str} {n : Str} (hd : Segs d) (hn : '/' ∉ n) : dirname (path (d ++ [n])) = path d := by
  unfold dirname
  rw [cut_path hn]
  dsimp only
  by_cases hne : d = []
  · subst hne; rfl
  · rw [if_neg hne]
    have hl := last_path hd hne
    obtain ⟨a, z, e⟩ : ∃ a z, path d = a ++ [z] := ⟨_, _, (List.dropLast_concat_getLast (by simp [path])).symm⟩
    have hz : z ≠ '/' := by
      rintro rfl
      rw [e] at hl
      simp at hl
    rw [e, if_neg (by simp [hz])]
    unfold rstripSlash
    rw [List.reverse_append, List.reverse_append]
    simp [hz]

/-- the extension of a name -/
theorem ext_path {d : List Str} {n : Str} (hn : '/' ∉ n) : splitextExt (path (d ++ [n])) =
    match breakAtLast '.' n with
    | none => []
    | some (pre, ext) => if pre.dropLast.all (fun c => c = '.') then [] else '.' :: ext := by
  unfold splitextExt
  rw [cut_path hn]
  rfl

theorem dot_exts {e : Str} (h : e ∈ [c!"json", c!"yaml", c!"yml"]) : '.' ∉ e ∧ '.' :: e ∈ VALID_FILE_EXT := by
  simp only [List.mem_cons, List.not_mem_nil, or_false] at h
  rcases h with rfl | rfl | rfl <;> exact ⟨by decide, by decide⟩

theorem ext_document {d : List Str} {n : Str} (hn : '/' ∉ n) (h : Document n) :
    splitextExt (path (d ++ [n])) ∈ VALID_FILE_EXT ∧ splitextExt (path (d ++ [n])) <:+ path (d ++ [n]) := by
  obtain ⟨stem, e, rfl, he, c, hc, hd⟩ := h
  obtain ⟨h1, h2⟩ := dot_exts he
  have hb : breakAtLast '.' (stem ++ '.' :: e) = some (stem ++ ['.'], e) := breakAtLast_some_iff.2 ⟨stem, rfl, rfl, h1⟩
  have : splitextExt (path (d ++ [stem ++ '.' :: e])) = '.' :: e := by
    rw [ext_path hn, hb]
    dsimp only
    rw [if_neg]
    intro ha
    rw [List.dropLast_concat] at ha
    have := List.all_eq_true.1 ha c hc
    exact hd (by simpa using this)
  rw [this]
  exact ⟨h2, by rw [path_snoc]; exact ⟨(if d = [] then [] else path d) ++ '/' :: stem, by simp⟩⟩

theorem ext_folder {d : List Str} (hd : Segs d) (h : ∀ f, d.getLast? = some f → ¬ Document f) : splitextExt (path d) ∉ VALID_FILE_EXT := by
  by_cases hne : d = []
  · subst hne; decide
  · obtain ⟨l, n, rfl⟩ : ∃ l x, d = l ++ [x] := ⟨_, _, (List.dropLast_concat_getLast hne).symm⟩
    rw [ext_path (hd n (by simp)).2]
    cases hb : breakAtLast '.' n with
    | none => decide
    | some v =>
      obtain ⟨pre, ext⟩ := v
      dsimp only
      split
      · decide
      · next ha =>
        intro hv
        obtain ⟨stem, rfl, hn, -⟩ := breakAtLast_some_iff.1 hb
        refine h n (by simp) ⟨stem, ext, hn, ?_, ?_⟩
        · simp only [VALID_FILE_EXT, List.mem_cons, List.cons.injEq, true_and, List.not_mem_nil, or_false] at hv
          simpa [FILE_EXT_JSON, FILE_EXT_YAML, FILE_EXT_YML] using hv
        · rw [List.dropLast_concat] at ha
          simp only [List.all_eq_true, decide_eq_true_eq, Classical.not_forall] at ha
          obtain ⟨c, hc, hcd⟩ := ha
          exact ⟨c, hc, hcd⟩

/-- the extension of a document is kept, whatever folder or name without a document's extension the getter has for its base -/
theorem patched_base {b d : List Str} {n : Str} (hb : Segs b) (hd : '/' ∉ n) (h : ∀ f, b.getLast? = some f → ¬ Document f) (hn : Document n) :
    patch_path (path b) (path (d ++ [n])) = path (d ++ [n]) := by
  have h1 := ext_folder hb h
  obtain ⟨h2, h3⟩ := ext_document (d := d) hd hn
  have hne : splitextExt (path (d ++ [n])) ≠ [] := by
    intro e
    rw [e] at h2
    revert h2; decide
  unfold patch_path
  simp only [if_neg h1, if_pos h2, if_true, if_neg hne]
  rw [if_pos ((endsWith_iff _ _).2 h3)]

theorem patched {d : List Str} {n : Str} (hd : Segs (d ++ [n])) (h : ∀ f, d.getLast? = some f → ¬ Document f) (hn : Document n) :
    patch_path (path d) (path (d ++ [n])) = path (d ++ [n]) :=
  patched_base (fun s hs => hd s (by simp [hs])) (hd n (by simp)).2 h hn

/-- the end of a name that is a document's -/
theorem quoted_document {n : Str} : Document (quoted n) ↔ Document n := by
  have hx : ∀ e ∈ [c!"json", c!"yaml", c!"yml"], ∀ c ∈ '.' :: e, Safe c ∧ c ∉ escapes := by decide
  constructor
  · rintro ⟨stem, e, h, he, c, hc, hd⟩
    obtain ⟨b, rfl, rfl⟩ := quoted_end (fun c hc => (hx e he c hc).2) h
    refine ⟨b, e, rfl, he, ?_⟩
    refine Classical.byContradiction fun hno => ?_
    have hall : ∀ x ∈ b, x = '.' := fun x hx => Classical.byContradiction fun hne => hno ⟨x, hx, hne⟩
    rw [quoted_safe (fun x hx => by rw [hall x hx]; decide)] at hc
    exact hd (hall c hc)
  · rintro ⟨stem, e, rfl, he, c, hc, hd⟩
    refine ⟨quoted stem, e, ?_, he, ?_⟩
    · rw [quoted_append, quoted_safe (s := '.' :: e) fun c hc => (hx e he c hc).1]
    · refine Classical.byContradiction fun hno => ?_
      have hall : ∀ x ∈ quoted stem, x = '.' := fun x hx => Classical.byContradiction fun hne => hno ⟨x, hx, hne⟩
      obtain ⟨a, b, rfl⟩ := List.append_of_mem hc
      rw [quoted_append, quoted_cons] at hall
      rcases char_quoted c with ⟨-, h1⟩ | ⟨-, h1, h2⟩
      · exact hd (hall c (by rw [h1]; simp))
      · cases hq : quotedChar c with
        | nil => rw [hq] at h1; cases h1
        | cons x l =>
          have := hall x (by rw [hq]; simp)
          subst this
          have := h2 '.' (by rw [hq]; simp)
          revert this; decide

theorem joined_cons {x : Str} {l : List Str} (h : l ≠ []) : join ['/'] (x :: l) = x ++ '/' :: join ['/'] l := by
  rw [join_cons _ _ _ h]; simp

theorem mem_joined {l : List Str} {c : Char} (h : c ∈ join ['/'] l) : (∃ s ∈ l, c ∈ s) ∨ c = '/' := by
  induction l with
  | nil => cases h
  | cons x l ih =>
    by_cases hl : l = []
    · subst hl
      exact .inl ⟨x, by simp, h⟩
    · rw [joined_cons hl] at h
      rcases List.mem_append.1 h with h | h
      · exact .inl ⟨x, by simp, h⟩
      · rcases List.mem_cons.1 h with h | h
        · exact .inr h
        · rcases ih h with ⟨s, h1, h2⟩ | h
          · exact .inl ⟨s, List.mem_cons_of_mem _ h1, h2⟩
          · exact .inr h

/-! ## decoding -/

theorem decode_byte (b : UInt8) (s : Str) :
    Spec.percentDecode false (quoteByte b ++ s) = (Spec.percentDecode false s).map (b :: ·) := by
  unfold _root_.LocalFile.quoteByte
  split
  · next h =>
    rw [List.singleton_append, percentDecode_cons _ (by decide) (by decide)]
    have : UInt8.ofNat 47 = b := by rw [← h]; simp
    simp [← this]
  · unfold Py.quoteByte
    split
    · next h =>
      simp only [Bool.false_and, Bool.or_false] at h
      have key : ∀ b : UInt8, alwaysSafe b = true →
          Char.ofNat b.toNat ≠ '%' ∧ (Char.ofNat b.toNat).toNat = b.toNat ∧ b.toNat < 128 := by
        intro b
        refine byte_all (P := fun b => alwaysSafe b = true →
          Char.ofNat b.toNat ≠ '%' ∧ (Char.ofNat b.toNat).toNat = b.toNat ∧ b.toNat < 128) ?_ b
        decide +kernel
      obtain ⟨h1, h3, h4⟩ := key b h
      rw [List.singleton_append, percentDecode_cons _ h1 (by rw [h3]; exact h4), h3]
      simp
    · have hb := b.toNat_lt
      show Spec.percentDecode false ('%' :: _ :: _ :: s) = _
      rw [percentDecode_pct _ _ s (hexVal_hexUpper (by omega)) (hexVal_hexUpper (by omega))]
      have : 16 * (b.toNat / 16) + b.toNat % 16 = b.toNat := by omega
      rw [this]; simp

theorem decode_quoted (s : Str) : Spec.percentDecode false (quoted s) = some (utf8 s) := by
  unfold quoted
  induction utf8 s with
  | nil => rfl
  | cons b l ih => rw [List.flatMap_cons, decode_byte, ih]; rfl

theorem quoted_inj {s t : Str} (h : quoted s = quoted t) : s = t := by
  have := decode_quoted s
  rw [h, decode_quoted t] at this
  exact (utf8_injective (Option.some.inj this)).symm

theorem path_inj {a b : List Str} (ha : Segs a) (hb : Segs b) (h : path a = path b) : a = b := by
  injection h with _ h
  by_cases h1 : a = []
  · subst h1
    cases b with
    | nil => rfl
    | cons x b =>
      exfalso
      have := (hb x (by simp)).1
      cases b with
      | nil => exact this h.symm
      | cons y b => rw [join_cons _ _ _ (by simp)] at h; simp [join] at h
  · by_cases h2 : b = []
    · subst h2
      exfalso
      cases a with
      | nil => exact h1 rfl
      | cons x a =>
        have := (ha x (by simp)).1
        cases a with
        | nil => exact this h
        | cons y a => rw [join_cons _ _ _ (by simp)] at h; simp [join] at h
    · have := congrArg (splitChar '/') h
      rwa [splitChar_join h1 fun s hs => (ha s hs).2, splitChar_join h2 fun s hs => (hb s hs).2] at this

end Proofs.LocalFile
