import Verif.Spec.Multipart
import Verif.Proofs.Quote
import Verif.Proofs.Request
/-!
# C23: multipart bodies decode to the submitted fields and files

The reader is `Spec.Multipart.read` (from RFC 2046/7578). It is given the `Content-Type` value and
the body that `_prepare_files` returns.
-/

namespace Props.C23
open Py Utils Io Spec.Multipart

variable {β δ π : Type}

/-! ### the cutting function -/

theorem isPrefixOf_iff {α : Type} [DecidableEq α] {p s : List α} : p.isPrefixOf s = true ↔ p <+: s :=
  List.isPrefixOf_iff_prefix

theorem dropPrefix_append {α : Type} [DecidableEq α] (p s : List α) : dropPrefix p (p ++ s) = some s := by
  simp [dropPrefix]

theorem cut_fresh {α : Type} [DecidableEq α] {x : α} {t : List α} (hx : x ∉ t) (a b : List α)
    (ha : ¬ (x :: t) <:+: a) : cut (x :: t) (a ++ (x :: t) ++ b) = some (a, b) := by
  induction a with
  | nil =>
    have : (x :: t).isPrefixOf (x :: (t ++ b)) = true := by
      rw [isPrefixOf_iff]; exact ⟨b, rfl⟩
    simp only [List.nil_append, List.cons_append, cut, this, if_true]
    simp
  | cons y a ih =>
    have hna : ¬ (x :: t) <:+: a := fun h => ha (h.trans (List.suffix_cons y a).isInfix)
    have hnp : ¬ (x :: t).isPrefixOf (y :: (a ++ (x :: t) ++ b)) = true := by
      rw [isPrefixOf_iff]
      intro h
      have h' : (x :: t) <+: (y :: a) ++ ((x :: t) ++ b) := by simpa [List.append_assoc] using h
      obtain ⟨w, hw⟩ := h'
      rcases List.append_eq_append_iff.1 hw with ⟨u, hu, _⟩ | ⟨u, hu, h2⟩
      · exact ha (by rw [hu]; exact (List.prefix_append _ _).isInfix)
      · cases u with
        | nil => exact ha (by rw [hu]; simp)
        | cons z u =>
          have hz : z = x := by
            simp only [List.cons_append, List.cons.injEq] at h2
            exact h2.1.symm
          subst hz
          simp only [List.cons_append, List.cons.injEq] at hu
          exact hx (by rw [hu.2]; simp)
    simp only [List.cons_append, cut]
    simp only [List.append_assoc, List.cons_append] at hnp ih ⊢
    rw [if_neg hnp, ih hna]
    rfl

theorem infix_drop {α : Type} {x : α} {t : List α} {l s : List α} (hx : x ∉ l)
    (h : (x :: t) <:+: l ++ s) : (x :: t) <:+: s := by
  induction l with
  | nil => exact h
  | cons y l ih =>
    rcases List.infix_cons_iff.1 h with h | h
    · obtain ⟨w, hw⟩ := h
      simp only [List.cons_append, List.cons.injEq] at hw
      exact absurd (by rw [hw.1]; simp) hx
    · exact ih (fun hm => hx (List.mem_cons_of_mem _ hm)) h

/-! ### one part -/

/-- the text of a part -/
def partText (lines : List Bytes) (content : Bytes) : Bytes :=
  lines.flatMap (fun l => l ++ [13, 10]) ++ [13, 10] ++ content

/-- a header line as the code writes them -/
structure GoodLine (l : Bytes) : Prop where
  ne : l ≠ []
  cr : 13 ∉ l
  head : l.head? ≠ some 45

theorem readHeaders_partText (lines : List Bytes) (content : Bytes) (h : ∀ l ∈ lines, GoodLine l)
    (n : Nat) (hn : lines.length < n) :
    readHeaders n (partText lines content) = some (lines, content) := by
  induction lines generalizing n with
  | nil =>
    cases n with
    | zero => simp at hn
    | succ n =>
      simp [readHeaders, partText, cut]
  | cons l ls ih =>
    cases n with
    | zero => simp at hn
    | succ n =>
      have hl := h l (by simp)
      have hc : cut [13, 10] (l ++ [13, 10] ++ partText ls content) = some (l, partText ls content) := by
        apply cut_fresh (by decide)
        intro hi
        exact hl.cr (hi.subset (by simp))
      have he : partText (l :: ls) content = l ++ [13, 10] ++ partText ls content := by
        simp [partText]
      have ih' := ih (fun x hx => h x (List.mem_cons_of_mem _ hx)) n (by simpa using hn)
      simp only [readHeaders, he, hc]
      cases hl' : l with
      | nil => exact absurd hl' hl.ne
      | cons a s => simp [ih']

theorem noDelim_partText (b : Bytes) (lines : List Bytes) (content : Bytes)
    (h : ∀ l ∈ lines, GoodLine l) (hc : ¬ b <:+: content) :
    ¬ ([13, 10, 45, 45] ++ b) <:+: partText lines content := by
  have step : ∀ s : Bytes, ¬ (45 :: 45 :: b) <+: s → ¬ ([13, 10, 45, 45] ++ b) <:+: s →
      ¬ ([13, 10, 45, 45] ++ b) <:+: [13, 10] ++ s := by
    intro s h1 h2 hi
    rcases List.infix_cons_iff.1 hi with hi | hi
    · obtain ⟨w, hw⟩ := hi
      simp only [List.cons_append, List.nil_append, List.cons.injEq, true_and] at hw
      exact h1 ⟨w, by simpa using hw⟩
    · exact h2 (infix_drop (l := [10]) (by decide) hi)
  induction lines with
  | nil =>
    have : partText [] content = [13, 10] ++ content := by simp [partText]
    rw [this]
    apply step
    · intro hp
      exact hc (((List.suffix_append [45, 45] b).isInfix).trans hp.isInfix)
    · intro hp
      exact hc (((List.suffix_append [13, 10, 45, 45] b).isInfix).trans hp)
  | cons l ls ih =>
    have he : partText (l :: ls) content = l ++ ([13, 10] ++ partText ls content) := by
      simp [partText]
    rw [he]
    intro hi
    have hl := h l (by simp)
    refine step _ ?_ (ih (fun x hx => h x (List.mem_cons_of_mem _ hx))) (infix_drop hl.cr hi)
    cases ls with
    | nil =>
      rintro ⟨w, hw⟩
      simp [partText] at hw
    | cons l' ls' =>
      have hl' := h l' (by simp)
      rintro ⟨w, hw⟩
      cases hl'' : l' with
      | nil => exact hl'.ne hl''
      | cons a s =>
        have := hl'.head
        rw [hl''] at this
        simp [partText, hl''] at hw
        exact this (by rw [← hw.1]; rfl)

/-! ### the body -/

theorem readParts_body (delim : Bytes) (hd : ∃ t, delim = 13 :: t ∧ 13 ∉ t) (texts : List Bytes)
    (h : ∀ t ∈ texts, ¬ delim <:+: t) (n : Nat) (hn : texts.length < n) (tail : Bytes) :
    readParts delim n (texts.flatMap (fun t => [13, 10] ++ t ++ delim) ++ 45 :: 45 :: tail) =
      some texts := by
  obtain ⟨dt, rfl, hdt⟩ := hd
  induction texts generalizing n with
  | nil =>
    cases n with
    | zero => simp at hn
    | succ n => simp [readParts]
  | cons t ts ih =>
    cases n with
    | zero => simp at hn
    | succ n =>
      have ih' := ih n (by simpa using hn) (fun x hx => h x (List.mem_cons_of_mem _ hx))
      have hc := cut_fresh hdt t (ts.flatMap (fun t => [13, 10] ++ t ++ (13 :: dt)) ++ 45 :: 45 :: tail)
        (h t (by simp))
      have he : (t :: ts).flatMap (fun t => [13, 10] ++ t ++ (13 :: dt)) ++ 45 :: 45 :: tail =
          13 :: 10 :: (t ++ (13 :: dt) ++ (ts.flatMap (fun t => [13, 10] ++ t ++ (13 :: dt)) ++
            45 :: 45 :: tail)) := by
        simp
      rw [he, readParts, hc]
      simp only [ih']
      rfl

theorem shift (dash : Bytes) (texts : List Bytes) (tail : Bytes) :
    [13, 10] ++ (texts.flatMap (fun t => dash ++ [13, 10] ++ t ++ [13, 10]) ++ (dash ++ tail)) =
      ([13, 10] ++ dash) ++ (texts.flatMap (fun t => [13, 10] ++ t ++ ([13, 10] ++ dash)) ++ tail) := by
  induction texts with
  | nil => simp
  | cons t ts ih =>
    simp only [List.flatMap_cons, List.append_assoc] at *
    rw [ih]

theorem all_map {α γ ε : Type} (f : γ → Option ε) (g : α → γ) (k : α → ε) (l : List α)
    (h : ∀ x ∈ l, f (g x) = some (k x)) : Spec.Multipart.all f (l.map g) = some (l.map k) := by
  induction l with
  | nil => rfl
  | cons x xs ih =>
    simp only [List.map_cons, Spec.Multipart.all, h x (by simp),
      ih (fun y hy => h y (List.mem_cons_of_mem _ hy))]

/-! ### statement -/

/-- The text can stand between double quotes in a header line. -/
structure Quotable (s : Str) : Prop where
  quote : '"' ∉ s
  cr : '\r' ∉ s

/-- a field, as a reader should see it -/
def fieldPartOf (kv : Str × Str) : Part := ⟨kv.1, none, [], utf8 kv.2⟩

/-- the content of a file: the stream given, else what the file system holds under its name -/
def contentOf (env : Env β δ π) (f : File) : Bytes :=
  match f.data with
  | some (.text s) => utf8 s
  | some (.bytes b) => b
  | none => (env.readFile f.filename).toOption.getD []

/-- the two headers that are sent, in this order -/
def headersOf (f : File) : List (Str × Str) :=
  [c!"Content-Type", c!"Content-Transfer-Encoding"].filterMap
    (fun n => (Dict.get? f.header n).map (fun v => (n, v)))

/-- a file, as a reader should see it -/
def filePartOf (env : Env β δ π) (nf : Str × File) : Part :=
  ⟨nf.1, some nf.2.filename, headersOf nf.2, contentOf env nf.2⟩

/-- the files of all file parameters with their names, in order -/
def filesOf (p : Params β) : List (Str × File) :=
  p.file.flatMap (fun e => e.2.files.map (fun f => (e.1, f)))

/-- `uuid4().hex`: lower-case hexadecimal digits -/
def HexText (b : Str) : Prop := ∀ c ∈ b, ('0' ≤ c ∧ c ≤ '9') ∨ ('a' ≤ c ∧ c ≤ 'f')

/-! ### what the code writes -/

theorem ascii_of_hex {c : Char} (h : ('0' ≤ c ∧ c ≤ '9') ∨ ('a' ≤ c ∧ c ≤ 'f')) :
    c.toNat < 128 ∧ c ≠ '\r' := by
  have h2 : ∀ x y : Char, x ≤ y ↔ x.toNat ≤ y.toNat := fun x y => Iff.rfl
  simp only [h2] at h
  have e1 : ('9' : Char).toNat = 57 := rfl
  have e2 : ('f' : Char).toNat = 102 := rfl
  have e3 : ('0' : Char).toNat = 48 := rfl
  have e4 : ('a' : Char).toNat = 97 := rfl
  rw [e1, e2, e3, e4] at h
  refine ⟨by omega, ?_⟩
  rintro rfl
  have : ('\r' : Char).toNat = 13 := rfl
  omega

theorem asciiBytes_utf8 {s : Str} (h : ∀ c ∈ s, c.toNat < 128) : asciiBytes s = utf8 s := by
  induction s with
  | nil => rfl
  | cons c s ih =>
    have hc := utf8EncodeChar_ascii (h c (by simp))
    have ih' := ih (fun x hx => h x (List.mem_cons_of_mem _ hx))
    simp only [asciiBytes, utf8, List.map_cons, List.flatMap_cons] at *
    rw [hc, ih']; rfl

theorem cr_not_mem_utf8 {s : Str} (h : '\r' ∉ s) : (13 : UInt8) ∉ utf8 s := by
  intro hm
  exact h ((mem_utf8_ascii (s := s) (a := '\r') (by decide)).1 hm)

theorem utf8_cons (c : Char) (s : Str) : utf8 (c :: s) = String.utf8EncodeChar c ++ utf8 s := rfl

/-- a line `C...` without carriage return -/
theorem goodLine {s : Str} (h : '\r' ∉ s) (hc : s.head? = some 'C') : GoodLine (utf8 s) := by
  cases s with
  | nil => cases hc
  | cons a s =>
    simp only [List.head?_cons, Option.some.injEq] at hc
    subst hc
    have he : utf8 ('C' :: s) = 67 :: utf8 s := by
      rw [utf8_cons, utf8EncodeChar_ascii (by decide)]; rfl
    exact ⟨by rw [he]; simp, cr_not_mem_utf8 h, by rw [he]; simp⟩

theorem readLine_kv {k v : Str} (hk : ¬ c!": " <:+: k) :
    readLine (utf8 (k ++ c!": " ++ v)) = some (k, v) := by
  simp only [readLine, utf8Decode_utf8]
  exact cut_fresh (by decide) k v hk

theorem readDisposition_field {n : Str} (h : Quotable n) :
    readDisposition (c!"form-data; name=\"" ++ n ++ c!"\"") = some (n, none) := by
  have hc : cut ['"'] (n ++ ['"'] ++ []) = some (n, []) :=
    cut_fresh (by simp) n [] (fun hi => h.quote (hi.subset (by simp)))
  rw [List.append_nil] at hc
  simp only [readDisposition, List.append_assoc, dropPrefix_append]
  simp only [hc]

theorem readDisposition_file {n f : Str} (h : Quotable n) (hf : Quotable f) :
    readDisposition (c!"form-data; name=\"" ++ n ++ c!"\"; filename=\"" ++ f ++ c!"\"") =
      some (n, some f) := by
  have hc : cut ['"'] (n ++ ['"'] ++ (c!"; filename=\"" ++ f ++ ['"'])) =
      some (n, c!"; filename=\"" ++ f ++ ['"']) :=
    cut_fresh (by simp) n _ (fun hi => h.quote (hi.subset (by simp)))
  have hc2 : cut ['"'] (f ++ ['"'] ++ []) = some (f, []) :=
    cut_fresh (by simp) f [] (fun hi => hf.quote (hi.subset (by simp)))
  rw [List.append_nil] at hc2
  have e : c!"form-data; name=\"" ++ n ++ c!"\"; filename=\"" ++ f ++ c!"\"" =
      c!"form-data; name=\"" ++ (n ++ ['"'] ++ (c!"; filename=\"" ++ f ++ ['"'])) := by
    simp
  rw [e]
  simp only [readDisposition, dropPrefix_append, hc]
  have e2 := dropPrefix_append c!"; filename=\"" (f ++ ['"'])
  rw [← List.append_assoc] at e2
  change (match dropPrefix c!"; filename=\"" (c!"; filename=\"" ++ f ++ ['"']) with
    | none => none
    | some s => match cut ['"'] s with
      | some (filename, []) => some (n, some filename)
      | _ => none) = _
  rw [e2]
  simp only [hc2]

def dispField (n : Str) : Str := c!"Content-Disposition: form-data; name=\"" ++ n ++ c!"\""
def dispFile (n f : Str) : Str :=
  c!"Content-Disposition: form-data; name=\"" ++ n ++ c!"\"; filename=\"" ++ f ++ c!"\""

/-- the header lines of a file part -/
def linesOf (nf : Str × File) : List Str :=
  dispFile nf.1 nf.2.filename :: (headersOf nf.2).map (fun h => h.1 ++ c!": " ++ h.2)

def fieldText (kv : Str × Str) : Bytes := partText [utf8 (dispField kv.1)] (utf8 kv.2)
def fileText (env : Env β δ π) (nf : Str × File) : Bytes :=
  partText ((linesOf nf).map utf8) (contentOf env nf.2)

theorem length_partText (lines : List Bytes) (c : Bytes) : lines.length < (partText lines c).length + 1 := by
  have : lines.length ≤ (lines.flatMap (fun l => l ++ ([13, 10] : Bytes))).length := by
    induction lines with
    | nil => simp
    | cons l ls ih => simp only [List.flatMap_cons, List.length_append, List.length_cons] at *; omega
  simp only [partText, List.length_append]
  omega

theorem readPart_field (kv : Str × Str) (h : Quotable kv.1) :
    readPart (fieldText kv) = some (fieldPartOf kv) := by
  have hg : GoodLine (utf8 (dispField kv.1)) := goodLine (by
    have := h.cr
    simp only [dispField, List.mem_append]
    rintro ((h1 | h1) | h1)
    · exact absurd h1 (by decide)
    · exact this h1
    · exact absurd h1 (by decide)) rfl
  have hr := readHeaders_partText [utf8 (dispField kv.1)] (utf8 kv.2)
    (fun l hl => by rw [List.mem_singleton] at hl; subst hl; exact hg) ((fieldText kv).length + 1) (length_partText _ _)
  have hl : readLine (utf8 (dispField kv.1)) =
      some (c!"Content-Disposition", c!"form-data; name=\"" ++ kv.1 ++ c!"\"") := by
    have := readLine_kv (k := c!"Content-Disposition") (v := c!"form-data; name=\"" ++ kv.1 ++ c!"\"")
      (by decide)
    simpa [dispField] using this
  unfold fieldText at hr
  unfold readPart fieldText
  rw [hr]
  simp only [Spec.Multipart.all, hl, List.find?_cons, decide_true, readDisposition_field h]
  simp [fieldPartOf]

theorem headersOf_names {f : File} {h : Str × Str} (hm : h ∈ headersOf f) :
    (h.1 = c!"Content-Type" ∨ h.1 = c!"Content-Transfer-Encoding") ∧ Dict.get? f.header h.1 = some h.2 := by
  simp only [headersOf, List.mem_filterMap, Option.map_eq_some_iff] at hm
  obtain ⟨n, hn, v, hv, rfl⟩ := hm
  simp only [List.mem_cons, List.not_mem_nil, or_false] at hn
  exact ⟨hn, hv⟩

/-- the conditions on a file -/
structure GoodFile (env : Env β δ π) (b : Str) (nf : Str × File) : Prop where
  name : Quotable nf.1
  filename : Quotable nf.2.filename
  headers : ∀ n v, Dict.get? nf.2.header n = some v → '\r' ∉ v
  fresh : ¬ utf8 b <:+: contentOf env nf.2

theorem goodLines_file {env : Env β δ π} {b} {nf} (h : GoodFile env b nf) :
    ∀ l ∈ (linesOf nf).map utf8, GoodLine l := by
  intro l hl
  obtain ⟨s, hs, rfl⟩ := List.mem_map.1 hl
  rcases List.mem_cons.1 hs with rfl | hs
  · refine goodLine ?_ rfl
    have h1 := h.name.cr
    have h2 := h.filename.cr
    simp only [dispFile, List.mem_append]
    rintro ((((h3 | h3) | h3) | h3) | h3)
    · exact absurd h3 (by decide)
    · exact h1 h3
    · exact absurd h3 (by decide)
    · exact h2 h3
    · exact absurd h3 (by decide)
  · obtain ⟨kv, hkv, rfl⟩ := List.mem_map.1 hs
    obtain ⟨hn, hv⟩ := headersOf_names hkv
    have hcr := h.headers _ _ hv
    rcases hn with hn | hn <;> rw [hn]
    · refine goodLine ?_ rfl
      simp only [List.mem_append]
      rintro ((h3 | h3) | h3)
      · exact absurd h3 (by decide)
      · exact absurd h3 (by decide)
      · exact hcr h3
    · refine goodLine ?_ rfl
      simp only [List.mem_append]
      rintro ((h3 | h3) | h3)
      · exact absurd h3 (by decide)
      · exact absurd h3 (by decide)
      · exact hcr h3

theorem readPart_file {env : Env β δ π} {b} {nf} (h : GoodFile env b nf) :
    readPart (fileText env nf) = some (filePartOf env nf) := by
  have hr := readHeaders_partText ((linesOf nf).map utf8) (contentOf env nf.2) (goodLines_file h)
    ((fileText env nf).length + 1) (length_partText _ _)
  have hl : readLine (utf8 (dispFile nf.1 nf.2.filename)) =
      some (c!"Content-Disposition",
        c!"form-data; name=\"" ++ nf.1 ++ c!"\"; filename=\"" ++ nf.2.filename ++ c!"\"") := by
    have := readLine_kv (k := c!"Content-Disposition")
      (v := c!"form-data; name=\"" ++ nf.1 ++ c!"\"; filename=\"" ++ nf.2.filename ++ c!"\"") (by decide)
    simpa [dispFile] using this
  have ha : Spec.Multipart.all readLine ((linesOf nf).map utf8) =
      some ((c!"Content-Disposition",
        c!"form-data; name=\"" ++ nf.1 ++ c!"\"; filename=\"" ++ nf.2.filename ++ c!"\"") ::
        headersOf nf.2) := by
    have h2 : Spec.Multipart.all readLine ((headersOf nf.2).map (fun h => utf8 (h.1 ++ c!": " ++ h.2))) =
        some ((headersOf nf.2).map id) := by
      apply all_map
      intro x hx
      obtain ⟨hn, _⟩ := headersOf_names hx
      rcases hn with hn | hn <;> rw [hn, readLine_kv (by decide)] <;> simp only [id] <;>
        rw [← hn]
    simp only [linesOf, List.map_cons, Spec.Multipart.all, hl, List.map_map]
    rw [List.map_id] at h2
    have e : (List.map (utf8 ∘ fun h => h.1 ++ c!": " ++ h.2) (headersOf nf.2)) =
        (headersOf nf.2).map (fun h => utf8 (h.1 ++ c!": " ++ h.2)) := rfl
    rw [e, h2]
  unfold fileText at hr
  unfold readPart fileText
  rw [hr]
  simp only [ha, List.find?_cons, decide_true, readDisposition_file h.name h.filename]
  have hfil : (headersOf nf.2).filter (fun h => decide (h.1 ≠ c!"Content-Disposition")) = headersOf nf.2 := by
    rw [List.filter_eq_self]
    intro x hx
    obtain ⟨hn, _⟩ := headersOf_names hx
    rcases hn with hn | hn <;> rw [hn] <;> decide
  rw [List.filter_cons, hfil]
  simp [filePartOf]

theorem writeAll_ok {α : Type} {f : α → Except Exc Bytes} {g : α → Bytes} {l : List α} {b : Bytes}
    (h : writeAll f l = .ok b) (hg : ∀ x ∈ l, ∀ y, f x = .ok y → y = g x) : b = l.flatMap g := by
  induction l generalizing b with
  | nil => cases h; rfl
  | cons x xs ih =>
    simp only [writeAll] at h
    obtain ⟨a, ha, h⟩ := bind_ok.1 h
    obtain ⟨c, hc, h⟩ := bind_ok.1 h
    cases h
    rw [List.flatMap_cons, ← hg x (by simp) a ha, ← ih hc (fun y hy => hg y (List.mem_cons_of_mem _ hy))]

/-- **C23** (round trip). Whenever the multipart payload is built (UTF-8), the reader, told only
the announced content type, gets exactly the submitted fields and files: names, file names, the
two transmitted headers and contents, in order. Conditions: the boundary consists of hexadecimal
digits (as drawn by `uuid4().hex`) and occurs in no content; names and file names contain no
double quote or carriage return, header values no carriage return. -/
theorem C23_roundtrip (env : Env β δ π) (op : Op δ) (p : Params β) (ct : Str) (body : Bytes)
    (henc : ∀ s, env.encode s = .ok (utf8 s)) (hb : HexText env.boundary)
    (hfields : ∀ kv ∈ p.formData, Quotable kv.1 ∧ ¬ utf8 env.boundary <:+: utf8 kv.2)
    (hfiles : ∀ nf ∈ filesOf p, GoodFile env env.boundary nf)
    (h : prepareFiles env op p = .ok (ct, body)) :
    Spec.Multipart.read ct body = some (p.formData.map fieldPartOf ++ (filesOf p).map (filePartOf env)) := by
  unfold prepareFiles at h
  split at h
  · cases h
  obtain ⟨fields, h1, h⟩ := bind_ok.1 h
  obtain ⟨files, h2, h⟩ := bind_ok.1 h
  simp only [pure, Except.pure, Except.ok.injEq, Prod.mk.injEq] at h
  obtain ⟨rfl, rfl⟩ := h
  have hbA : ∀ c ∈ env.boundary, c.toNat < 128 := fun c hc => (ascii_of_hex (hb c hc)).1
  have hbB : asciiBytes env.boundary = utf8 env.boundary := asciiBytes_utf8 hbA
  have hb13 : (13 : UInt8) ∉ utf8 env.boundary :=
    cr_not_mem_utf8 (fun hm => (ascii_of_hex (hb _ hm)).2 rfl)
  generalize hdash : ([45, 45] ++ utf8 env.boundary : Bytes) = dash
  have hdash' : asciiBytes (c!"--" ++ env.boundary) = dash := by
    rw [← hdash, ← hbB]; simp [asciiBytes]
  have hcr : crlf = [13, 10] := by decide
  have e1 : fields = (p.formData.map fieldText).flatMap (fun t => dash ++ [13, 10] ++ t ++ [13, 10]) := by
    rw [List.flatMap_map]
    refine writeAll_ok h1 ?_
    intro kv _ y hy
    unfold fieldPart at hy
    rw [henc, henc] at hy
    cases hy
    rw [hdash', hcr]
    simp [fieldText, partText, dispField]
  have e2 : files = ((filesOf p).map (fileText env)).flatMap
      (fun t => dash ++ [13, 10] ++ t ++ [13, 10]) := by
    rw [List.flatMap_map]
    refine writeAll_ok h2 ?_
    intro nf _ y hy
    unfold filePart at hy
    obtain ⟨d, hd, hy⟩ := bind_ok.1 hy
    obtain ⟨l1, hl1, hy⟩ := bind_ok.1 hy
    obtain ⟨l2, hl2, hy⟩ := bind_ok.1 hy
    obtain ⟨c, hc, hy⟩ := bind_ok.1 hy
    simp only [pure, Except.pure, Except.ok.injEq] at hy
    rw [henc] at hd
    cases hd
    have hcont : c = contentOf env nf.2 := by
      unfold fileContent at hc
      unfold contentOf
      split at hc
      · rename_i hdt; rw [hdt, hc]; rfl
      · rename_i s hdt; rw [hdt]; rw [henc] at hc; cases hc; rfl
      · rename_i s hdt; rw [hdt]; cases hc; rfl
    have hline : ∀ n l, fileHeaderLine env n nf.2 = .ok l →
        l = (((Dict.get? nf.2.header n).map (fun v => (n, v))).toList.map
          (fun h => utf8 (h.1 ++ c!": " ++ h.2))).flatMap (fun l => l ++ [13, 10]) := by
      intro n l hl
      unfold fileHeaderLine at hl
      cases hg : Dict.get? nf.2.header n with
      | none => rw [hg] at hl; cases hl; rfl
      | some v =>
        rw [hg] at hl
        simp only [henc, Except.map, Except.ok.injEq] at hl
        rw [← hl, hcr]
        simp
    rw [← hy, hline _ _ hl1, hline _ _ hl2, hcont, hdash', hcr]
    simp only [fileText, partText, linesOf, headersOf, dispFile, List.filterMap_cons,
      List.filterMap_nil]
    cases Dict.get? nf.2.header c!"Content-Type" <;>
      cases Dict.get? nf.2.header c!"Content-Transfer-Encoding" <;>
        simp
  have e3 : asciiBytes (c!"--" ++ env.boundary ++ c!"--") ++ crlf = dash ++ 45 :: 45 :: [13, 10] := by
    rw [hcr, ← hdash']; simp [asciiBytes]
  let texts := p.formData.map fieldText ++ (filesOf p).map (fileText env)
  have htx : texts = p.formData.map fieldText ++ (filesOf p).map (fileText env) := rfl
  clear_value texts
  have ebody : fields ++ files ++ asciiBytes (c!"--" ++ env.boundary ++ c!"--") ++ crlf =
      texts.flatMap (fun t => dash ++ [13, 10] ++ t ++ [13, 10]) ++ (dash ++ 45 :: 45 :: [13, 10]) := by
    rw [List.append_assoc (fields ++ files), e3, e1, e2, ← List.flatMap_append, ← htx]
  have hann : announced (multipartType ++ c!"; boundary=" ++ env.boundary) = some env.boundary := by
    have : multipartType ++ c!"; boundary=" ++ env.boundary =
      c!"multipart/form-data; boundary=" ++ env.boundary := by simp [multipartType]
    rw [this]; exact dropPrefix_append _ _
  have hdel : ([13, 10, 45, 45] ++ utf8 env.boundary : Bytes) = [13, 10] ++ dash := by
    rw [← hdash]; rfl
  have hdel2 : ∃ t, ([13, 10] ++ dash : Bytes) = 13 :: t ∧ 13 ∉ t := by
    refine ⟨10 :: dash, rfl, ?_⟩
    rw [← hdash]
    simp [hb13]
  have hfresh : ∀ t ∈ texts, ¬ ([13, 10] ++ dash) <:+: t := by
    intro t ht
    rw [← hdel]
    rw [htx] at ht
    rcases List.mem_append.1 ht with ht | ht
    · obtain ⟨kv, hkv, rfl⟩ := List.mem_map.1 ht
      obtain ⟨hq, hf⟩ := hfields kv hkv
      refine noDelim_partText _ _ _ ?_ hf
      intro l hl
      rw [List.mem_singleton] at hl; subst hl
      refine goodLine ?_ rfl
      simp only [dispField, List.mem_append]
      rintro ((h1 | h1) | h1)
      · exact absurd h1 (by decide)
      · exact hq.cr h1
      · exact absurd h1 (by decide)
    · obtain ⟨nf, hnf, rfl⟩ := List.mem_map.1 ht
      have hg := hfiles nf hnf
      exact noDelim_partText _ _ _ (goodLines_file hg) hg.fresh
  obtain ⟨dt, hdt, hdt13⟩ := hdel2
  have hcut : cut ([13, 10] ++ dash) ([13, 10] ++ (fields ++ files ++
      asciiBytes (c!"--" ++ env.boundary ++ c!"--") ++ crlf)) =
      some ([], texts.flatMap (fun t => [13, 10] ++ t ++ ([13, 10] ++ dash)) ++ 45 :: 45 :: [13, 10]) := by
    rw [ebody, shift]
    have := cut_fresh hdt13 [] (texts.flatMap (fun t => [13, 10] ++ t ++ ([13, 10] ++ dash)) ++
      45 :: 45 :: [13, 10]) (by simp)
    rw [← hdt] at this
    exact this
  have hlen : texts.length < (texts.flatMap (fun t => [13, 10] ++ t ++ ([13, 10] ++ dash)) ++
      45 :: 45 :: [13, 10]).length + 1 := by
    have : ∀ l : List Bytes, l.length ≤ (l.flatMap (fun t => [13, 10] ++ t ++ ([13, 10] ++ dash))).length := by
      intro l
      induction l with
      | nil => simp
      | cons t ts ih => simp only [List.flatMap_cons, List.length_append, List.length_cons] at *; omega
    have := this texts
    rw [List.length_append]
    omega
  unfold Spec.Multipart.read
  rw [hann]
  simp only [hdel, hcut]
  rw [readParts_body ([13, 10] ++ dash) ⟨dt, hdt, hdt13⟩ texts hfresh _ hlen]
  have hA : ∀ (l1 : List Bytes) (l2 : List Bytes) r1 r2, Spec.Multipart.all readPart l1 = some r1 →
      Spec.Multipart.all readPart l2 = some r2 → Spec.Multipart.all readPart (l1 ++ l2) = some (r1 ++ r2) := by
    intro l1
    induction l1 with
    | nil => intro l2 r1 r2 h1 h2; cases h1; exact h2
    | cons x xs ih =>
      intro l2 r1 r2 h1 h2
      simp only [Spec.Multipart.all, List.cons_append] at *
      cases hx : readPart x with
      | none => rw [hx] at h1; cases h1
      | some y =>
        cases hxs : Spec.Multipart.all readPart xs with
        | none => rw [hx, hxs] at h1; cases h1
        | some ys =>
          rw [hx, hxs] at h1; cases h1
          rw [ih l2 ys r2 hxs h2]; rfl
  rw [htx]
  exact hA _ _ _ _ (all_map readPart fieldText fieldPartOf _ (fun kv hkv => readPart_field kv (hfields kv hkv).1))
    (all_map readPart (fileText env) (filePartOf env) _ (fun nf hnf => readPart_file (hfiles nf hnf)))

/-- **C23** (success). With UTF-8, building the payload fails only if the operation does not list
`multipart/form-data` or a file given by name cannot be read. -/
theorem C23_success (env : Env β δ π) (op : Op δ) (p : Params β)
    (henc : ∀ s, env.encode s = .ok (utf8 s))
    (hct : op.consumes = [] ∨ c!"multipart/form-data" ∈ op.consumes)
    (hread : ∀ nf ∈ filesOf p, nf.2.data = none → ∃ b, env.readFile nf.2.filename = .ok b) :
    ∃ r, prepareFiles env op p = .ok r := by
  have hw : ∀ {α : Type} (f : α → Except Exc Bytes) (l : List α), (∀ x ∈ l, ∃ b, f x = .ok b) →
      ∃ b, writeAll f l = .ok b := by
    intro α f l
    induction l with
    | nil => intro _; exact ⟨[], rfl⟩
    | cons x xs ih =>
      intro h
      obtain ⟨a, ha⟩ := h x (by simp)
      obtain ⟨b, hb⟩ := ih (fun y hy => h y (List.mem_cons_of_mem _ hy))
      exact ⟨a ++ b, by simp only [writeAll, ha, hb]; rfl⟩
  obtain ⟨a, ha⟩ := hw (fieldPart env) p.formData (fun kv _ => ⟨_, by unfold fieldPart; rw [henc, henc]; rfl⟩)
  have hline : ∀ n f, ∃ l, fileHeaderLine env n f = .ok l := by
    intro n f
    unfold fileHeaderLine
    cases Dict.get? f.header n with
    | none => exact ⟨[], rfl⟩
    | some v => exact ⟨utf8 (n ++ c!": " ++ v) ++ crlf, by simp only [henc]; rfl⟩
  obtain ⟨b, hb⟩ := hw (fun nf : Str × File => filePart env nf.1 nf.2) (fileList p.file) (by
    intro nf hnf
    obtain ⟨l1, hl1⟩ := hline c!"Content-Type" nf.2
    obtain ⟨l2, hl2⟩ := hline c!"Content-Transfer-Encoding" nf.2
    have hc : ∃ c, fileContent env nf.2 = .ok c := by
      unfold fileContent
      cases hd : nf.2.data with
      | none => exact hread nf hnf hd
      | some c => cases c with
        | text s => exact ⟨_, henc s⟩
        | bytes b => exact ⟨b, rfl⟩
    obtain ⟨c, hc⟩ := hc
    exact ⟨_, by unfold filePart; rw [henc, hl1, hl2, hc]; rfl⟩)
  have : ¬ (op.consumes ≠ [] ∧ multipartType ∉ op.consumes) := by
    rintro ⟨h1, h2⟩
    rcases hct with h | h
    · exact h1 h
    · exact h2 h
  unfold prepareFiles
  rw [if_neg this, ha, hb]
  exact ⟨_, rfl⟩

/-! ### refutations and non-vacuity -/

def env : Env Nat Unit Nat := ⟨fun _ b _ => .ok (b + 1), id, fun _ _ => .ok [],
  fun s => .ok (utf8 s), fun _ => .ok [65], c!"b0"⟩
def op : Op Unit := ⟨[], [], [], [], [], [], none, []⟩

/-- what the reader gets from the payload built for `p` -/
def received (p : Params Nat) : Option (List Part) :=
  (prepareFiles env op p).toOption.bind (fun r => Spec.Multipart.read r.1 r.2)

/-- **C23**, refuted without the condition on quotes: a file name with a double quote is read as a
different one (nothing is escaped). -/
theorem C23_quotes_false :
    received ⟨[], [], [], [], [(c!"a", c!"x"), (c!"k\"; filename=\"evil", c!"v")], []⟩ =
      some [⟨c!"a", none, [], [120]⟩, ⟨c!"k", some c!"evil", [], [118]⟩] := by decide +kernel

/-- **C23**, refuted without the condition on line breaks: a field name can forge headers. -/
theorem C23_linebreak_false :
    received ⟨[], [], [], [], [], [(c!"f", .one ⟨[(c!"Content-Type", c!"a/b\r\nX: y")], c!"n",
      some (.bytes [1])⟩)]⟩ =
      some [⟨c!"f", some c!"n", [(c!"Content-Type", c!"a/b"), (c!"X", c!"y")], [1]⟩] := by
  decide +kernel

/-- **C23**, refuted for other headers: only `Content-Type` and `Content-Transfer-Encoding`, spelled
exactly so, are sent. -/
theorem C23_headers_false :
    received ⟨[], [], [], [], [], [(c!"f", .one ⟨[(c!"content-type", c!"a/b"), (c!"X", c!"y")], c!"n",
      some (.bytes [1])⟩)]⟩ = some [⟨c!"f", some c!"n", [], [1]⟩] := by
  decide +kernel

example : received ⟨[], [], [], [], [(c!"a", c!"x\r\n--b1"), (c!"a", c!"é")],
    [(c!"f", .many [⟨[(c!"Content-Type", c!"t")], c!"n", some (.bytes [13, 10, 45, 45])⟩,
      ⟨[], c!"m", none⟩])]⟩ =
    some [⟨c!"a", none, [], [120, 13, 10, 45, 45, 98, 49]⟩, ⟨c!"a", none, [], [195, 169]⟩,
      ⟨c!"f", some c!"n", [(c!"Content-Type", c!"t")], [13, 10, 45, 45]⟩,
      ⟨c!"f", some c!"m", [], [65]⟩] := by decide +kernel
example : HexText c!"b0" := by unfold HexText; decide
example : Quotable c!"a b" := ⟨by decide, by decide⟩
example : ¬ utf8 c!"b0" <:+: utf8 c!"x\r\n--b1" := by decide +kernel

end Props.C23
