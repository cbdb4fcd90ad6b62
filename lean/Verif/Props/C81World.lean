import Verif.Props.C81Received
/-!
# C81 with the objects the library ships, concrete cases, and what goes wrong
-/

namespace Props.C81
open Py Tree Prim Spec Spec.Described Spec.SchemaDoc Spec.Conform Spec.Wire Spec.Reply Proofs.Conform Proofs.Wire Props.C79
open Prim.World (Outside)
open Utils (timeToJson)

variable {w : Outside} {e : Prim.Env World.Atom} {other : Prim World.Atom → Str} {S : Dict Str Tree → Prop}
  {fuel n : Nat} {q : Dict Str Tree} {v : Val} {read : Bool}

/-! ## the formats -/

/-- the texts of the formats in a URL: those of C79, but nothing about bytes (`C73_byte_false`: they are not base64) -/
def UrlTexts (mail : Str → Prop) (f s : Str) : Prop := f ≠ c!"byte" → f ≠ c!"binary" → Texts mail f s

/-- **C81, formats.** The texts of the shipped objects in a URL are of their format. -/
theorem C81_formats (hw : Real w) (hn : ∀ k t, w.obj k ≠ .datetime t) (e : Prim.Env World.Atom) :
    Forms (World.env w e) (inUrl w other) (UrlTexts fun s => e.validEmail s = true) where
  email s h _ _ := (C79_formats hw hn e).email s h
  unknown f s h1 h2 _ _ := (C79_formats hw hn e).unknown f s h1 h2
  object f k hm i v x s h hj h1 h2 := by
    refine (C79_formats hw hn e).object f k hm i v x s h ?_
    have h : World.atom w k v = .ok x := h
    simp only [made, List.mem_cons, Prod.mk.injEq, List.not_mem_nil, or_false] at hm
    rcases hm with ⟨rfl, rfl⟩ | ⟨rfl, rfl⟩ | ⟨rfl, rfl⟩ | ⟨rfl, rfl⟩ | ⟨rfl, rfl⟩
    · obtain ⟨y, -, rfl⟩ := C74.map_ok h; exact hj
    · exact absurd rfl h1
    · exact absurd rfl h2
    · obtain ⟨y, -, rfl⟩ := C74.map_ok h; exact hj
    · obtain ⟨y, -, rfl⟩ := C74.map_ok h; exact hj

/-! ## which texts can be read -/

/-- declared as a type whose texts never have a separator -/
def Compact (q : Dict Str Tree) : Prop :=
  textAt q c!"type" = some c!"integer" ∨ textAt q c!"type" = some c!"number" ∨
    textAt q c!"type" = some c!"string" ∧ ∃ f, textAt q c!"format" = some f ∧ f ∈ [c!"uuid", c!"date", c!"date-time"]

/-- there is a value; if it is a float, a decimal number -/
def Definite (c : Prim World.Atom) : Prop := c ≠ .none ∧ ∀ y, c = .float y → ∃ r, y = .fin r ∧ C74.Decimal r

theorem made_scalar {c : Prim World.Atom} (h : Made (World.env w e) q c) (hb : textAt q c!"type" ≠ some c!"boolean")
    (ha : textAt q c!"type" ≠ some c!"array") (hc : Definite c) (leaf) : Clear leaf c := by
  cases h with
  | none => exact absurd rfl hc.1
  | integer => exact .int
  | whole => exact .int
  | number => obtain ⟨r, h1, h2⟩ := hc.2 _ rfl; cases h1; exact .float h2
  | odd _ hy => obtain ⟨r, h1, h2⟩ := hc.2 _ rfl; exact absurd h1 (hy r)
  | boolean ht => exact absurd ht hb
  | string => exact .str
  | atom => exact .atom
  | array ht => exact absurd ht ha

theorem made_compact (hw : C74.Sound w) {c : Prim World.Atom} (h : Made (World.env w e) q c) (hq : Compact q)
    (hc : Definite c) {t : Str} (ht : Call.text (World.leaf w other) c = .ok t) : C74.Clean t := by
  have time : ∀ x, timeToJson x = .ok t → C74.Clean t := by
    intro x hx
    cases x with
    | date d => cases hx; exact C74.clean_iso_date d
    | datetime d =>
      simp only [timeToJson] at hx
      split at hx
      · split at hx
        · cases hx; exact C74.clean_iso_datetime d
        · cases hx
      · cases hx; exact C74.clean_iso_datetime d
  have key : ∀ {a : Str}, textAt q c!"type" = some a → a = c!"integer" ∨ a = c!"number" ∨ a = c!"string" ∧
      ∃ f, textAt q c!"format" = some f ∧ f ∈ [c!"uuid", c!"date", c!"date-time"] := by
    intro a ha
    rcases hq with h | h | ⟨h, h'⟩ <;> rw [ha] at h <;> cases h
    · exact .inl rfl
    · exact .inr (.inl rfl)
    · exact .inr (.inr ⟨rfl, h'⟩)
  cases h with
  | none => exact absurd rfl hc.1
  | integer => cases ht; exact C74.clean_int _
  | whole => cases ht; exact C74.clean_int _
  | number => obtain ⟨r, h1, h2⟩ := hc.2 _ rfl; cases h1; cases ht; exact C74.clean_float (hw.repr _ h2)
  | odd _ hy => obtain ⟨r, h1, h2⟩ := hc.2 _ rfl; exact absurd h1 (hy r)
  | boolean hb => rcases key hb with h | h | ⟨h, -⟩ <;> cases h
  | array hb => rcases key hb with h | h | ⟨h, -⟩ <;> cases h
  | string hb _ _ hf =>
    rcases key hb with h | h | ⟨-, f, h1, h2⟩
    · cases h
    · cases h
    · refine absurd ?_ (hf f h1)
      simp only [List.mem_cons, List.not_mem_nil, or_false] at h2
      rcases h2 with rfl | rfl | rfl <;> simp [made]
  | @atom _ f k i v x hty hf hk hat =>
    rcases key hty with h | h | ⟨-, f', h1, h2⟩
    · cases h
    · cases h
    · rw [hf] at h1; cases h1
      have hat : World.atom w k v = .ok x := hat
      simp only [made, List.mem_cons, Prod.mk.injEq, List.not_mem_nil, or_false] at hk h2
      rcases hk with ⟨rfl, rfl⟩ | ⟨rfl, rfl⟩ | ⟨rfl, rfl⟩ | ⟨rfl, rfl⟩ | ⟨rfl, rfl⟩
      · obtain ⟨y, -, rfl⟩ := C74.map_ok hat
        have ht : Except.ok (Prim.Uuid.to_json y) = .ok t := ht
        have := C74.clean_uuid y
        generalize Prim.Uuid.to_json y = j at ht this
        cases ht; exact this
      · exact absurd h2 (by decide)
      · exact absurd h2 (by decide)
      · obtain ⟨y, -, rfl⟩ := C74.map_ok hat; exact time y ht
      · obtain ⟨y, -, rfl⟩ := C74.map_ok hat; exact time y ht

/-- **C81, which texts can be read.** Those of numbers and strings, except `None`, infinities and NaN, and those of
arrays with a separator, not empty, of such values of types whose texts have no separators. -/
theorem C81_clear (hw : C74.Sound w) (hder : ∀ n, (e.node n).isSchema = false → e.deref n = .ok n) (hS : Within S)
    (hd : Described (World.env w e) n q) (hq : S q) {c : Prim World.Atom}
    (h : convert (World.env w e) fuel n v read = .ok c) :
    (textAt q c!"type" ≠ some c!"boolean" → textAt q c!"type" ≠ some c!"array" → Definite c →
      Clear (World.leaf w other) c) ∧
    ∀ s i f xs, Separates q s → Dict.get? q c!"items" = some (.dict i) → Compact i → c = .array f xs → xs ≠ [] →
      (∀ x ∈ xs, Definite x) → Clear (World.leaf w other) c := by
  have hm := converted (env := World.env w e) rfl hder hS hd hq h
  refine ⟨fun hb ha hc => made_scalar hm hb ha hc _, ?_⟩
  rintro s i f xs ⟨g, hg, hsep⟩ hi hcom rfl hne hdef
  cases hm with
  | @array _ i' _ _ hty hit hmi _ _ _ hcol =>
  rw [hi] at hit; cases hit
  have hfg : f = g := by
    unfold Collects at hcol hg
    rcases hcol with ⟨h1, rfl⟩ | h1 <;> rcases hg with ⟨h2, rfl⟩ | h2 <;> rw [h1] at h2 <;> cases h2 <;> rfl
  subst hfg
  have hs := (C35.C35_separators f s).2 hsep
  have hnb : textAt i c!"type" ≠ some c!"boolean" ∧ textAt i c!"type" ≠ some c!"array" := by
    rcases hcom with h | h | ⟨h, -⟩ <;> rw [h] <;> exact ⟨by decide, by decide⟩
  refine .array hs hne (fun x hx => made_scalar (hmi x hx) hnb.1 hnb.2 (hdef x hx) _) fun x hx t ht => ?_
  obtain ⟨h1, h2⟩ := made_compact hw (hmi x hx) hcom (hdef x hx) ht
  exact ⟨h1, fun hst => h2 s hst (C74.separator_mem hs)⟩

/-! ## refutations -/

/-- **Refuted: booleans.** No text sent for a boolean can be read: `True` and `False` are not JSON. -/
theorem C81_boolean_false (hder : ∀ n, (e.node n).isSchema = false → e.deref n = .ok n)
    (hd : Described (World.env w e) n q) (ht : textAt q c!"type" = some c!"boolean") (b : Bool) :
    ∃ c t, convert (World.env w e) (fuel + 1) n (.bool b) read = .ok c ∧ Call.text (World.leaf w other) c = .ok t ∧
      ∀ val, ¬ Reads q t val := by
  have hl := limits hd
  have hi := hder n hl.isSchema
  have htype := text_eq hl.type
  refine ⟨.bool b, if b then c!"True" else c!"False", ?_, rfl, fun val hr => ?_⟩
  · rw [convert_bool (env := World.env w e) hi (typed rfl (by decide) (htype.trans ht) rfl (get_boolean _)) hl.allOf (by simp [effective])]
    simp [effective, World.env, World.toBool]
  · have hno : Spec.Json.readJson (if b then c!"True" else c!"False") = none := by cases b <;> decide +kernel
    generalize (if b then c!"True" else c!"False") = u at hr hno
    cases hr with
    | integer _ h => rw [hno] at h; cases h
    | number _ h => rw [hno] at h; cases h
    | boolean _ h => rw [hno] at h; cases h
    | string h => rw [ht] at h; cases h
    | array h => rw [ht] at h; cases h

/-- **Refuted: received booleans.** The text `false` in a header is accepted as true. -/
theorem C81_flag_false (hder : ∀ n, (e.node n).isSchema = false → e.deref n = .ok n)
    (hd : Described (World.env w e) n q) (ht : textAt q c!"type" = some c!"boolean") :
    Reads q c!"false" (.bool false) ∧ convert (World.env w e) (fuel + 1) n (.str c!"false") read = .ok (.bool true) := by
  have hl := limits hd
  have htype := text_eq hl.type
  refine ⟨.boolean ht (by decide +kernel), ?_⟩
  rw [convert_bool (env := World.env w e) (hder n hl.isSchema) (typed rfl (by decide) (htype.trans ht) rfl (get_boolean _)) hl.allOf (by simp [effective])]
  simp [effective, World.env, World.toBool]

/-- **Refuted: no number.** The text `nan` is accepted for any number, whatever limits are declared, and sent as it is,
where nobody reads it. -/
theorem C81_nan_false (hw : C74.Sound w) (hder : ∀ n, (e.node n).isSchema = false → e.deref n = .ok n)
    (hd : Described (World.env w e) n q) (ht : textAt q c!"type" = some c!"number")
    (hf : textAt q c!"format" = none) (hmul : numberAt q c!"multipleOf" = none) :
    ∃ c, convert (World.env w e) (fuel + 1) n (.str c!"nan") read = .ok c ∧
      Call.text (World.leaf w other) c = .ok c!"nan" ∧ ∀ val, ¬ Reads q c!"nan" val := by
  have hl := limits hd
  have htype := text_eq hl.type
  have hformat := text_eq hl.format
  have h0 : (e.node n).multipleOf = 0 := by
    obtain ⟨y, h1, h2⟩ := hl.multipleOf
    rw [number_eq h1, hmul] at h2; exact h2
  refine ⟨.float .nan, ?_, congrArg Except.ok hw.nan, fun val hr => ?_⟩
  · rw [C74.convert_float (hder n hl.isSchema) (typed (env := World.env w e) rfl (by decide) (htype.trans ht) hformat ((get_number _).trans (by
      rw [if_neg (by simp [hf])]))) hl.allOf (by simp [effective])]
    have hx : World.toFloat w (effective (World.env w e) n (.str c!"nan")) = .ok .nan := by
      have : floatOfText c!"nan" = some .nan := by decide +kernel
      simp only [effective, reduceCtorEq, if_false, World.toFloat, this]
    rw [hx]
    have hv : validateFloat (e.node n) .nan = .ok () := by
      unfold validateFloat minMax
      have h1 : ∀ m, PyFloat.le .nan m = false := fun _ => rfl
      have h2 : ∀ m, PyFloat.lt .nan m = false := fun _ => rfl
      have h3 : ∀ m, PyFloat.ge .nan m = false := fun _ => rfl
      have h4 : ∀ m, PyFloat.gt .nan m = false := fun _ => rfl
      simp only [h1, h2, h3, h4, h0]
      cases (e.node n).minimum <;> cases (e.node n).maximum <;> simp
    simp only [hv]; rfl
  · have hno : Spec.Json.readJson c!"nan" = none := by decide +kernel
    generalize c!"nan" = u at hr hno
    cases hr with
    | integer _ h => rw [hno] at h; cases h
    | number _ h => rw [hno] at h; cases h
    | boolean _ h => rw [hno] at h; cases h
    | string h => rw [ht] at h; cases h
    | array h => rw [ht] at h; cases h

/-! ## concrete cases -/

open Props.C77 (txt)

/-- at most one name -/
def namesQ : Dict Str Tree := [(c!"type", txt c!"array"), (c!"items", .dict [(c!"type", txt c!"string")]),
  (c!"maxItems", .atom (.int 1))]

def oneOf : Nat → Node
  | 0 => _root_.Effective.nodeOf _root_.Doc.cParameter [(c!"type", txt c!"array"), (c!"maxItems", .atom (.int 1)),
      (c!"collectionFormat", txt c!"csv")] (some 1)
  | _ => _root_.Effective.nodeOf _root_.Doc.cItems [(c!"type", txt c!"string"), (c!"collectionFormat", txt c!"csv")] none

def oneEnv (nodes : Nat → Node) : Prim.Env World.Atom := { C73.base with node := nodes }

theorem names_described (w : Outside) : Described (World.env w (oneEnv oneOf)) 0 namesQ :=
  .array ⟨rfl, rfl, ⟨rfl, rfl⟩, rfl, rfl, rfl, rfl, rfl, rfl, ⟨fun _ => rfl, fun h => by cases h⟩, rfl, ⟨none, rfl, rfl⟩, rfl, rfl, rfl, rfl, rfl⟩ rfl rfl rfl
    (.plain ⟨rfl, rfl, ⟨rfl, rfl⟩, rfl, rfl, rfl, rfl, rfl, rfl, rfl, rfl, ⟨none, rfl, rfl⟩, rfl, rfl, rfl, rfl, rfl⟩
      (.inl rfl) rfl)

/-- **Refuted: elements with a separator.** The one name `a,b` is accepted where at most one is declared; the server
reads two. -/
theorem C81_separator_false (w : Outside) (form : Str → Str → Prop) (N : Prop) :
    ∃ c, Described (World.env w (oneEnv oneOf)) 0 namesQ ∧
      convert (World.env w (oneEnv oneOf)) 3 0 (.list [.str c!"a,b"]) false = .ok c ∧
      Call.text (World.leaf w other) c = .ok c!"a,b" ∧
      (∃ val, Reads namesQ c!"a,b" val) ∧
      ∀ val, Reads namesQ c!"a,b" val → ¬ Conforms (fun _ => none) form N namesQ val := by
  refine ⟨.array c!"csv" [.str c!"a,b"], names_described w, rfl, rfl, ⟨.list [.str c!"a", .str c!"b"], ?_⟩, ?_⟩
  · refine .array (s := ',') (ts := [c!"a", c!"b"]) rfl rfl ⟨c!"csv", .inl ⟨rfl, rfl⟩, by simp⟩ (by simp) (by decide) rfl ?_
    intro k t v h1 h2
    match k with
    | 0 => cases h1; cases h2; exact .string rfl
    | 1 => cases h1; cases h2; exact .string rfl
    | k + 2 => cases h1
  · intro val hr hc
    generalize hu : c!"a,b" = u at hr
    cases hr with
    | integer h => cases h
    | number h => cases h
    | boolean h => cases h
    | string h => cases h
    | @array _ i s ts vs _ _ hsep hne hcut hlen _ =>
      obtain ⟨f, hf, hs⟩ := hsep
      have : f = c!"csv" := by
        rcases hf with ⟨-, h⟩ | h
        · exact h
        · cases h
      subst this
      have : s = ',' := by simpa using hs
      subst this
      rw [between_join] at hu
      have := splitChar_join (c := ',') hne hcut
      rw [← hu] at this
      have hts : ts = [c!"a", c!"b"] := this.symm.trans (by decide)
      subst hts
      cases hc with
      | array hl _ _ _ hsz =>
        cases leads_self hl
        have := hsz.2 1 rfl
        rw [← hlen] at this
        exact absurd this (by decide)
      | number _ _ h => rcases h with h | ⟨_, h, -⟩ <;> cases h

/-- identifiers, separated by commas -/
def idsQ : Dict Str Tree := [(c!"name", txt c!"ids"), (c!"in", txt c!"query"), (c!"type", txt c!"array"),
  (c!"items", .dict [(c!"type", txt c!"integer"), (c!"maximum", .atom (.int 9))]), (c!"collectionFormat", txt c!"pipes")]
def idQ : Dict Str Tree := [(c!"type", txt c!"integer"), (c!"maximum", .atom (.int 9))]

def ids (q : Dict Str Tree) : Prop := q = idsQ ∨ q = idQ

theorem ids_within : Within ids where
  simple q h := by
    have hx : ∀ q, ids q → (On q c!"exclusiveMaximum" ∨ Off q c!"exclusiveMaximum") ∧
        (On q c!"exclusiveMinimum" ∨ Off q c!"exclusiveMinimum") := by
      rintro q (rfl | rfl) <;> exact ⟨.inr (.inl rfl), .inr (.inl rfl)⟩
    refine ⟨?_, hx q h, ?_⟩
    · rcases h with rfl | rfl <;> exact .inl rfl
    · rcases h with rfl | rfl
      · exact .array rfl rfl rfl (.inl rfl) (by simp [lengthAt, idsQ, Dict.get?])
      · exact .integer rfl rfl rfl
  typed q h := by
    rcases h with rfl | rfl
    · exact ⟨_, rfl, by decide⟩
    · exact ⟨_, rfl, by decide⟩
  noRef q h := by rcases h with rfl | rfl <;> rfl
  items q d h hd := by
    rcases h with rfl | rfl
    · cases hd; exact .inr rfl
    · cases hd
  values q h := by rcases h with rfl | rfl <;> exact fun t ht => by cases ht
  collects q h := by
    rcases h with rfl | rfl
    · exact ⟨c!"pipes", .inr rfl⟩
    · exact ⟨c!"csv", .inl ⟨rfl, rfl⟩⟩

def idNodes : Nat → Node
  | 0 => _root_.Effective.nodeOf _root_.Doc.cParameter [(c!"type", txt c!"array"), (c!"collectionFormat", txt c!"pipes")] (some 1)
  | _ => _root_.Effective.nodeOf _root_.Doc.cItems [(c!"type", txt c!"integer"), (c!"maximum", .atom (.int 9)),
      (c!"collectionFormat", txt c!"csv")] none

theorem ids_described (w : Outside) : Described (World.env w (oneEnv idNodes)) 0 idsQ :=
  .array ⟨rfl, rfl, ⟨rfl, rfl⟩, rfl, rfl, rfl, rfl, rfl, rfl, rfl, rfl, ⟨none, rfl, rfl⟩, rfl, rfl, rfl, rfl, rfl⟩ rfl rfl rfl
    (.plain ⟨rfl, rfl, ⟨rfl, rfl⟩, rfl, rfl, rfl, rfl, rfl, rfl, rfl, rfl, ⟨none, rfl, rfl⟩, rfl, rfl, rfl, rfl, rfl⟩
      (.inl rfl) rfl)

/-- the text for `[7, "8"]`, whatever it is, is read as a conforming value -/
example (hw : C74.Sound w) (hr : Real w) (hn : ∀ k t, w.obj k ≠ .datetime t) :
    ∃ c t val, convert (World.env w (oneEnv idNodes)) 3 0 (.list [.int 7, .str c!"8"]) false = .ok c ∧
      Call.text (World.leaf w other) c = .ok t ∧ Reads idsQ t val ∧
      Conforms (fun _ => none) (UrlTexts fun _ => true = true) False idsQ val := by
  have hc : convert (World.env w (oneEnv idNodes)) 3 0 (.list [.int 7, .str c!"8"]) false =
      .ok (.array c!"pipes" [.int 7, .int 8]) := by rfl
  have hcl := (C81_clear (other := other) hw (fun _ _ => rfl) ids_within (ids_described w) (.inl rfl) hc).2 '|' idQ _ _
    ⟨c!"pipes", .inr rfl, by simp⟩ rfl (.inl rfl) rfl (by simp)
    (by intro x hx
        simp only [List.mem_cons, List.not_mem_nil, or_false] at hx
        rcases hx with rfl | rfl <;> exact ⟨by simp, fun y h => by cases h⟩)
  have ht : Call.text (World.leaf w other) (.array c!"pipes" [.int 7, .int 8]) = .ok c!"7|8" := by
    have h7 : intStr 7 = c!"7" := by decide +kernel
    have h8 : intStr 8 = c!"8" := by decide +kernel
    have : Call.text (World.leaf w other) (.array c!"pipes" [.int 7, .int 8]) = arrayStr c!"pipes" [intStr 7, intStr 8] := rfl
    rw [this, h7, h8]; rfl
  obtain ⟨val, h1, h2⟩ := C81_text (t := c!"7|8") hw (fun _ _ => rfl) ids_within (C81_formats hr hn (oneEnv idNodes)) (ids_described w) (.inl rfl) hc hcl
    ht
  exact ⟨_, _, val, hc, ht, h1, h2⟩

/-- and accepted again -/
example : ∃ F, Accepts (World.env w (oneEnv idNodes)) World.toJson 0 c!"7|8" (.list [.int 7, .int 8]) F := by
  refine C81_accepted (S := ids) (form := Kept fun _ => true = true) (N := False) (fun _ _ => rfl) ids_within ?_ (C79_back w _) (.inl rfl) (ids_described w)
    (.array (s := '|') (ts := [c!"7", c!"8"]) rfl rfl ⟨c!"pipes", .inr rfl, by simp⟩ (by simp) (by decide) rfl ?_)
    (.array (.stop rfl) rfl rfl ?_ ⟨fun m h => (by cases h), fun m h => (by cases h)⟩ (fun h => (by cases h)) (.inl rfl))
  · rintro q (rfl | rfl) <;> exact ⟨by decide, fun h => by cases h⟩
  · intro k t v h1 h2
    match k with
    | 0 => cases h1; cases h2; exact .integer rfl (by decide +kernel)
    | 1 => cases h1; cases h2; exact .integer rfl (by decide +kernel)
    | k + 2 => cases h1
  · intro v hv
    have fits : ∀ n : Int, n ≤ 9 → Fits idQ n := by
      intro n hn
      refine ⟨fun m h => ?_, fun m h => (by cases h), fun m h => (by cases h)⟩
      have : m = ((9 : Int) : Rat) := by
        have h : some ((9 : Int) : Rat) = some m := h
        cases h; rfl
      subst this
      exact ⟨Rat.intCast_le_intCast.2 hn, fun h => by cases h⟩
    simp only [List.mem_cons, List.not_mem_nil, or_false] at hv
    rcases hv with rfl | rfl
    · exact .integer (.stop rfl) rfl (fits 7 (by decide)) (.inl rfl)
    · exact .integer (.stop rfl) rfl (fits 8 (by decide)) (.inl rfl)

/-! a request: `limit` of C77, two references away -/

open Call Io Ask Props.C72

def limitEnv : Prim.Env World.Atom := oneEnv C77.objs
def limitPs : List Decl := [⟨c!"limit", c!"query", false, 0, none⟩]

theorem limitSetting (hw : C74.Sound w) : Setting C77.docs id 3 w limitEnv [] [2] [] [C77.limitQ] limitPs where
  perm l := List.Perm.refl _
  forOp := .nil
  forItem := .cons ⟨2, C77.limit_means⟩ .nil
  parameters := ⟨_, rfl, .cons ⟨rfl, rfl, rfl, .plain rfl rfl, rfl⟩ .nil⟩
  distinct := by decide
  direct _ _ := rfl
  sound := hw

theorem limit_within : Within (· = C77.limitQ) where
  simple q h := by
    subst h
    exact ⟨.inl rfl, ⟨.inr (.inl rfl), .inr (.inl rfl)⟩, .integer rfl rfl rfl⟩
  typed q h := by subst h; exact ⟨_, rfl, by decide⟩
  noRef q h := by subst h; rfl
  items q d h hd := by subst h; cases hd
  values q h := by subst h; exact fun t ht => by cases ht
  collects q h := by subst h; exact ⟨c!"csv", .inl ⟨rfl, rfl⟩⟩

def limitOp : Op Unit := ⟨c!"//h/pets", c!"/pets", c!"get", [], [], [c!"http"], none, [⟨c!"limit", c!"query", .ok ()⟩]⟩

def limitIo : Io.Env (Prim World.Atom) Unit Str := ⟨fun _ _ _ => .ok [], List.map Char.toLower,
  fun _ _ => .ok [], fun s => .ok (utf8 s), fun _ => .ok [], c!"b"⟩

/-- there is such a request, and a server reads a conforming `limit` in it -/
example (hw : C74.Sound w) (hr : Real w) (hn : ∀ k t, w.obj k ≠ .datetime t) : ∃ r r' val,
    ask (World.env w limitEnv) (World.leaf w other) 9 limitPs (fun _ => .many []) limitOp [(c!"limit", .int 30)] = .ok r ∧
    prepare limitIo limitOp (.str c!"http") true r = .ok r' ∧
    ReadsAll C77.limitQ ((r'.p.query.filter fun x => x.1 = c!"limit").map Prod.snd) val ∧
    Conforms (fun _ => none) (UrlTexts fun _ => true = true) False C77.limitQ val := by
  obtain ⟨r, hask⟩ : ∃ r : Req (Prim World.Atom) Str, ask (World.env w limitEnv) (World.leaf w other) 9 limitPs (fun _ => .many []) limitOp
      [(c!"limit", .int 30)] = .ok r := ⟨_, rfl⟩
  obtain ⟨r', hp⟩ : ∃ r', prepare limitIo limitOp (.str c!"http") true r = .ok r' := by
    cases hask
    exact ⟨_, rfl⟩
  obtain ⟨p, v, c, hd, hv, hc, h⟩ := C81_query (limitSetting hw) limit_within (C81_formats hr hn limitEnv)
    (q := C77.limitQ) (by simp only [inForce, unnamed]; exact List.mem_singleton.2 rfl) rfl rfl rfl (.inl (by simp [Dict.get?])) hask hp
  have hv : v = .int 30 := by
    rcases hv with hv | ⟨hv, -⟩
    · exact (Option.some.inj hv).symm
    · cases hv
  subst hv
  have hl := limits hd.object
  obtain ⟨k, rfl, -⟩ := Proofs.Conform.convert_int (env := World.env w limitEnv) (i := p.obj) rfl
    (typed rfl (by decide) (text_eq hl.type) rfl (get_integer _)) hl.allOf (by simp [effective]) hc
  obtain ⟨val, h1, h2⟩ := h (.inl .int)
  exact ⟨r, r', val, hask, hp, h1, h2⟩

/-! a reply: the linked list of C80, and how many there are -/

open Spec.Described

def countQ : Dict Str Tree := [(c!"type", txt c!"integer"), (c!"minimum", .atom (.int 1))]

theorem count_within : Within (· = countQ) where
  simple q h := by
    subst h
    exact ⟨.inl rfl, ⟨.inr (.inl rfl), .inr (.inl rfl)⟩, .integer rfl rfl rfl⟩
  typed q h := by subst h; exact ⟨_, rfl, by decide⟩
  noRef q h := by subst h; rfl
  items q d h hd := by subst h; cases hd
  values q h := by subst h; exact fun t ht => by cases ht
  collects q h := by subst h; exact ⟨c!"csv", .inl ⟨rfl, rfl⟩⟩

theorem many_direct (n : Nat) (h : (C80.manyEnv.node n).isSchema = false) : C80.manyEnv.deref n = .ok n := by
  by_cases h2 : n = 2
  · subst h2; cases h
  · show (if n = 2 then Except.ok 0 else Except.ok n) = _
    rw [if_neg h2]

theorem plain_real : Real plainWorld := ⟨fun _ _ h => (by cases h), fun _ _ h => (by cases h), fun _ _ h => (by cases h),
  fun _ _ h => (by cases h), fun _ _ h => (by cases h)⟩

/-- a reply with a count is accepted -/
example (loads : Str → Except Exc Val) (hloads : ∀ s v, Spec.Json.readJson s = some v → loads s = .ok v) :
    ∃ F, ∀ stack, F ≤ stack → ∃ x v',
      (applyWith (Reply.renv (C80.outside loads) C80.manyEnv stack) [(c!"200", C80.many)] Resp.init
        ⟨some 200, some (.inr c!"{\"v\": 7, \"next\": {\"v\": 8}}"), some [(c!"X-Count", c!" 2 "), (c!"X-Other", c!"x")]⟩).2 =
          none ∧
      (applyWith (Reply.renv (C80.outside loads) C80.manyEnv stack) [(c!"200", C80.many)] Resp.init
        ⟨some 200, some (.inr c!"{\"v\": 7, \"next\": {\"v\": 8}}"), some [(c!"X-Count", c!" 2 "), (c!"X-Other", c!"x")]⟩).1.data =
          some x ∧ C70.jsonOf World.toJson x = .ok v' ∧ Same two v' := by
  refine C81_reply (o := C80.outside loads) (z := 200) (S := (· = countQ)) (N := False) (fun l => List.Perm.refl _) C80.manySetting.setting (C79_back _ _) (lists_neutral _) hloads (by rfl)
    (C80.json_types loads [] (.inl rfl)).2 C80.many_table (by rfl) C80.many_means (by rfl) (.inr (.inr rfl)) (fun _ h => h) (raw := .inr c!"{\"v\": 7, \"next\": {\"v\": 8}}") (.inl rfl)
    (v := two) (by decide +kernel) (two_conforms (.go (r := c!"u#/definitions/List") rfl rfl (.stop rfl)))
    (fun h => by cases h) ?_ many_direct count_within ?_ ?_
  · intro h hh hct
    simp only [List.mem_cons, List.not_mem_nil, or_false] at hh
    rcases hh with rfl | rfl
    · exact absurd hct (show c!"x-count" ≠ c!"content-type" by decide)
    · exact absurd hct (show c!"x-other" ≠ c!"content-type" by decide)
  · rintro q rfl
    exact ⟨by decide, fun h => by cases h⟩
  · intro h hh
    simp only [List.mem_cons, List.not_mem_nil, or_false] at hh
    rcases hh with rfl | rfl
    · refine .inr ⟨countQ, .int 2, rfl, rfl, .integer rfl (by decide +kernel), .integer (.stop rfl) rfl ?_ (.inl rfl)⟩
      refine ⟨fun m h => (by cases h), fun m h => ?_, fun m h => (by cases h)⟩
      have : m = ((1 : Int) : Rat) := by
        have h : some ((1 : Int) : Rat) = some m := h
        cases h; rfl
      subst this
      exact ⟨Rat.intCast_le_intCast.2 (by decide), fun h => by cases h⟩
    · exact .inl rfl

/-- and the count is found, in any capitalisation -/
example : ∃ l y, Utils.CIDict.getitem (List.map Char.toLower) (applyWith (Reply.renv (C80.outside fun _ => .ok two) C80.manyEnv 9)
      [(c!"200", C80.many)] { applyAll (Reply.renv (C80.outside fun _ => .ok two) C80.manyEnv 9) [(c!"200", C80.many)]
        Resp.init [⟨some 200, none, none⟩] with rawBodyOnly := false } ⟨none, none, some [(c!"X-Count", c!"2")]⟩).1.header
      c!"x-COUNT" = .ok l ∧ y ∈ l ∧
    ∀ v, C70.jsonOf World.toJson y = .ok v → Spec.Json.nonfinite v = false → (nulls v = true → False) →
      Conforms (fun _ => none) (Texts fun _ => true = true) False countQ v := by
  obtain ⟨l, y, h1, h2, -, h3⟩ := C81_received (o := C80.outside fun _ => .ok two) (S := (· = countQ)) (N := False) (toJson := World.toJson) (stack := 9) (b := false)
    (cs := [⟨some 200, none, none⟩]) (c := ⟨none, none, some [(c!"X-Count", c!"2")]⟩) (fun l => List.Perm.refl _)
    C80.many_table rfl many_direct count_within
    (C79_formats (w := plainWorld) plain_real (fun _ _ h => by cases h) _) (z := 200) rfl (by rfl) C80.many_means (by rfl) rfl
    (List.mem_singleton.2 rfl) (x' := c!"x-COUNT") (by decide)
  exact ⟨l, y, h1, h2, h3 countQ rfl rfl⟩

end Props.C81
