import Verif.Props.C79
import Verif.Props.C41
import Verif.Props.C72
import Verif.Props.C74
import Verif.Props.C66
/-!
# C79 with Python's own conversions and the shipped constructors

`Forms`, `Own` and `Back` hold of the objects of `Model/World.lean`. What is sent for a body parameter is a JSON text
that conforms to the schema written in the document.
-/

namespace Props.C79
open Py Tree Prim Spec Spec.Described Spec.SchemaDoc Spec.Conform Proofs.Conform Props.C78

/-- the texts of the formats: a canonical UUID, URL-safe base64, a `full-date`, an ISO 8601 text, an address that
satisfies `mail`; other formats demand nothing -/
def Texts (mail : Str → Prop) (f s : Str) : Prop :=
  (f = c!"email" → mail s) ∧
  (f = c!"uuid" → ∃ ds, Spec.Uuid.Canonical s ds) ∧
  (f = c!"byte" ∨ f = c!"binary" → ∃ b, b64decode true s = some b) ∧
  (f = c!"date" → ∃ d, Spec.Rfc3339.FullDate s d) ∧
  (f = c!"date-time" → ∃ t : Spec.Iso.Text, t.WF ∧ t.render = s ∧ t.value.Valid)

/-- the objects given are UUIDs, dates and times that exist, and so are those `datetime` makes of timestamps -/
structure Real (w : World.Outside) : Prop where
  uuid : ∀ k n, w.obj k = .uuid n → n < 2 ^ 128
  date : ∀ k d, w.obj k = .date d → d.Valid
  datetime : ∀ k t, w.obj k = .datetime t → t.Valid
  fromtimestamp : ∀ x d, w.fromtimestamp x = .ok d → d.Valid
  utcfromtimestamp : ∀ x t, w.utcfromtimestamp x = .ok t → t.Valid

theorem dated {w : World.Outside} (hw : Real w) (hn : ∀ k t, w.obj k ≠ .datetime t) {v : Val} {x : World.Atom} {s : Str}
    (h : World.atom w .date v = .ok x) (hj : World.toJson .date x = .ok s) : ∃ d, Spec.Rfc3339.FullDate s d := by
  simp only [World.atom] at h
  cases hd : Utils.dateApply w.fromtimestamp (World.timeArg w v) with
  | error e => rw [hd] at h; cases h
  | ok t =>
    rw [hd] at h
    cases h
    have hne : ∀ t, World.timeArg w v ≠ .datetime t := by
      intro t e
      unfold World.timeArg at e
      split at e <;> try cases e
      split at e <;> cases e
      next hk => exact hn _ _ hk
    obtain ⟨d, h1, rfl⟩ := C66.C66_date_only _ hd hne
    have hv : d.Valid := by
      generalize ha : World.timeArg w v = a at h1
      cases h1 with
      | date d =>
        unfold World.timeArg at ha
        split at ha <;> try cases ha
        split at ha <;> cases ha
        next hk => exact hw.date _ _ hk
      | float x d hx => exact hw.fromtimestamp _ _ hx
      | str s t hl =>
        rw [ha] at hd
        simp only [Utils.dateApply] at hd
        cases hi : Utils.from_iso8601 s with
        | error e => rw [hi] at hd; cases hd
        | ok y =>
          rw [hi] at hd
          simp only [Except.ok.injEq, Utils.TimeVal.date.injEq] at hd
          rw [← hd]
          exact (C74.iso_valid hi).1
    cases hj
    exact ⟨d, C66.fullDate_iso hv⟩

theorem timed {w : World.Outside} (hw : Real w) {v : Val} {x : World.Atom} {s : Str}
    (h : World.atom w .datetime v = .ok x) (hj : World.toJson .datetime x = .ok s) :
    ∃ t : Spec.Iso.Text, t.WF ∧ t.render = s ∧ t.value.Valid := by
  simp only [World.atom] at h
  cases hd : Utils.datetimeApply w.utcfromtimestamp (World.timeArg w v) with
  | error e => rw [hd] at h; cases h
  | ok t =>
    rw [hd] at h
    cases h
    obtain ⟨t, h1, rfl⟩ := C66.C66_datetime_only _ hd
    have hv : t.Valid := by
      generalize ha : World.timeArg w v = a at h1
      cases h1 with
      | datetime t =>
        unfold World.timeArg at ha
        split at ha <;> try cases ha
        split at ha <;> cases ha
        next hk => exact hw.datetime _ _ hk
      | float x d hx => exact hw.utcfromtimestamp _ _ hx
      | str s t hl =>
        rw [ha] at hd
        simp only [Utils.datetimeApply] at hd
        cases hi : Utils.from_iso8601 s with
        | error e => rw [hi] at hd; cases hd
        | ok y =>
          rw [hi] at hd
          simp only [Except.ok.injEq, Utils.TimeVal.datetime.injEq] at hd
          rw [← hd]
          exact C74.iso_valid hi
    have hj : Utils.timeToJson (.datetime t) = .ok s := hj
    have hp : C14.Printable t ∧ s = t.isoformat := by
      simp only [Utils.timeToJson] at hj
      cases ho : t.offset with
      | none => rw [ho] at hj; cases hj; exact ⟨⟨hv, by simp [ho]⟩, rfl⟩
      | some o =>
        rw [ho] at hj
        dsimp only at hj
        split at hj
        · next hlt => cases hj; exact ⟨⟨hv, fun o' e => by rw [ho] at e; cases e; exact hlt⟩, rfl⟩
        · cases hj
    obtain ⟨hp, rfl⟩ := hp
    exact ⟨C14.textOf t, C14.textOf_wf t, C14.textOf_render t, by rw [C14.textOf_value hp]; exact hv⟩

/-- **C79, formats.** What the shipped objects write is of their format, as long as no `datetime` is given for a date
(`C66_date_false`). -/
theorem C79_formats {w : World.Outside} (hw : Real w) (hn : ∀ k t, w.obj k ≠ .datetime t) (e : Env World.Atom) :
    Forms (World.env w e) World.toJson (Texts fun s => e.validEmail s = true) where
  email s h := ⟨fun _ => h, fun h => absurd h (by decide), fun h => absurd h (by decide), fun h => absurd h (by decide),
    fun h => absurd h (by decide)⟩
  unknown f s h1 h2 := by
    simp only [made, List.map_cons, List.map_nil, List.mem_cons, List.not_mem_nil, or_false, not_or] at h2
    exact ⟨fun h => absurd h h1, fun h => absurd h h2.1, fun h => absurd h (by simp [h2.2.1, h2.2.2.1]),
      fun h => absurd h h2.2.2.2.1, fun h => absurd h h2.2.2.2.2⟩
  object f k hm i v x s h hj := by
    have h : World.atom w k v = .ok x := h
    simp only [made, List.mem_cons, Prod.mk.injEq, List.not_mem_nil, or_false] at hm
    have hbyte : k = .byte → ∃ b, b64decode true s = some b := by
      rintro rfl
      simp only [World.atom] at h
      cases hb : Byte.apply (World.byteArg w v) with
      | error z => rw [hb] at h; cases h
      | ok b => rw [hb] at h; cases h; cases hj; exact ⟨b, b64decode_b64encode true b⟩
    rcases hm with ⟨rfl, rfl⟩ | ⟨rfl, rfl⟩ | ⟨rfl, rfl⟩ | ⟨rfl, rfl⟩ | ⟨rfl, rfl⟩
    · refine ⟨fun h => absurd h (by decide), fun _ => ?_, fun h => absurd h (by decide), fun h => absurd h (by decide),
        fun h => absurd h (by decide)⟩
      simp only [World.atom] at h
      cases hu : Uuid.apply (World.uuidArg w v) with
      | error z => rw [hu] at h; cases h
      | ok m =>
        rw [hu] at h
        cases h
        have hj : s = Uuid.to_json m := (Except.ok.inj hj).symm
        have hlt := C74.apply_lt (a := World.uuidArg w v) (fun k hk => by
          unfold World.uuidArg at hk
          split at hk <;> try cases hk
          split at hk <;> cases hk
          next ho => exact hw.uuid _ _ ho) hu
        obtain ⟨ds, -, h2⟩ := C69.C69_write hlt
        rw [hj]
        exact ⟨ds, h2⟩
    · exact ⟨fun h => absurd h (by decide), fun h => absurd h (by decide), fun _ => hbyte rfl, fun h => absurd h (by decide),
        fun h => absurd h (by decide)⟩
    · exact ⟨fun h => absurd h (by decide), fun h => absurd h (by decide), fun _ => hbyte rfl, fun h => absurd h (by decide),
        fun h => absurd h (by decide)⟩
    · exact ⟨fun h => absurd h (by decide), fun h => absurd h (by decide), fun h => absurd h (by decide),
        fun _ => dated hw hn h hj, fun h => absurd h (by decide)⟩
    · exact ⟨fun h => absurd h (by decide), fun h => absurd h (by decide), fun h => absurd h (by decide),
        fun h => absurd h (by decide), fun _ => timed hw h hj⟩

/-- Python's own conversions leave values of their own type alone -/
theorem C79_own (w : World.Outside) (e : Env World.Atom) : Own (World.env w e) :=
  ⟨fun _ => rfl, fun _ => rfl, fun _ => rfl, fun _ => rfl⟩

/-! ## texts that come back -/

theorem natOf_snoc (s : Str) (c : Char) : natOf (s ++ [c]) = 10 * natOf s + (c.toNat - 48) := by
  simp [natOf, List.foldl_append]

theorem digitChar_digit {c : Char} (h : c.isDigit = true) : Nat.digitChar (c.toNat - 48) = c ∧ c.toNat - 48 < 10 := by
  have h1 : 48 ≤ c.toNat ∧ c.toNat ≤ 57 := by
    simp only [Char.isDigit, ge_iff_le, Bool.and_eq_true, decide_eq_true_eq] at h
    exact ⟨h.1, h.2⟩
  refine ⟨?_, by omega⟩
  have key : ∀ n : Fin 10, Nat.digitChar n.1 = Char.ofNat (n.1 + 48) := by decide
  have := key ⟨c.toNat - 48, by omega⟩
  rw [this]
  dsimp only
  rw [Nat.sub_add_cancel h1.1, Char.ofNat_toNat]

/-- digits are the padded text of their number -/
theorem pad_natOf {k : Nat} {s : Str} (h : Spec.Iso.Digits k s) : pad k (natOf s) = s := by
  induction k generalizing s with
  | zero => have := h.1; rw [List.length_eq_zero_iff] at this; subst this; rfl
  | succ k ih =>
    rcases List.eq_nil_or_concat s with rfl | ⟨t, c, rfl⟩
    · cases h.1
    · rw [List.concat_eq_append] at h ⊢
      have hc := digitChar_digit (h.2 c (by simp))
      have ht : Spec.Iso.Digits k t := ⟨by have := h.1; simpa using this, fun x hx => h.2 x (by simp [hx])⟩
      rw [natOf_snoc, pad]
      have e1 : (10 * natOf t + (c.toNat - 48)) / 10 = natOf t := by omega
      have e2 : (10 * natOf t + (c.toNat - 48)) % 10 = c.toNat - 48 := by omega
      rw [e1, e2, ih ht, hc.1]

theorem fullDate_text {s : Str} {d : Date} (h : Spec.Rfc3339.FullDate s d) : s = d.isoformat ∧ d.Valid := by
  obtain ⟨y, m, a, h1, h2, h3, rfl, rfl, h4⟩ := h
  exact ⟨by simp [Date.isoformat, pad_natOf h1, pad_natOf h2, pad_natOf h3], h4⟩

open Spec.Uuid in
theorem value_inj : ∀ {x y : List Nat}, x.length = y.length → (∀ d ∈ x, d < 16) → (∀ d ∈ y, d < 16) →
    value x = value y → x = y
  | [], [], _, _, _, _ => rfl
  | a :: x, b :: y, hl, hx, hy, h => by
    have hl' : x.length = y.length := by simpa using hl
    have bound : ∀ z : List Nat, (∀ d ∈ z, d < 16) → value z < 16 ^ z.length := by
      intro z
      induction z with
      | nil => intro _; simp [value]
      | cons c z ih =>
        intro hz
        have h1 := ih fun d hd => hz d (by simp [hd])
        have h2 := hz c (by simp)
        rw [value, List.length_cons, Nat.pow_succ]
        have h3 : c * 16 ^ z.length ≤ 15 * 16 ^ z.length := Nat.mul_le_mul_right _ (by omega)
        omega
    have b1 := bound x fun d hd => hx d (by simp [hd])
    have b2 := bound y fun d hd => hy d (by simp [hd])
    rw [value, value, hl'] at h
    rw [hl'] at b1
    have hab : a = b := by
      have e1 : (a * 16 ^ y.length + value x) / 16 ^ y.length = a := by
        rw [Nat.mul_comm, Nat.mul_add_div (by positivity), Nat.div_eq_of_lt b1, Nat.add_zero]
      have e2 : (b * 16 ^ y.length + value y) / 16 ^ y.length = b := by
        rw [Nat.mul_comm, Nat.mul_add_div (by positivity), Nat.div_eq_of_lt b2, Nat.add_zero]
      rw [← e1, h, e2]
    subst hab
    rw [value_inj (x := x) (y := y) hl' (fun d hd => hx d (by simp [hd])) (fun d hd => hy d (by simp [hd])) (Nat.add_left_cancel h)]

open Spec.Uuid in
theorem lower_lt {s : Str} {ds : List Nat} (h : s.map some = ds.map fun d => lower[d]?) : ∀ d ∈ ds, d < 16 := by
  intro d hd
  have : (lower[d]?) ∈ s.map some := by rw [h]; exact List.mem_map_of_mem hd
  obtain ⟨c, -, hc⟩ := List.mem_map.1 this
  have := (List.getElem?_eq_some_iff.1 hc.symm).1
  simpa [lower] using this

open Spec.Uuid in
/-- a canonical text is what the UUID with its digits is written as -/
theorem canonical_text {s : Str} {ds : List Nat} (h : Canonical s ds) : Prim.Uuid.to_json (value ds) = s := by
  have hlt : value ds < 2 ^ 128 := by
    have := C74.apply_lt (a := .str s) (fun k hk => by cases hk) (C69.C69_read (C69.C69_canonical_spelling h))
    exact this
  obtain ⟨ds', h1, h2⟩ := C69.C69_write hlt
  generalize Prim.Uuid.to_json (value ds) = t at h2
  have e : ds' = ds := by
    obtain ⟨l1, a1, b1, c1, d1, e1, -, -, -, -, -, -, m1⟩ := h2
    obtain ⟨l2, a2, b2, c2, d2, e2, -, -, -, -, -, -, m2⟩ := h
    exact value_inj (l1.trans l2.symm) (lower_lt m1) (lower_lt m2) h1
  subst e
  obtain ⟨-, a1, b1, c1, d1, e1, rfl, x1, x2, x3, x4, -, m1⟩ := h2
  obtain ⟨-, a2, b2, c2, d2, e2, rfl, y1, y2, y3, y4, -, m2⟩ := h
  have hm := (List.map_inj_right (f := (some : Char → Option Char)) (by simp)).1 (m1.trans m2.symm)
  simp only [List.append_assoc] at hm
  obtain ⟨g1, hm1⟩ := List.append_inj hm (x1.trans y1.symm)
  obtain ⟨g2, hm2⟩ := List.append_inj hm1 (x2.trans y2.symm)
  obtain ⟨g3, hm3⟩ := List.append_inj hm2 (x3.trans y3.symm)
  obtain ⟨g4, g5⟩ := List.append_inj hm3 (x4.trans y4.symm)
  rw [g1, g2, g3, g4, g5]

/-- The texts that are sent as they are: all of the format for addresses, UUIDs and dates; a moment as Python writes it;
of bytes the empty text only, any other text is encoded once more. -/
def Kept (mail : Str → Prop) (f s : Str) : Prop :=
  (f = c!"email" → mail s) ∧
  (f = c!"uuid" → ∃ ds, Spec.Uuid.Canonical s ds) ∧
  (f = c!"byte" ∨ f = c!"binary" → s = []) ∧
  (f = c!"date" → ∃ d, Spec.Rfc3339.FullDate s d) ∧
  (f = c!"date-time" → ∃ t : DateTime, C14.Printable t ∧ s = t.isoformat)

/-- **C79, formats, back.** These texts are accepted and sent as they are. -/
theorem C79_back (w : World.Outside) (e : Env World.Atom) :
    Back (World.env w e) World.toJson (Kept fun s => e.validEmail s = true) where
  email s h := h.1 rfl
  object f k hm s h i := by
    obtain ⟨-, h2, h3, h4, h5⟩ := h
    simp only [made, List.mem_cons, Prod.mk.injEq, List.not_mem_nil, or_false] at hm
    rcases hm with ⟨rfl, rfl⟩ | ⟨rfl, rfl⟩ | ⟨rfl, rfl⟩ | ⟨rfl, rfl⟩ | ⟨rfl, rfl⟩
    · obtain ⟨ds, hd⟩ := h2 rfl
      refine ⟨.uuid (Spec.Uuid.value ds), ?_, ?_⟩
      · show (Uuid.apply (.str s)).map _ = _
        rw [C69.C69_read (C69.C69_canonical_spelling hd)]
        rfl
      · show Except.ok _ = _
        rw [canonical_text hd]
    · cases h3 (.inl rfl); exact ⟨.byte [], rfl, rfl⟩
    · cases h3 (.inr rfl); exact ⟨.byte [], rfl, rfl⟩
    · obtain ⟨d, hd⟩ := h4 rfl
      obtain ⟨rfl, hv⟩ := fullDate_text hd
      refine ⟨.time (.date d), ?_, rfl⟩
      show (Utils.dateApply _ (.str _)).map _ = _
      simp only [Utils.dateApply, C14.C14_date hv]
      rfl
    · obtain ⟨t, ht, rfl⟩ := h5 rfl
      refine ⟨.time (.datetime t), ?_, ?_⟩
      · show (Utils.datetimeApply _ (.str _)).map _ = _
        simp only [Utils.datetimeApply, C14.C14_datetime ht]
        rfl
      · show Utils.timeToJson (.datetime t) = _
        simp only [Utils.timeToJson]
        cases ho : t.offset with
        | none => rfl
        | some o => dsimp only; rw [if_pos (ht.2 o ho)]

/-- A base64 text given for a schema with format `byte` conforms to it, and is never what is sent. -/
theorem C79_byte_false (w : World.Outside) (s : Str) (hs : s ≠ []) :
    ∃ x t, World.atom w .byte (.str s) = .ok x ∧ World.toJson .byte x = .ok t ∧ t ≠ s := by
  refine ⟨_, _, rfl, rfl, ?_⟩
  intro h
  have h1 := C41.C41_length (utf8 s)
  have h2 : s.length ≤ (utf8 s).length := by
    clear h h1 hs
    induction s with
    | nil => simp
    | cons c s ih =>
      simp only [utf8, List.flatMap_cons, List.length_append, List.length_cons] at ih ⊢
      have : 1 ≤ (String.utf8EncodeChar c).length := by
        have := c.utf8Size_pos
        rw [String.length_utf8EncodeChar]; omega
      omega
  have h3 : (Byte.toJson (utf8 s)).length = s.length := congrArg List.length h
  have h4 : 0 < s.length := List.length_pos_iff.2 hs
  omega

/-! ## what the server receives -/

mutual
theorem plain_finite {repr : Rat → Str} : ∀ v, Spec.Json.Plain repr v → Spec.Json.nonfinite v = false
  | .none, _ => rfl
  | .bool _, _ => rfl
  | .int _, _ => rfl
  | .float (.fin _), _ => rfl
  | .float .pinf, h => by simp [Spec.Json.Plain] at h
  | .float .ninf, h => by simp [Spec.Json.Plain] at h
  | .float .nan, h => by simp [Spec.Json.Plain] at h
  | .str _, _ => rfl
  | .other _, h => by simp [Spec.Json.Plain] at h
  | .list l, h => by
    rw [Spec.Json.Plain] at h; rw [Spec.Json.nonfinite]; exact plain_finite_items l h
  | .dict d, h => by
    rw [Spec.Json.Plain] at h; rw [Spec.Json.nonfinite]; exact plain_finite_pairs d h.2
theorem plain_finite_items {repr : Rat → Str} : ∀ l, Spec.Json.PlainItems repr l → Spec.Json.nonfiniteItems l = false
  | [], _ => rfl
  | v :: l, h => by
    rw [Spec.Json.PlainItems] at h
    rw [Spec.Json.nonfiniteItems, plain_finite v h.1, plain_finite_items l h.2]
    rfl
theorem plain_finite_pairs {repr : Rat → Str} : ∀ d, Spec.Json.PlainPairs repr d → Spec.Json.nonfinitePairs d = false
  | [], _ => rfl
  | (_, v) :: d, h => by
    rw [Spec.Json.PlainPairs] at h
    rw [Spec.Json.nonfinitePairs, plain_finite v h.1, plain_finite_pairs d h.2]
    rfl
end

variable {ω δ : Type} {env : Env ω} {B : Nat → Dict Str Tree → Prop} {look : Str → Option (Dict Str Tree)}
  {S : Dict Str Tree → Prop} {form : Str → Str → Prop} {N : Prop} {leaf : Prim ω → Except Exc Str}

open Call Io Ask in
/-- **C79, the server.** For a body parameter whose schema belongs to the dict `s` of the document (C78_body), the body
of the prepared request is a JSON text, and the value any reader of RFC 8259 reads from it conforms to `s`. -/
theorem C79_received (hset : Setting env B look S) (hdef : ∀ q, S q → Defaults N q) {enc : Prim.Json.Enc ω}
    (hform : Forms env enc.toJson form) {fuel : Nat} {ps : List Decl} {files : FileArg ω → FileVal}
    {op : Op δ} {k : Dict Str Val} {sch : SchemeArg} {hf : Bool} {renv : Io.Env (Prim ω) δ Str} {r r' : Req (Prim ω) Str}
    (ha : ask env leaf fuel ps files op k = .ok r) (hp : prepare renv op sch hf r = .ok r')
    (hfile : r.p.file = []) (hfd : r.p.formData = []) {p : Decl} {v : Val} (hsup : C72.Supplied env ps k p v)
    (hin : p.in_ = c!"body") (hone : ∀ q ∈ ps, q.in_ = c!"body" → q.name = p.name)
    (hop : op.parameters.map (fun d => (d.name, d.in_)) = ps.map fun q => (q.name, q.in_))
    (hm : ∀ b d, renv.marshal (C24.bodyType op.consumes r.consume) b d = Prim.Json.marshal enc b)
    {m : Nat} {s : Dict Str Tree} (hsch : p.schema = some m) (hb : B m s) (hS : S s) (hv : Proper N v) :
    ∃ c, convert env fuel m v false = .ok c ∧ ∀ w, C70.jsonOf enc.toJson c = .ok w → Spec.Json.Plain enc.repr w →
      ∃ body, r'.data = .payload body ∧ Spec.Json.readJson body = some w ∧ Conforms look form N s w := by
  obtain ⟨c, h1, h2⟩ := C72.C72_body ha hp hfile hfd hsup hin hone hop hm
  rw [prim, if_pos hin, hsch] at h1
  refine ⟨c, h1, fun w hw hpl => ?_⟩
  obtain ⟨⟨body, h3, h4⟩, -⟩ := h2 w hw hpl
  exact ⟨body, h3, h4, C79_conforms hset hdef hform hb hS hv h1 hw (plain_finite w hpl)⟩

/-! ## a concrete case: the linked list of C78 -/

def valueQ : Dict Str Tree := [(c!"type", txt c!"integer"), (c!"maximum", .atom (.int 9))]
def nextQ : Dict Str Tree := [(c!"$ref", txt c!"u#/definitions/List")]

/-- the schemas within reach -/
def lists (q : Dict Str Tree) : Prop := q = listQ ∨ q = valueQ ∨ q = nextQ

theorem lists_closed : Closed C78.look lists where
  simple := by
    rintro q (rfl | rfl | rfl) h
    · exact ⟨.inl rfl, ⟨.inr (.inl rfl), .inr (.inl rfl)⟩, .object (.inl rfl) (fun k t h => by
        have h : Dict.get? [(c!"v", Tree.dict valueQ), (c!"next", Tree.dict nextQ)] k = some t := h
        simp only [Dict.get?] at h
        split at h
        · cases h; exact ⟨_, rfl⟩
        · split at h
          · cases h; exact ⟨_, rfl⟩
          · cases h) (.bool rfl) rfl⟩
    · exact ⟨.inl rfl, ⟨.inr (.inl rfl), .inr (.inl rfl)⟩, .integer rfl rfl rfl⟩
    · cases h
  ref := by
    rintro q r d (rfl | rfl | rfl) h hl
    · cases h
    · cases h
    · cases h; cases hl; exact .inl rfl
  items := by
    rintro q d (rfl | rfl | rfl) - h <;> cases h
  property := by
    rintro q k d (rfl | rfl | rfl) h' h
    · have h : Dict.get? [(c!"v", Tree.dict valueQ), (c!"next", Tree.dict nextQ)] k = some (.dict d) := h
      simp only [Dict.get?] at h
      split at h
      · cases h; exact .inr (.inl rfl)
      · split at h
        · cases h; exact .inr (.inr rfl)
        · cases h
    · cases h
    · cases h'
  further := by
    rintro q d (rfl | rfl | rfl) - h <;> cases h
  part := by
    rintro q d (rfl | rfl | rfl) - h <;> cases h
  composed := by
    rintro q (rfl | rfl | rfl) - h <;> exact absurd rfl h
  tag := by
    rintro q k (rfl | rfl | rfl) - h <;> cases h

/-- no schema has a discriminator -/
theorem lists_tags {q e : Dict Str Tree} {k : Str} (hq : lists q) (hm : Member C78.look q e)
    (h : textAt e c!"discriminator" = some k) : False := by
  cases hm with
  | self => rcases hq with rfl | rfl | rfl <;> cases h
  | part hs => rcases hq with rfl | rfl | rfl <;> cases hs

/-- what lies outside: nothing of interest -/
def plainWorld : World.Outside := ⟨fun _ => .unknown, fun _ => .error .ValueError, fun _ => .error .ValueError,
  fun _ => [], fun _ => [], fun _ => .error .TypeError, fun _ => .error .TypeError, fun _ => true⟩

/-- an environment around objects, the third being a reference to the first -/
def envOf (node : Nat → Node) : Env World.Atom := World.env plainWorld
  { node := node, deref := fun n => if n = 2 then .ok 0 else .ok n, reg := [], toInt := fun _ => .error .TypeError,
    toFloat := fun _ => .error .TypeError, toStr := fun _ => [], toBool := fun _ => true, validEmail := fun _ => true,
    eq := fun a b => a = b, atom := fun _ _ _ => .error .TypeError, mismatch := fun _ _ _ => .ok (), order := id }

/-- the objects of the linked list -/
def listEnv : Env World.Atom := envOf objs

/-- the hypotheses hold -/
theorem listSetting : Read listEnv refs docs C78.look lists where
  derefs := by
    intro n
    show (∀ m, (if n = 2 then Except.ok 0 else Except.ok n) = .ok m → _) ∧ _
    refine ⟨fun m hm => ?_, fun e he => by dsimp only [listEnv, envOf, World.env] at he; split at he <;> cases he⟩
    by_cases hn : n = 2
    · subst hn; cases hm; exact ⟨3, _, rfl⟩
    · simp only [if_neg hn, Except.ok.injEq] at hm
      subst hm
      have : refs n = none := by
        unfold refs; split
        · exact absurd rfl hn
        · rfl
      exact ⟨1, [n], by simp [Utils.deref, Utils.derefLoop, Utils.CycleGuard.update, this]⟩
  known := by
    intro r j hr _
    unfold docs at hr
    dsimp only at hr
    split at hr
    · next h =>
      cases hr
      exact ⟨objs_shown listEnv rfl, listQ, by unfold C78.look; rw [if_pos h], rfl⟩
    · cases hr
  closed := lists_closed
  handlers := rfl
  order l := List.Perm.refl _
  distinct n := by
    show Dict.WF (objs n).properties
    match n with
    | 0 => decide
    | 1 => exact List.nodup_nil
    | n + 2 => exact List.nodup_nil
  values := by rintro q (rfl | rfl | rfl) t h <;> cases h
  names _ _ _ _ hq _ _ hm h := (lists_tags hq hm h).elim

theorem listForms : Forms listEnv World.toJson (Texts fun _ => true = true) :=
  C79_formats (w := plainWorld) ⟨fun _ _ h => (by cases h), fun _ _ h => (by cases h), fun _ _ h => (by cases h),
    fun _ _ h => (by cases h), fun _ _ h => (by cases h)⟩ (fun _ _ h => by cases h) _

/-- the argument: a list of two integers -/
def two : Val := .dict [(c!"v", .int 7), (c!"next", .dict [(c!"v", .int 8)])]

example : ∃ x, convert listEnv 9 0 two false = .ok x ∧ C70.jsonOf World.toJson x = .ok two ∧
    Conforms C78.look (Texts fun _ => true = true) False listQ two := by
  have hc : (convert listEnv 9 0 two false).toOption.map (C70.jsonOf World.toJson) = some (.ok two) := by rfl
  cases hx : convert listEnv 9 0 two false with
  | error e => rw [hx] at hc; cases hc
  | ok x =>
    rw [hx] at hc
    have hj : C70.jsonOf World.toJson x = .ok two := Option.some.inj hc
    refine ⟨x, rfl, hj, ?_⟩
    exact C79_conforms listSetting.setting (fun q hq t ht => by rcases hq with rfl | rfl | rfl <;> cases ht) listForms
      ⟨_, _, objs_shown listEnv rfl, rfl, .inl rfl⟩ (.inl rfl) (by simp [two, Proper, ProperPairs]) hx hj rfl

theorem value_conforms {n : Int} (hn : n ≤ 9) : Conforms C78.look (Kept fun _ => true = true) False valueQ (.int n) := by
  refine .integer (.stop rfl) rfl ⟨fun m hm => ?_, fun m hm => (by cases hm), fun m hm => (by cases hm)⟩ (.inl rfl)
  cases hm
  exact ⟨by exact_mod_cast hn, fun h => by cases h⟩

theorem last_conforms : Conforms C78.look (Kept fun _ => true = true) False nextQ (.dict [(c!"v", .int 8)]) := by
  refine .object (.go (r := c!"u#/definitions/List") rfl rfl (.stop rfl)) (.inr rfl) (by decide) ?_ ?_ ?_ ?_ (.inl rfl) (fun s hs => by cases hs)
  · intro k hk
    have hk : k = c!"v" := by simpa [Required, listAt, listQ, Dict.get?, txt] using hk
    subst hk
    exact ⟨_, rfl⟩
  · intro k v s h1 h2
    simp only [Dict.get?] at h1
    split at h1
    · next e =>
      subst e
      cases h1
      cases h2
      exact value_conforms (by decide)
    · cases h1
  · intro k v s _ _ h; cases h
  · intro k v h1 h2
    simp only [Dict.get?] at h1
    split at h1
    · next e => subst e; cases h2
    · cases h1

theorem two_conforms {q : Dict Str Tree} (h : Leads C78.look q listQ) :
    Conforms C78.look (Kept fun _ => true = true) False q two := by
  refine .object h (.inr rfl) (by decide) ?_ ?_ ?_ ?_ (.inl rfl) (fun s hs => by cases hs)
  · intro k hk
    have hk : k = c!"v" := by simpa [Required, listAt, listQ, Dict.get?, txt] using hk
    subst hk
    exact ⟨_, rfl⟩
  · intro k v s h1 h2
    simp only [Dict.get?] at h1
    split at h1
    · next e => subst e; cases h1; cases h2; exact value_conforms (by decide)
    · split at h1
      · next e => subst e; cases h1; cases h2; exact last_conforms
      · cases h1
  · intro k v s _ _ h; cases h
  · intro k v h1 h2
    simp only [Dict.get?] at h1
    split at h1
    · next e => subst e; cases h2
    · split at h1
      · next e => subst e; cases h2
      · cases h1

theorem lists_neutral (P : Prop) : ∀ q, lists q → Neutral P q := by
  rintro q (rfl | rfl | rfl)
  · refine ⟨.inl rfl, fun _ => .inl rfl, fun k hk => ?_, fun h => (by cases h), .inl rfl, rfl⟩
    have hk : k = c!"v" := by simpa [Required, listAt, listQ, Dict.get?, txt] using hk
    subst hk
    exact ⟨_, rfl⟩
  · exact ⟨.inl rfl, fun _ => .inl rfl, fun k hk => (by cases hk), fun h => (by cases h), .inl rfl, rfl⟩
  · exact ⟨.inl rfl, fun _ => .inl rfl, fun k hk => (by cases hk), fun h => (by cases h), .inl rfl, rfl⟩

/-- and the other way round -/
example : ∃ F, Taken listEnv World.toJson True 0 two F :=
  C79_accepted (N := False) listSetting.setting (C79_own _ _) (C79_back _ _) (lists_neutral _) (two_conforms (.stop rfl))
    ⟨_, _, objs_shown listEnv rfl, rfl, .inl rfl⟩ (.inl rfl) rfl

/-- Without `Proper`: `None` is sent as null for the integer, which is no integer. -/
theorem C79_null_false : ∃ x, convert listEnv 9 1 .none false = .ok x ∧ C70.jsonOf World.toJson x = .ok .none ∧
    Belongs listEnv refs docs 1 valueQ ∧ ∀ form, ¬ Conforms C78.look form False valueQ .none := by
  refine ⟨.none, rfl, rfl, ⟨_, _, .intro rfl (.none rfl) .nil .nil (.bool (b := true)) rfl, rfl, .inl rfl⟩, ?_⟩
  intro form h
  cases h with
  | null h => exact h
  | number hl ht hv _ _ => rcases hv with hv | ⟨n, hv, -⟩ <;> cases hv

end Props.C79
