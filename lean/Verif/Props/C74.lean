import Verif.Props.C73
import Verif.Props.C14
import Verif.Props.C28
import Verif.Props.C72
/-!
# C74: a text that was sent and comes back is read as the value that was sent

An argument is converted by the object that describes it (a parameter, a header, an items object) and sent as text.
When the same text comes back (a server that echoes it in a header) and is converted by an object with the same
fields, the result is the same primitive.
-/

namespace Props.C74
open Py Utils Prim Prim.World Spec Props.C73

variable {w : Outside} {e : Prim.Env Atom} {other : Prim Atom → Str} {n m id i id' i' : Nat} {v : Val} {read read' : Bool}
  {c : Prim Atom} {t : Str}

/-- a number that can be written as a decimal, as every float can -/
def Decimal (q : Rat) : Prop := ∃ s, Spec.Json.FloatText s q

/-- what Python guarantees of the objects around: numbers of UUIDs have 128 bits, dates exist, `repr` of a float is
its decimal text -/
structure Sound (w : Outside) : Prop where
  uuid : ∀ k n, w.obj k = .uuid n → n < 2 ^ 128
  date : ∀ k d, w.obj k = .date d → d.Valid
  datetime : ∀ k t, w.obj k = .datetime t → t.Valid
  fromtimestamp : ∀ x d, w.fromtimestamp x = .ok d → d.Valid
  utcfromtimestamp : ∀ x t, w.utcfromtimestamp x = .ok t → t.Valid
  repr : ∀ q, Decimal q → Spec.Json.FloatText (w.repr (.fin q)) q
  inf : w.repr .pinf = c!"inf"
  ninf : w.repr .ninf = c!"-inf"
  nan : w.repr .nan = c!"nan"

/-- the value `v` sent for the object `id` is read by the object `id'` as what it was sent for -/
def Echoes (w : Outside) (e : Prim.Env Atom) (other : Prim Atom → Str) (n m id id' : Nat) (v : Val) (read read' : Bool) :
    Prop :=
  ∀ c t, convert (env w e) n id v read = .ok c → Call.text (leaf w other) c = .ok t →
    convert (env w e) m id' (.str t) read' = .ok c

/-- two objects (a parameter and a header, say) that describe the same values, up to their items -/
structure Alike (a b : Node) : Prop where
  type : b.type = a.type
  format : b.format = a.format
  maximum : b.maximum = a.maximum
  exclusiveMaximum : b.exclusiveMaximum = a.exclusiveMaximum
  minimum : b.minimum = a.minimum
  exclusiveMinimum : b.exclusiveMinimum = a.exclusiveMinimum
  maxLength : b.maxLength = a.maxLength
  minLength : b.minLength = a.minLength
  maxItems : b.maxItems = a.maxItems
  minItems : b.minItems = a.minItems
  multipleOf : b.multipleOf = a.multipleOf
  enum : b.enum = a.enum
  uniqueItems : b.uniqueItems = a.uniqueItems
  collectionFormat : b.collectionFormat = a.collectionFormat
  allOf : b.allOf = a.allOf

theorem Alike.refl (a : Node) : Alike a a := ⟨rfl, rfl, rfl, rfl, rfl, rfl, rfl, rfl, rfl, rfl, rfl, rfl, rfl, rfl, rfl⟩

/-- the objects found at `id` and `id'` describe the same values of one type, without allOf -/
structure Both (w : Outside) (e : Prim.Env Atom) (id id' i i' : Nat) (h : Handler) : Prop where
  left : (env w e).deref id = .ok i
  right : (env w e).deref id' = .ok i'
  typed : Typed (env w e) i h
  noAllOf : (e.node i).allOf = []
  alike : Alike (e.node i) (e.node i')

theorem Both.typed' {h : Handler} (b : Both w e id id' i i' h) : Typed (env w e) i' h := by
  have hN : (env w e).node = e.node := rfl
  refine ⟨?_, ?_⟩
  · rw [hN, b.alike.type]; exact b.typed.1
  · rw [hN, b.alike.type, b.alike.format]; exact b.typed.2

theorem Both.noAllOf' {h : Handler} (b : Both w e id id' i i' h) : (e.node i').allOf = [] :=
  b.alike.allOf.trans b.noAllOf

theorem Alike.validateInt {a b : Node} (h : Alike a b) : validateInt b = validateInt a := by
  funext x
  simp only [Prim.validateInt, minMax, h.minimum, h.maximum, h.exclusiveMinimum, h.exclusiveMaximum]

theorem Alike.validateFloat {a b : Node} (h : Alike a b) : validateFloat b = validateFloat a := by
  funext x
  simp only [Prim.validateFloat, minMax, h.minimum, h.maximum, h.exclusiveMinimum, h.exclusiveMaximum, h.multipleOf]

theorem Alike.validateStr {a b : Node} (h : Alike a b) : validateStr b = validateStr a := by
  funext x
  simp only [Prim.validateStr, h.enum, h.maxLength, h.minLength]

theorem convert_int (hd : (env w e).deref id = .ok i) (ht : Typed (env w e) i .int) (ha : (e.node i).allOf = [])
    (hv : effective (env w e) id v ≠ .none) :
    convert (env w e) (n + 1) id v read = match World.toInt w (effective (env w e) id v) with
      | .error x => .error x
      | .ok k => (validateInt (e.node i) (.fin k)).map fun _ => .int k := by
  rw [convert_step _ n id i v read hd hv, first_typed _ _ i _ _ ht.1 ht.2]
  have hE : (env w e).toInt = World.toInt w := rfl
  have hN : (env w e).node = e.node := rfl
  simp only [create, hE, hN]
  cases World.toInt w (effective (env w e) id v) with
  | error x => rfl
  | ok k =>
    simp only
    cases validateInt (e.node i) (.fin k) with
    | error x => rfl
    | ok u =>
      simp only [isFinalAtom, Bool.false_eq_true, if_false]
      rw [applyAllOf_nil (env w e) _ _ _ ha]; rfl

theorem convert_float (hd : (env w e).deref id = .ok i) (ht : Typed (env w e) i .float) (ha : (e.node i).allOf = [])
    (hv : effective (env w e) id v ≠ .none) :
    convert (env w e) (n + 1) id v read = match World.toFloat w (effective (env w e) id v) with
      | .error x => .error x
      | .ok x => (validateFloat (e.node i) x).map fun _ => .float x := by
  rw [convert_step _ n id i v read hd hv, first_typed _ _ i _ _ ht.1 ht.2]
  have hE : (env w e).toFloat = World.toFloat w := rfl
  have hN : (env w e).node = e.node := rfl
  simp only [create, hE, hN]
  cases World.toFloat w (effective (env w e) id v) with
  | error x => rfl
  | ok k =>
    simp only
    cases validateFloat (e.node i) k with
    | error x => rfl
    | ok u =>
      simp only [isFinalAtom, Bool.false_eq_true, if_false]
      rw [applyAllOf_nil (env w e) _ _ _ ha]; rfl

theorem convert_str (hd : (env w e).deref id = .ok i) (ht : Typed (env w e) i .str) (ha : (e.node i).allOf = [])
    (hv : effective (env w e) id v ≠ .none) :
    convert (env w e) (n + 1) id v read =
      (validateStr (e.node i) (textOf (env w e) (effective (env w e) id v))).map fun _ =>
        .str (textOf (env w e) (effective (env w e) id v)) := by
  rw [convert_step _ n id i v read hd hv, first_typed _ _ i _ _ ht.1 ht.2]
  have hN : (env w e).node = e.node := rfl
  simp only [create, hN]
  cases validateStr (e.node i) (textOf (env w e) (effective (env w e) id v)) with
  | error x => rfl
  | ok u =>
    simp only [isFinalAtom, Bool.false_eq_true, if_false]
    rw [applyAllOf_nil (env w e) _ _ _ ha]; rfl

theorem convert_email (hd : (env w e).deref id = .ok i) (ht : Typed (env w e) i .email) (ha : (e.node i).allOf = [])
    (hv : effective (env w e) id v ≠ .none) :
    convert (env w e) (n + 1) id v read =
      match validateStr (e.node i) (textOf (env w e) (effective (env w e) id v)) with
      | .error x => .error x
      | .ok _ => if e.validEmail (textOf (env w e) (effective (env w e) id v)) then
          .ok (.str (textOf (env w e) (effective (env w e) id v))) else .error .ValidationError := by
  rw [convert_step _ n id i v read hd hv, first_typed _ _ i _ _ ht.1 ht.2]
  have hN : (env w e).node = e.node := rfl
  have hM : (env w e).validEmail = e.validEmail := rfl
  simp only [create, hN, hM]
  cases validateStr (e.node i) (textOf (env w e) (effective (env w e) id v)) with
  | error x => rfl
  | ok u =>
    simp only
    by_cases hm : e.validEmail (textOf (env w e) (effective (env w e) id v)) = true
    · simp only [hm, if_true, isFinalAtom, Bool.false_eq_true, if_false]
      rw [applyAllOf_nil (env w e) _ _ _ ha]; rfl
    · simp only [hm, Bool.false_eq_true, if_false]

theorem effective_str (t : Str) : effective (env w e) id (.str t) = .str t := rfl

theorem map_ok {α β ε : Type} {x : Except ε α} {f : α → β} {b : β} (h : x.map f = .ok b) : ∃ a, x = .ok a ∧ b = f a := by
  cases x with
  | error _ => cases h
  | ok a => exact ⟨a, rfl, (Except.ok.inj h).symm⟩

/-- **C74, integers.** -/
theorem C74_integer (hb : Both w e id id' i i' .int)
    (hv : effective (env w e) id v ≠ .none) : Echoes w e other (n + 1) (m + 1) id id' v read read' := by
  intro c t hc hl
  rw [convert_int hb.left hb.typed hb.noAllOf hv] at hc
  cases hi : World.toInt w (effective (env w e) id v) with
  | error x => rw [hi] at hc; cases hc
  | ok k =>
    rw [hi] at hc
    obtain ⟨u, hu, rfl⟩ := map_ok hc
    have : t = intStr k := (Except.ok.inj hl).symm
    subst this
    rw [convert_int hb.right hb.typed' hb.noAllOf' (by rw [effective_str]; simp), effective_str]
    simp only [World.toInt, intOfText_intStr, hb.alike.validateInt, hu, Except.map]

theorem floatOfText_repr (hw : Sound w) (x : PyFloat) (hx : ∀ q, x = .fin q → Decimal q) : floatOfText (w.repr x) = some x := by
  cases x with
  | fin q => exact floatOfText_floatText (hw.repr q (hx q rfl))
  | pinf => rw [hw.inf]; decide +kernel
  | ninf => rw [hw.ninf]; decide +kernel
  | nan => rw [hw.nan]; decide +kernel

/-- **C74, numbers**, infinities and NaN included. -/
theorem C74_number (hw : Sound w) (hb : Both w e id id' i i' .float) (hv : effective (env w e) id v ≠ .none)
    (hq : ∀ q, convert (env w e) (n + 1) id v read = .ok (.float (.fin q)) → Decimal q) :
    Echoes w e other (n + 1) (m + 1) id id' v read read' := by
  intro c t hc hl
  rw [convert_float hb.left hb.typed hb.noAllOf hv] at hc hq
  cases hi : World.toFloat w (effective (env w e) id v) with
  | error x => rw [hi] at hc; cases hc
  | ok k =>
    rw [hi] at hc
    obtain ⟨u, hu, rfl⟩ := map_ok hc
    have : t = w.repr k := (Except.ok.inj hl).symm
    subst this
    rw [convert_float hb.right hb.typed' hb.noAllOf' (by rw [effective_str]; simp), effective_str]
    have hx : ∀ q, k = .fin q → Decimal q := fun q h => hq q (by
      subst h; rw [hi]; simp only [hu, Except.map])
    simp only [World.toFloat, floatOfText_repr hw k hx, hb.alike.validateFloat, hu, Except.map]

/-- **C74, strings.** -/
theorem C74_string (hb : Both w e id id' i i' .str)
    (hv : effective (env w e) id v ≠ .none) : Echoes w e other (n + 1) (m + 1) id id' v read read' := by
  intro c t hc hl
  rw [convert_str hb.left hb.typed hb.noAllOf hv] at hc
  generalize textOf (env w e) (effective (env w e) id v) = s at hc
  obtain ⟨u, hu, rfl⟩ := map_ok hc
  rw [← Except.ok.inj hl, convert_str hb.right hb.typed' hb.noAllOf' (by rw [effective_str]; simp), effective_str]
  simp only [textOf, hb.alike.validateStr, hu, Except.map]

/-- **C74, e-mail addresses.** -/
theorem C74_email (hb : Both w e id id' i i' .email)
    (hv : effective (env w e) id v ≠ .none) : Echoes w e other (n + 1) (m + 1) id id' v read read' := by
  intro c t hc hl
  rw [convert_email hb.left hb.typed hb.noAllOf hv] at hc
  generalize textOf (env w e) (effective (env w e) id v) = s at hc
  cases hs : validateStr (e.node i) s with
  | error x => rw [hs] at hc; cases hc
  | ok u =>
    simp only [hs] at hc
    by_cases hm : e.validEmail s = true
    · rw [if_pos hm] at hc
      cases hc
      rw [← Except.ok.inj hl, convert_email hb.right hb.typed' hb.noAllOf' (by rw [effective_str]; simp), effective_str]
      simp only [textOf, hb.alike.validateStr, hs, hm, if_true]
    · rw [if_neg hm] at hc; cases hc

theorem hexVal_lt {c : Char} {d : Nat} (h : Py.Uuid.hexVal? c = some d) : d < 16 := by
  unfold Py.Uuid.hexVal? at h
  split at h
  · next hc =>
    have h1 : c.toNat ≤ 57 := hc.2
    cases h; omega
  · split at h
    · next hc =>
      have h1 : c.toNat ≤ 102 := hc.2
      cases h; omega
    · split at h
      · next hc =>
        have h1 : c.toNat ≤ 70 := hc.2
        cases h; omega
      · cases h

theorem hexGo_lt {s : Str} : ∀ {a : Nat} {us : Bool} {x : Nat}, Py.Uuid.hexGo a us s = some x →
    x < (a + 1) * 16 ^ s.length := by
  induction s with
  | nil =>
    intro a us x h
    simp only [Py.Uuid.hexGo] at h
    split at h
    · cases h
    · cases h; simp
  | cons c s ih =>
    intro a us x h
    have hpos : 0 < 16 ^ s.length := Nat.pow_pos (by omega)
    rw [List.length_cons, Nat.pow_succ]
    simp only [Py.Uuid.hexGo] at h
    split at h
    · split at h
      · cases h
      · have := ih h
        calc x < (a + 1) * 16 ^ s.length := this
          _ ≤ (a + 1) * (16 ^ s.length * 16) := Nat.mul_le_mul_left _ (by omega)
    · split at h
      · next d hd =>
        have h1 := ih h
        have h2 := hexVal_lt hd
        calc x < (a * 16 + d + 1) * 16 ^ s.length := h1
          _ ≤ ((a + 1) * 16) * 16 ^ s.length := Nat.mul_le_mul_right _ (by omega)
          _ = (a + 1) * (16 ^ s.length * 16) := by ring
      · cases h

theorem hexBody_lt {s : Str} {x : Nat} (h : Py.Uuid.hexBody s = some x) : x < 16 ^ s.length := by
  cases s with
  | nil => cases h
  | cons c s =>
    simp only [Py.Uuid.hexBody] at h
    split at h
    · cases h
    · simpa using hexGo_lt h

theorem dropPrefix_length (s : Str) : (Py.Uuid.dropPrefix s).length ≤ s.length := by
  unfold Py.Uuid.dropPrefix
  split
  · split
    · split <;> simp <;> omega
    · simp
  · exact Nat.le_refl _

theorem stripBy_length (p : Char → Bool) (s : Str) : (Py.Uuid.stripBy p s).length ≤ s.length := by
  unfold Py.Uuid.stripBy
  rw [List.length_reverse]
  have h1 := (List.dropWhile_suffix (l := (s.dropWhile p).reverse) p).length_le
  have h2 := (List.dropWhile_suffix (l := s) p).length_le
  rw [List.length_reverse] at h1
  omega

theorem int16_lt {s : Str} {x : Nat} (h : Py.Uuid.int16 s = some x) : x < 16 ^ s.length := by
  have hl := stripBy_length Py.Uuid.isSpace s
  have key : ∀ r : Str, r.length ≤ s.length → Py.Uuid.hexBody (Py.Uuid.dropPrefix r) = some x → x < 16 ^ s.length := by
    intro r hr hb
    exact Nat.lt_of_lt_of_le (hexBody_lt hb) (Nat.pow_le_pow_right (by omega) (Nat.le_trans (dropPrefix_length r) hr))
  unfold Py.Uuid.int16 at h
  split at h
  · next r hs =>
    rw [hs] at hl
    exact key r (by simp only [List.length_cons] at hl; omega) h
  · exact key _ hl h

theorem bytes_lt (b : Bytes) : ∀ a, b.foldl (fun n x => n * 256 + x.toNat) a < (a + 1) * 256 ^ b.length := by
  induction b with
  | nil => simp
  | cons x b ih =>
    intro a
    rw [List.foldl_cons, List.length_cons, Nat.pow_succ]
    have h2 : x.toNat < 256 := x.toNat_lt
    calc _ < (a * 256 + x.toNat + 1) * 256 ^ b.length := ih _
      _ ≤ ((a + 1) * 256) * 256 ^ b.length := Nat.mul_le_mul_right _ (by omega)
      _ = (a + 1) * (256 ^ b.length * 256) := by ring

/-- whatever a UUID is made from, it has 128 bits -/
theorem apply_lt {a : Prim.Uuid.Arg} {x : Nat} (ha : ∀ k, a = .uuid k → k < 2 ^ 128) (h : Prim.Uuid.apply a = .ok x) :
    x < 2 ^ 128 := by
  cases a with
  | uuid k => cases h; exact ha _ rfl
  | str s =>
    simp only [Prim.Uuid.apply] at h
    cases ht : Py.Uuid.ofText s with
    | ok k =>
      rw [ht] at h
      cases h
      simp only [Py.Uuid.ofText] at ht
      split at ht
      · cases ht
      · next hl =>
        have hl : (Py.Uuid.clean s).length = 32 := by omega
        cases hi : Py.Uuid.int16 (Py.Uuid.clean s) with
        | none => rw [hi] at ht; cases ht
        | some y =>
          rw [hi] at ht
          cases ht
          have := int16_lt hi
          rw [hl] at this
          exact Nat.lt_of_lt_of_eq this (by decide)
    | error z =>
      rw [ht] at h
      cases z <;> first | (cases h; done) | (simp only [Py.Uuid.ofTextAsBytes] at h; split at h <;> cases h)
  | bytes b =>
    simp only [Prim.Uuid.apply, Py.Uuid.ofBytes] at h
    split at h
    · cases h
    · next hl =>
      cases h
      have := bytes_lt b 0
      rw [show b.length = 16 by omega] at this
      exact Nat.lt_of_lt_of_eq this (by decide)
  | other => cases h

/-- **C74, UUIDs.** -/
theorem C74_uuid (hw : Sound w) (hb : Both w e id id' i i' (.atom .uuid)) (hv : effective (env w e) id v ≠ .none) :
    Echoes w e other (n + 1) (m + 1) id id' v read read' := by
  intro c t hc hl
  rw [convert_atom hb.left hb.typed hb.noAllOf hv] at hc
  obtain ⟨a, h1, rfl⟩ := map_ok hc
  obtain ⟨x, h2, rfl⟩ := map_ok h1
  have harg : ∀ k, uuidArg w (effective (env w e) id v) = .uuid k → k < 2 ^ 128 := by
    intro k hk
    generalize effective (env w e) id v = y at hk
    cases y with
    | other k' =>
      simp only [uuidArg] at hk
      split at hk
      · next ho => cases hk; exact hw.uuid _ _ ho
      · cases hk
      · cases hk
    | str s => simp [uuidArg] at hk
    | _ => simp [uuidArg] at hk
  have hx := apply_lt harg h2
  have hl : Except.ok (Prim.Uuid.to_json x) = .ok t := hl
  generalize hj : Prim.Uuid.to_json x = j at hl
  cases hl
  have hr := C69.C69_roundtrip hx
  rw [hj] at hr
  rw [convert_atom hb.right hb.typed' hb.noAllOf' (by rw [effective_str]; simp), effective_str]
  simp only [atom, uuidArg, hr, Except.map]

/-- **C74, bytes.** -/
theorem C74_byte (hb : Both w e id id' i i' (.atom .byte))
    (hv : effective (env w e) id v ≠ .none) : Echoes w e other (n + 1) (m + 1) id id' v read read' := by
  intro c t hc hl
  rw [convert_atom hb.left hb.typed hb.noAllOf hv] at hc
  obtain ⟨a, h1, rfl⟩ := map_ok hc
  obtain ⟨b, h2, rfl⟩ := map_ok h1
  have hl : Prim.Byte.str b = .ok t := hl
  have hu : utf8 t = b := by
    unfold Prim.Byte.str at hl
    cases hd : utf8Decode b with
    | none => rw [hd] at hl; cases hl
    | some s => rw [hd] at hl; cases hl; exact utf8_of_decode hd
  rw [convert_atom hb.right hb.typed' hb.noAllOf' (by rw [effective_str]; simp), effective_str]
  simp only [atom, byteArg, Prim.Byte.apply, hu, Except.map]

/-- a text that is read as a moment is one of a moment that exists -/
theorem iso_valid {s : Str} {d : DateTime} (h : from_iso8601 s = .ok d) : d.Valid := by
  by_cases hx : ∃ t, Iso.Longest s t
  · obtain ⟨t, ht⟩ := hx
    by_cases hv : t.value.Valid
    · rw [(C15.C15_decision s).1 t ht hv] at h; cases h; exact hv
    · rw [(C15.C15_decision s).2.1 t ht hv] at h; cases h
  · rw [(C15.C15_decision s).2.2 hx] at h; cases h

/-- **C74, dates**, given as anything but a date-time. -/
theorem C74_date (hw : Sound w) (hb : Both w e id id' i i' (.atom .date)) (hv : effective (env w e) id v ≠ .none)
    (hn : ∀ k d, effective (env w e) id v = .other k → w.obj k ≠ .datetime d) :
    Echoes w e other (n + 1) (m + 1) id id' v read read' := by
  intro c t hc hl
  rw [convert_atom hb.left hb.typed hb.noAllOf hv] at hc
  obtain ⟨a, h1, rfl⟩ := map_ok hc
  obtain ⟨x, h2, rfl⟩ := map_ok h1
  have key : ∃ d, x = .date d ∧ d.Valid := by
    generalize effective (env w e) id v = y at h2 hn
    cases y with
    | float f =>
      simp only [timeArg, dateApply] at h2
      cases hf : w.fromtimestamp f with
      | error z => rw [hf] at h2; cases h2
      | ok d => rw [hf] at h2; cases h2; exact ⟨d, rfl, hw.fromtimestamp _ _ hf⟩
    | str s =>
      simp only [timeArg, dateApply] at h2
      cases hf : from_iso8601 s with
      | error z => rw [hf] at h2; cases h2
      | ok d => rw [hf] at h2; cases h2; exact ⟨_, rfl, (iso_valid hf).1⟩
    | other k =>
      simp only [timeArg] at h2
      split at h2
      · next d ho => cases h2; exact ⟨d, rfl, hw.date _ _ ho⟩
      · next d ho => exact absurd ho (hn k d rfl)
      · cases h2
    | _ => simp [timeArg, dateApply] at h2
  obtain ⟨d, rfl, hvd⟩ := key
  have : t = d.isoformat := (Except.ok.inj hl).symm
  subst this
  rw [convert_atom hb.right hb.typed' hb.noAllOf' (by rw [effective_str]; simp), effective_str]
  simp only [atom, timeArg, dateApply, C14.C14_date hvd, Except.map]

/-- **C74, date-times.** -/
theorem C74_datetime (hw : Sound w) (hb : Both w e id id' i i' (.atom .datetime)) (hv : effective (env w e) id v ≠ .none) :
    Echoes w e other (n + 1) (m + 1) id id' v read read' := by
  intro c t hc hl
  rw [convert_atom hb.left hb.typed hb.noAllOf hv] at hc
  obtain ⟨a, h1, rfl⟩ := map_ok hc
  obtain ⟨x, h2, rfl⟩ := map_ok h1
  have key : ∃ d, x = .datetime d ∧ d.Valid := by
    generalize effective (env w e) id v = y at h2
    cases y with
    | float f =>
      simp only [timeArg, datetimeApply] at h2
      cases hf : w.utcfromtimestamp f with
      | error z => rw [hf] at h2; cases h2
      | ok d => rw [hf] at h2; cases h2; exact ⟨d, rfl, hw.utcfromtimestamp _ _ hf⟩
    | str s =>
      simp only [timeArg, datetimeApply] at h2
      cases hf : from_iso8601 s with
      | error z => rw [hf] at h2; cases h2
      | ok d => rw [hf] at h2; cases h2; exact ⟨_, rfl, iso_valid hf⟩
    | other k =>
      simp only [timeArg] at h2
      split at h2
      · next d ho => cases h2
      · next d ho => cases h2; exact ⟨d, rfl, hw.datetime _ _ ho⟩
      · cases h2
    | _ => simp [timeArg, datetimeApply] at h2
  obtain ⟨d, rfl, hvd⟩ := key
  have hl : timeToJson (.datetime d) = .ok t := hl
  have hp : C14.Printable d ∧ t = d.isoformat := by
    unfold timeToJson at hl
    cases ho : d.offset with
    | none =>
      simp only [ho] at hl
      cases hl
      exact ⟨⟨hvd, by simp [ho]⟩, rfl⟩
    | some o =>
      simp only [ho] at hl
      by_cases hr : -1440 < o ∧ o < 1440
      · rw [if_pos hr] at hl; cases hl
        exact ⟨⟨hvd, fun o' h' => by rw [ho] at h'; cases h'; exact hr⟩, rfl⟩
      · rw [if_neg hr] at hl; cases hl
  obtain ⟨hp, rfl⟩ := hp
  rw [convert_atom hb.right hb.typed' hb.noAllOf' (by rw [effective_str]; simp), effective_str]
  simp only [atom, timeArg, datetimeApply, C14.C14_datetime hp, Except.map]

/-! ## arrays -/

theorem texts_forall {leaf : Prim Atom → Except Exc Str} : ∀ {l : List (Prim Atom)} {ts : List Str},
    Call.texts leaf l = .ok ts → List.Forall₂ (fun c t => Call.text leaf c = .ok t) l ts := by
  intro l
  induction l with
  | nil => intro ts h; cases h; exact .nil
  | cons c l ih =>
    intro ts h
    simp only [Call.texts] at h
    cases hc : Call.text leaf c with
    | error x => rw [hc] at h; cases h
    | ok t =>
      rw [hc] at h
      cases hl : Call.texts leaf l with
      | error x => rw [hl] at h; cases h
      | ok ts' => rw [hl] at h; cases h; exact .cons hc (ih hl)

/-- what comes back for the elements -/
theorem elements_echo {it it' : Nat} {vs : List Val} {ps : List (Prim Atom)} {ts : List Str}
    (hx : ∀ x ∈ vs, Echoes w e other n m it it' x true true)
    (h1 : List.Forall₂ (fun v x => convert (env w e) n it v true = .ok x) vs ps)
    (h2 : List.Forall₂ (fun c t => Call.text (leaf w other) c = .ok t) ps ts) :
    List.Forall₂ (fun v x => convert (env w e) m it' v true = .ok x) (ts.map .str) ps := by
  induction h1 generalizing ts with
  | nil => cases h2; exact .nil
  | cons a b ih =>
    cases h2 with
    | cons c d => exact .cons (hx _ (by simp) _ _ a c) (ih (fun x hx' => hx x (by simp [hx'])) d)

/-- **C74, arrays** in a collection format with a separator, whose elements come back, given as a list or as text, not
empty and not required to be unique: if no text of an element has the separator, and that of the first is not empty
unless it is the only one. -/
theorem C74_array (hb : Both w e id id' i i' .array)
    {it it' : Nat} (hit : (e.node i).items = some it) (hit' : (e.node i').items = some it')
    (hu : (e.node i).uniqueItems = false) {s : Char} (hs : separator (C35.formatOf (e.node i)) = some s) {vs : List Val}
    (hv : C35.given (some s) (effective (env w e) id v) = some vs) (hvs : vs ≠ [])
    (hx : ∀ x ∈ vs, Echoes w e other n m it it' x true true)
    (hsep : ∀ x ∈ vs, ∀ p t, convert (env w e) n it x true = .ok p → Call.text (leaf w other) p = .ok t → s ∉ t)
    (hfirst : vs.length = 1 ∨ ∀ x p t, vs.head? = some x → convert (env w e) n it x true = .ok p →
      Call.text (leaf w other) p = .ok t → t ≠ []) :
    Echoes w e other (n + 1) (m + 1) id id' v read read' := by
  intro c t hc hl
  have hN : (env w e).node = e.node := rfl
  have h := ((C35.C35_array (env w e) n id i it v read vs vs hb.left hb.typed hb.noAllOf hit (by rw [hN, hs]; exact hv)
    (by rw [hN, hu]; rfl)).1 c).1 hc
  obtain ⟨ps, rfl, h1, h2⟩ := h
  simp only [Call.text] at hl
  rw [if_neg (by rw [hN, hs]; simp)] at hl
  cases hts : Call.texts (leaf w other) ps with
  | error x => rw [hts] at hl; cases hl
  | ok ts =>
    rw [hts] at hl
    have h3 := texts_forall hts
    have hfree : ∀ t ∈ ts, s ∉ t := by
      clear hl hts h2 hfirst hvs hc hv
      induction h1 generalizing ts with
      | nil => cases h3; simp
      | cons a b ih =>
        cases h3 with
        | cons c d =>
          intro t ht
          rcases List.mem_cons.1 ht with rfl | ht
          · exact hsep _ (by simp) _ _ a c
          · exact ih (fun x hx' => hx x (by simp [hx'])) (fun x hx' => hsep x (by simp [hx'])) _ d t ht
    have hg : C35.given (separator (C35.formatOf (e.node i))) (.str t) = some (ts.map .str) := by
      refine ((C35.C35_text _ s hs ts hfree).2 t hl).2 ?_
      cases h1 with
      | nil => exact absurd rfl hvs
      | cons a b =>
        cases h3 with
        | @cons _ t' _ ts' c d =>
          by_cases he : t' = []
          · rcases hfirst with h | h
            · left
              cases b with
              | nil => cases d; rw [he]
              | cons => simp at h
            · exact absurd he (h _ _ _ rfl a c)
          · exact .inr ⟨_, _, rfl, he⟩
    have h4 := elements_echo hx h1 h3
    have hlen : (ts.map Val.str).length = vs.length := by rw [h4.length_eq, h1.length_eq]
    have hf : C35.formatOf (e.node i') = C35.formatOf (e.node i) := by simp only [C35.formatOf, hb.alike.collectionFormat]
    have := ((C35.C35_array (env w e) m id' i' it' (.str t) read' _ _ hb.right hb.typed' hb.noAllOf' hit'
      (by rw [effective_str, hN, hf]; exact hg) (by rw [hN, hb.alike.uniqueItems, hu]; rfl)).1
        (.array (C35.formatOf (e.node i)) ps)).2
      ⟨ps, by rw [hN, hf], h4, by
        rw [hlen]
        exact ⟨by rw [hN, hb.alike.minItems]; exact h2.min, by rw [hN, hb.alike.maxItems]; exact h2.max⟩⟩
    exact this

/-! ## elements without separators -/

/-- characters that separate elements -/
def separators : List Char := [',', ' ', '\t', '|']

/-- a text that is not empty and has no separator -/
def Clean (t : Str) : Prop := t ≠ [] ∧ ∀ c ∈ t, c ∉ separators

theorem separator_mem {f : Str} {s : Char} (h : separator f = some s) : s ∈ separators := by
  have := (C35.C35_separators _ s).1 h
  simp only [separators, List.mem_cons, Prod.mk.injEq, List.not_mem_nil, or_false] at this ⊢
  rcases this with h | h | h | h <;> simp [h.2]

theorem clean_int (k : Int) : Clean (intStr k) := by
  constructor
  · cases k with
    | ofNat k =>
      obtain ⟨a, b, h, -⟩ := natStr_cons k
      simp [intStr, h]
    | negSucc k => simp [intStr]
  · intro c hc
    rcases intStr_chars k c hc with rfl | ⟨d, rfl⟩
    · decide
    · exact (plain_digit d).2.2

theorem clean_digit {c : Char} (h : isDigit c = true) : c ∉ separators := by
  simp only [isDigit, Bool.and_eq_true, decide_eq_true_eq] at h
  obtain ⟨h1, h2⟩ := h
  have h1 : 48 ≤ c.toNat := h1
  have h2 : c.toNat ≤ 57 := h2
  simp only [separators, List.mem_cons, List.not_mem_nil, or_false, not_or]
  refine ⟨?_, ?_, ?_, ?_⟩ <;> (rintro rfl; revert h1 h2; decide)

theorem clean_float {t : Str} {q : Rat} (h : Spec.Json.FloatText t q) : Clean t := by
  obtain ⟨⟨neg, a, f, ex⟩, h1, h2, h3, -, rfl, sign, letter, hs, hl, rfl⟩ := h
  have ha : Spec.Json.isDigits a = true := by
    simp only [Spec.Json.plainInt, Bool.and_eq_true] at h1
    exact h1.1
  have hd : ∀ {x : Str}, Spec.Json.isDigits x = true → ∀ c ∈ x, c ∉ separators := fun h c hc =>
    clean_digit ((isDigits_iff.1 h).2 c hc)
  have hletter : letter ∉ separators := by
    have : letter = 'e' ∨ letter = 'E' := by simpa using hl
    rcases this with rfl | rfl <;> decide
  have hsign : ∀ c ∈ sign, c ∉ separators := by
    have : sign = [] ∨ sign = ['+'] := by simpa using hs
    rcases this with rfl | rfl <;> simp [separators]
  constructor
  · have := (isDigits_iff.1 ha).1
    simp [this]
  · intro c hc
    simp only [List.mem_append] at hc
    rcases hc with ((hc | hc) | hc) | hc
    · cases neg
      · simp at hc
      · simp at hc; subst hc; decide
    · exact hd ha c hc
    · cases f with
      | none => simp at hc
      | some f =>
        simp only [List.mem_cons] at hc
        rcases hc with rfl | hc
        · decide
        · exact hd (h2 f rfl) c hc
    · match ex, h3, hc with
      | none, _, hc => simp at hc
      | some (false, x), h3, hc =>
        simp only [List.mem_cons, List.mem_append] at hc
        rcases hc with rfl | hc | hc
        · exact hletter
        · exact hsign c hc
        · exact hd (h3 _ _ rfl) c hc
      | some (true, x), h3, hc =>
        simp only [List.mem_cons] at hc
        rcases hc with rfl | rfl | hc
        · exact hletter
        · decide
        · exact hd (h3 _ _ rfl) c hc

theorem clean_repr (hw : Sound w) (x : PyFloat) (hx : ∀ q, x = .fin q → Decimal q) : Clean (w.repr x) := by
  cases x with
  | fin q => exact clean_float (hw.repr q (hx q rfl))
  | pinf => rw [hw.inf]; exact ⟨by decide, by decide⟩
  | ninf => rw [hw.ninf]; exact ⟨by decide, by decide⟩
  | nan => rw [hw.nan]; exact ⟨by decide, by decide⟩

theorem clean_pad (k n : Nat) : ∀ c ∈ pad k n, c ∉ separators := by
  induction k generalizing n with
  | zero => simp [pad]
  | succ k ih =>
    intro c hc
    simp only [pad, List.mem_append, List.mem_singleton] at hc
    rcases hc with hc | rfl
    · exact ih _ c hc
    · exact (plain_digit ⟨n % 10, Nat.mod_lt _ (by omega)⟩).2.2

theorem clean_iso_date (d : Date) : Clean d.isoformat := by
  constructor
  · simp [Date.isoformat]
  · intro c hc
    simp only [Date.isoformat, List.mem_append, List.mem_cons] at hc
    rcases hc with (hc | rfl | hc) | rfl | hc
    · exact clean_pad _ _ c hc
    · decide
    · exact clean_pad _ _ c hc
    · decide
    · exact clean_pad _ _ c hc

theorem clean_iso_datetime (t : DateTime) : Clean t.isoformat := by
  constructor
  · simp [DateTime.isoformat]
  · intro c hc
    have hoff : ∀ o, ∀ c ∈ isoOffset o, c ∉ separators := by
      intro o c hc
      cases o with
      | none => cases hc
      | some o =>
        simp only [isoOffset, List.mem_append, List.mem_cons, List.cons_append] at hc
        rcases hc with rfl | hc | rfl | hc
        · split <;> decide
        · exact clean_pad _ _ c hc
        · decide
        · exact clean_pad _ _ c hc
    simp only [DateTime.isoformat, List.mem_append, List.mem_cons] at hc
    rcases hc with ((((hc | rfl | hc) | rfl | hc) | rfl | hc) | hc) | hc
    · exact (clean_iso_date t.date).2 c hc
    · decide
    · exact clean_pad _ _ c hc
    · decide
    · exact clean_pad _ _ c hc
    · decide
    · exact clean_pad _ _ c hc
    · split at hc
      · cases hc
      · rcases List.mem_cons.1 hc with rfl | hc
        · decide
        · exact clean_pad _ _ c hc
    · exact hoff _ c hc

theorem clean_hex : ∀ d : Fin 16, Nat.digitChar d.1 ∉ separators := by decide

theorem clean_hexPad (k n : Nat) : ∀ c ∈ Py.Uuid.hexPad k n, c ∉ separators := by
  induction k generalizing n with
  | zero => simp [Py.Uuid.hexPad]
  | succ k ih =>
    intro c hc
    simp only [Py.Uuid.hexPad, List.mem_append, List.mem_singleton] at hc
    rcases hc with hc | rfl
    · exact ih _ c hc
    · exact clean_hex ⟨n % 16, Nat.mod_lt _ (by omega)⟩

theorem clean_uuid (x : Nat) : Clean (Prim.Uuid.to_json x) := by
  have hp := clean_hexPad 32 x
  have e : Prim.Uuid.to_json x = Py.Uuid.text x := rfl
  rw [e]
  unfold Py.Uuid.text
  generalize Py.Uuid.hexPad 32 x = h at hp
  constructor
  · simp
  · intro c hc
    simp only [List.mem_append, List.mem_cons] at hc
    rcases hc with hc | rfl | hc | rfl | hc | rfl | hc | rfl | hc
    · exact hp c (List.mem_of_mem_take hc)
    · decide
    · exact hp c (List.mem_of_mem_drop (List.mem_of_mem_take hc))
    · decide
    · exact hp c (List.mem_of_mem_drop (List.mem_of_mem_take hc))
    · decide
    · exact hp c (List.mem_of_mem_drop (List.mem_of_mem_take hc))
    · decide
    · exact hp c (List.mem_of_mem_drop hc)

/-- the types whose texts never have a separator -/
def Simple (h : Handler) : Prop := h ∈ [.int, .float, .atom .uuid, .atom .date, .atom .datetime]

/-- a value of a type whose texts never have a separator -/
theorem simple_clean (hw : Sound w) {h : Handler} (hh : Simple h) (hd : (env w e).deref id = .ok i)
    (ht : Typed (env w e) i h) (ha : (e.node i).allOf = []) (hv : effective (env w e) id v ≠ .none)
    (hc : convert (env w e) (n + 1) id v read = .ok c) (hl : Call.text (leaf w other) c = .ok t)
    (hq : ∀ q, c = .float (.fin q) → Decimal q) : Clean t := by
  have time : ∀ x, timeToJson x = .ok t → Clean t := by
    intro x hx
    cases x with
    | date d => cases hx; exact clean_iso_date d
    | datetime d =>
      simp only [timeToJson] at hx
      split at hx
      · split at hx
        · cases hx; exact clean_iso_datetime d
        · cases hx
      · cases hx; exact clean_iso_datetime d
  simp only [Simple, List.mem_cons, List.not_mem_nil, or_false] at hh
  rcases hh with rfl | rfl | rfl | rfl | rfl
  · rw [convert_int hd ht ha hv] at hc
    split at hc
    · cases hc
    · obtain ⟨u, -, rfl⟩ := map_ok hc
      exact Except.ok.inj hl ▸ clean_int _
  · rw [convert_float hd ht ha hv] at hc
    split at hc
    · cases hc
    · obtain ⟨u, -, rfl⟩ := map_ok hc
      exact Except.ok.inj hl ▸ clean_repr hw _ fun q h => hq q (by rw [h])
  · rw [convert_atom hd ht ha hv] at hc
    obtain ⟨a, h1, rfl⟩ := map_ok hc
    obtain ⟨x, -, rfl⟩ := map_ok h1
    have hl : Except.ok (Prim.Uuid.to_json x) = .ok t := hl
    have hx := clean_uuid x
    generalize Prim.Uuid.to_json x = j at hl hx
    cases hl
    exact hx
  · rw [convert_atom hd ht ha hv] at hc
    obtain ⟨a, h1, rfl⟩ := map_ok hc
    obtain ⟨x, -, rfl⟩ := map_ok h1
    exact time x hl
  · rw [convert_atom hd ht ha hv] at hc
    obtain ⟨a, h1, rfl⟩ := map_ok hc
    obtain ⟨x, -, rfl⟩ := map_ok h1
    exact time x hl

/-- **C74, arrays of integers, numbers, UUIDs, dates or date-times**, not empty, without `None` among the elements. -/
theorem C74_simple_array (hw : Sound w) (hb : Both w e id id' i i' .array) {it it' j j' : Nat}
    (hit : (e.node i).items = some it) (hit' : (e.node i').items = some it')
    (hu : (e.node i).uniqueItems = false) {s : Char} (hs : separator (C35.formatOf (e.node i)) = some s) {h : Handler}
    (hh : Simple h) (hbj : Both w e it it' j j' h) {vs : List Val}
    (hv : C35.given (some s) (effective (env w e) id v) = some vs) (hvs : vs ≠ []) (hne : ∀ x ∈ vs, x ≠ .none)
    (hq : ∀ x ∈ vs, ∀ q, convert (env w e) (n + 1) it x true = .ok (.float (.fin q)) → Decimal q)
    (hdate : h = .atom .date → ∀ x ∈ vs, ∀ k d, x = .other k → w.obj k ≠ .datetime d) :
    Echoes w e other (n + 2) (m + 2) id id' v read read' := by
  have eff : ∀ x : Val, x ≠ .none → effective (env w e) it x = x := by
    intro x hx; simp [effective, hx]
  have hclean : ∀ x ∈ vs, ∀ p t, convert (env w e) (n + 1) it x true = .ok p → Call.text (leaf w other) p = .ok t →
      Clean t := fun x hx p t hc hl => simple_clean hw hh hbj.left hbj.typed hbj.noAllOf (by rw [eff x (hne x hx)]; exact hne x hx) hc hl
    fun q h => hq x hx q (by rw [← h]; exact hc)
  refine C74_array hb hit hit' hu hs hv hvs ?_ ?_ ?_
  · intro x hx
    have he : effective (env w e) it x ≠ .none := by rw [eff x (hne x hx)]; exact hne x hx
    simp only [Simple, List.mem_cons, List.not_mem_nil, or_false] at hh
    rcases hh with rfl | rfl | rfl | rfl | rfl
    · exact C74_integer hbj he
    · exact C74_number hw hbj he (hq x hx)
    · exact C74_uuid hw hbj he
    · exact C74_date hw hbj he (by rw [eff x (hne x hx)]; exact hdate rfl x hx)
    · exact C74_datetime hw hbj he
  · intro x hx p t hc hl hmem
    exact (hclean x hx p t hc hl).2 s hmem (separator_mem hs)
  · right
    intro x p t hx hc hl
    exact (hclean x (List.mem_of_mem_head? hx) p t hc hl).1

/-! ## a header that is echoed -/

/-- headers that are not declared are kept as they are -/
theorem kept_undeclared {η h σ τ ρ υ D : Type} (renv : Io.REnv η h σ τ ρ υ D) (d : Io.RespDecl h σ)
    (l rest : List (Str × Str)) (hl : ∀ p ∈ l, Dict.get? d.headers p.1 = none) :
    C28.kept renv (some d) (l ++ rest) = l.map (fun p => (p.1, renv.keep p.2)) ++ C28.kept renv (some d) rest := by
  induction l with
  | nil => rfl
  | cons p l ih =>
    obtain ⟨k, x⟩ := p
    have h0 := hl (k, x) (by simp)
    simp only [List.cons_append, C28.kept, C28.value, Option.bind_some, h0, List.map_cons,
      ih fun q hq => hl q (by simp [hq])]

/-- **C74, from call to response.** An operation is called with an argument for a header parameter and the request is
prepared. A server answers with what it finds under that name in a header the response declares with the same fields.
Looking that header up gives the converted argument. -/
theorem C74_header {δ π σ τ ρ υ D : Type} {ps : List Call.Decl} {files : Call.FileArg Atom → Io.FileVal}
    {op : Io.Op δ} {k : Dict Str Val} {r r' : Io.Req (Prim Atom) π} {qenv : Io.Env (Prim Atom) δ π} {sch hf}
    (ha : Ask.ask (env w e) (leaf w other) n ps files op k = .ok r) (hp : Io.prepare qenv op sch hf r = .ok r')
    {p : Call.Decl} (hS : C72.Supplied (env w e) ps k p v) (hin : p.in_ = c!"header")
    (ho : ∀ q ∈ ps, qenv.lower q.name = qenv.lower p.name → q.name = p.name)
    (h1 : qenv.lower p.name ≠ qenv.lower c!"Accept") (h2 : qenv.lower p.name ≠ qenv.lower c!"Content-Type")
    (renv : Io.REnv (Str ⊕ Prim Atom) Nat σ τ ρ υ D)
    (hconv : ∀ d x, renv.convert d x = (convert (env w e) m d (.str x) true).map .inr)
    {table : Dict Str (Io.RespDecl Nat σ)} {status : Int} {d : Io.RespDecl Nat σ}
    (ht : C28.entry table (some status) = some d) {hname : Str} {id' : Nat} (hdecl : Dict.get? d.headers hname = some id')
    (hE : Echoes w e other n m p.obj id' v false true) {pre post : List (Str × Str)} {x : Str}
    (hpre : ∀ q ∈ pre ++ post, Dict.get? d.headers q.1 = none ∧ renv.lower q.1 ≠ renv.lower hname)
    (hx : CIDict.getitem qenv.lower r'.header p.name = .ok x) :
    ∃ c, convert (env w e) n p.obj v false = .ok c ∧
      CIDict.getitem renv.lower
        (Io.applyWith renv table Io.Resp.init ⟨some status, none, some (pre ++ (hname, x) :: post)⟩).1.header hname =
          .ok [.inr c] := by
  obtain ⟨c, y, hc, hy, hg⟩ := C72.C72_header ha hp hS hin ho rfl h1 h2
  rw [hx] at hg
  cases hg
  have hc : convert (env w e) n p.obj v false = .ok c := by
    rw [Call.prim, if_neg (by rw [hin]; decide)] at hc; exact hc
  refine ⟨c, hc, ?_⟩
  have hH := C28.C28_headers renv table [⟨some status, none, some (pre ++ (hname, x) :: post)⟩] hname
  have hval : C28.value renv (some d) hname x = .ok (.inr c) := by
    simp only [C28.value, Option.bind_some, hdecl, hconv, hE c x hc hy, Except.map]
  have hrec : C28.received renv table none [⟨some status, none, some (pre ++ (hname, x) :: post)⟩] =
      pre.map (fun p => (p.1, renv.keep p.2)) ++ (hname, .inr c) :: post.map (fun p => (p.1, renv.keep p.2)) := by
    have e1 : C28.latest [some status] none = some status := rfl
    simp only [C28.received, e1, ht, Option.getD_some, List.append_nil]
    rw [kept_undeclared renv d pre _ fun q hq => (hpre q (by simp [hq])).1]
    congr 1
    simp only [C28.kept, hval]
    have := kept_undeclared renv d post [] fun q hq => (hpre q (by simp [hq])).1
    simp only [List.append_nil, C28.kept] at this
    rw [this]
  have hnone : ∀ l : List (Str × Str), (∀ q ∈ l, renv.lower q.1 ≠ renv.lower hname) →
      C28.under renv.lower hname (l.map fun p => (p.1, renv.keep p.2)) = [] := by
    intro l hl
    induction l with
    | nil => rfl
    | cons q l ih =>
      have h0 := hl q (by simp)
      have ih := ih fun x hx => hl x (by simp [hx])
      simp only [C28.under, List.map_cons] at ih ⊢
      rw [List.filter_cons_of_neg (by simpa using fun h => h0 h.symm)]
      exact ih
  have hu : C28.under renv.lower hname (C28.received renv table none
      [⟨some status, none, some (pre ++ (hname, x) :: post)⟩]) = [.inr c] := by
    rw [hrec]
    have a1 := hnone pre fun q hq => (hpre q (by simp [hq])).2
    have a2 := hnone post fun q hq => (hpre q (by simp [hq])).2
    simp only [C28.under] at a1 a2 ⊢
    rw [List.filter_append, List.map_append, a1, List.filter_cons_of_pos (by simp), List.map_cons, a2]
    rfl
  rw [hu] at hH
  exact hH

/-! ## What does not come back -/

/-- **C74, refuted for `False`**, which comes back as `True`. -/
theorem C74_boolean_false (hb : Both w e id id' i i' .bool) :
    Echoes w e other (n + 1) (m + 1) id id' (.bool true) read read' ∧
    ¬ Echoes w e other (n + 1) (m + 1) id id' (.bool false) read read' := by
  have hc : ∀ b, convert (env w e) (n + 1) id (.bool b) read = .ok (.bool b) := fun b =>
    convert_bool hb.left hb.typed hb.noAllOf (by simp [effective])
  have hs : ∀ t : Str, t ≠ [] → convert (env w e) (m + 1) id' (.str t) read' = .ok (.bool true) := fun t hne => by
    rw [convert_bool hb.right hb.typed' hb.noAllOf' (by simp [effective])]
    simp [effective, Prim.World.toBool, hne]
  constructor
  · intro c t hc' hl
    rw [hc] at hc'
    cases hc'
    cases hl
    exact hs _ (by decide)
  · intro H
    have := H _ _ (hc false) rfl
    rw [hs _ (by decide)] at this
    cases this

/-- **C74, refuted for a date-time given for a date**: the object holds the date-time, its text is read as the day. -/
theorem C74_date_false (hb : Both w e id id' i i' (.atom .date))
    {k : Nat} {d : DateTime} (hk : w.obj k = .datetime d) (hp : C14.Printable d) :
    ¬ Echoes w e other (n + 1) (m + 1) id id' (.other k) read read' := by
  intro H
  have h1 := convert_atom (n := n) (v := .other k) (read := read) hb.left hb.typed hb.noAllOf (by simp [effective])
  rw [show atom w .date (effective (env w e) id (.other k)) = .ok (.time (.datetime d)) by
    simp [atom, effective, timeArg, hk, dateApply, Except.map]] at h1
  have ht' : timeToJson (.datetime d) = .ok d.isoformat := by
    unfold timeToJson
    cases ho : d.offset with
    | none => simp only [ho]
    | some o => simp only [ho, if_pos (hp.2 o ho)]
  have h2 := H _ _ h1 ht'
  rw [convert_atom hb.right hb.typed' hb.noAllOf' (by rw [effective_str]; simp), effective_str] at h2
  simp [atom, timeArg, dateApply, C14.C14_datetime hp, Except.map] at h2

/-- **C74, refuted for empty arrays** of integers: their text is empty, which is read as one element. -/
theorem C74_empty_false (hb : Both w e id id' i i' .array)
    {it it' j' : Nat} (hit : (e.node i).items = some it) (hit' : (e.node i').items = some it') (hu : (e.node i).uniqueItems = false) {s : Char}
    (hs : separator (C35.formatOf (e.node i)) = some s) (hl : C35.Limits (e.node i) 0)
    (hdj : (env w e).deref it' = .ok j') (htj : Typed (env w e) j' .int) (haj : (e.node j').allOf = []) :
    sent w e other (n + 1) id (.list []) read = .ok [] ∧
    ¬ Echoes w e other (n + 1) (m + 2) id id' (.list []) read read' := by
  have hN : (env w e).node = e.node := rfl
  have hf : C35.formatOf (e.node i') = C35.formatOf (e.node i) := by simp only [C35.formatOf, hb.alike.collectionFormat]
  have h1 := ((C35.C35_array (env w e) n id i it (.list []) read [] [] hb.left hb.typed hb.noAllOf hit rfl
    (by rw [hN, hu]; rfl)).1 (.array (C35.formatOf (e.node i)) [])).2 ⟨[], rfl, .nil, hl⟩
  have h2 : Call.text (leaf w other) (.array (C35.formatOf (e.node i)) []) = .ok [] := by
    simp only [Call.text]
    rw [if_neg (by rw [hs]; simp)]
    simp [Call.texts, arrayStr, hs, conv]
  refine ⟨(sent_ok h1).trans h2, fun H => ?_⟩
  have h3 := H _ _ h1 h2
  have h4 := ((C35.C35_array (env w e) (m + 1) id' i' it' (.str []) read' [.str []] [.str []] hb.right hb.typed' hb.noAllOf' hit'
    (by rw [effective_str, hN, hf, hs]; rfl) (by rw [hN, hb.alike.uniqueItems, hu]; rfl)).1 _).1 h3
  obtain ⟨xs, -, h5, -⟩ := h4
  cases h5 with
  | cons a b =>
    rw [convert_int hdj htj haj (by rw [effective_str]; simp), effective_str] at a
    simp [Prim.World.toInt, intOfText, Py.Uuid.stripBy, dropUnderscores, intOf?, natOf?] at a

/-- **C74, refuted where elements have to be unique**: they are told apart before they are converted. -/
theorem C74_unique_false : ∃ (w : Outside) (e : Prim.Env Atom) (v : Val) (c c' : Prim Atom) (t : Str),
    convert (env w e) 2 0 v false = .ok c ∧ Call.text (leaf w fun _ => []) c = .ok t ∧
    convert (env w e) 2 0 (.str t) false = .ok c' ∧ c ≠ c' := by
  refine ⟨C73.outside, { C73.base with node := fun k => if k = 0 then
    { type := some c!"array", items := some 1, uniqueItems := true } else { type := some c!"integer" } },
    .list [.int 1, .str c!"1"], .array c!"csv" [.int 1, .int 1], .array c!"csv" [.int 1], c!"1,1", by rfl, by decide +kernel, by rfl, ?_⟩
  intro h
  cases h

/-! ## Cases -/

/-- `Sound` can be met. -/
theorem sound_exists : ∃ w, Sound w := by
  classical
  refine ⟨{ C73.outside with
    obj := fun k => if k = 0 then .uuid 255 else if k = 1 then .date ⟨2018, 1, 2⟩ else .unknown
    utcfromtimestamp := fun _ => .error .OverflowError
    repr := fun x => match x with
      | .fin q => if h : Decimal q then h.choose else []
      | .pinf => c!"inf"
      | .ninf => c!"-inf"
      | .nan => c!"nan" }, ?_, ?_, ?_, ?_, ?_, ?_, rfl, rfl, rfl⟩
  · intro k n h
    by_cases h0 : k = 0
    · simp [h0] at h; subst h; decide
    · by_cases h1 : k = 1 <;> simp [h0, h1] at h
  · intro k n h
    by_cases h0 : k = 0
    · simp [h0] at h
    · by_cases h1 : k = 1
      · simp [h1] at h; subst h; decide
      · simp [h0, h1] at h
  · intro k n h
    by_cases h0 : k = 0
    · simp [h0] at h
    · by_cases h1 : k = 1 <;> simp [h0, h1] at h
  · intro x d h
    simp only [C73.outside, Except.ok.injEq] at h
    subst h; decide
  · intro x d h; cases h
  · intro q h
    simp only [dif_pos h]
    exact h.choose_spec

def echo (id : Nat) (v : Val) : Option (Prim Atom) :=
  match sent C73.outside C73.base (fun _ => []) 3 id v false with
  | .ok t => (convert (env C73.outside C73.base) 3 id (.str t) true).toOption
  | .error _ => none

example : C73.send 0 (.int (-5)) = .ok c!"-5" ∧
    convert (env C73.outside C73.base) 3 0 (.str c!"-5") true = .ok (.int (-5)) := ⟨by decide +kernel, rfl⟩
example : C73.send 1 (.list [.int 1, .str c!" 2"]) = .ok c!"1|2" ∧
    convert (env C73.outside C73.base) 3 1 (.str c!"1|2") true = .ok (.array c!"pipes" [.int 1, .int 2]) :=
  ⟨by decide +kernel, rfl⟩
example : echo 2 (.bool false) = some (.bool true) := rfl
example : echo 4 (.other 1) = some (.atom .uuid (.uuid 255)) := by rfl
example : echo 5 (.other 2) = some (.atom .date (.time (.date ⟨2018, 1, 2⟩))) := by rfl
example : echo 3 (.other 0) = some (.atom .byte (.byte [104, 105])) := by rfl

example : Both C73.outside C73.base 1 1 1 1 .array ∧ Both C73.outside C73.base 0 0 0 0 .int :=
  ⟨⟨rfl, rfl, ⟨by simp [env, C73.base, C73.objs], by rfl⟩, rfl, .refl _⟩,
   ⟨rfl, rfl, ⟨by simp [env, C73.base, C73.objs], by rfl⟩, rfl, .refl _⟩⟩

/-! a call, the prepared request, and the response to it -/
def theOp : Io.Op Unit := ⟨c!"//h/a", c!"/a", c!"get", [], [], [c!"http"], none, []⟩
def theEnv : Io.Env (Prim Atom) Unit Unit where
  marshal := fun _ _ _ => .ok ()
  lower := fun s => s.map Char.toLower
  fmtExt := fun _ _ => .error .ValueError
  encode := fun s => .ok (utf8 s)
  readFile := fun _ => .error .ValueError
  boundary := c!"b"
def theReply : Io.REnv (Str ⊕ Prim Atom) Nat Unit Unit Unit Unit Unit where
  lower := fun s => s.map Char.toLower
  keep := .inl
  convert := fun d x => (convert (env C73.outside C73.base) 3 d (.str x) true).map .inr
  lowerValue := fun _ => .error .AttributeError
  deref := .ok
  unmarshal := fun _ _ _ => .ok ()
  prim := fun _ _ => .ok ()
def theHeader : Except Exc Str :=
  match Ask.ask (env C73.outside C73.base) (leaf C73.outside fun _ => []) 3 [⟨c!"X-Ids", c!"header", true, 1, none⟩]
      (fun _ => .many []) theOp [(c!"X-Ids", .list [.int 1, .int (-2)])] with
  | .error x => .error x
  | .ok r => match Io.prepare theEnv theOp (.str c!"http") true r with
    | .error x => .error x
    | .ok r => CIDict.getitem theEnv.lower r.header c!"x-ids"
example : theHeader = .ok c!"1|-2" := by decide +kernel
example : CIDict.getitem theReply.lower
    (Io.applyWith theReply [(c!"200", ⟨[(c!"X-Echo", 1)], none⟩)] Io.Resp.init
      ⟨some 200, none, some [(c!"Date", c!"today"), (c!"X-Echo", c!"1|-2")]⟩).1.header c!"x-echo" =
    .ok [.inr (.array c!"pipes" [.int 1, .int (-2)])] := by rfl

end Props.C74
