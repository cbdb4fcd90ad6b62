import Verif.Model.Json
import Verif.Proofs.Json
import Verif.Proofs.Quote
/-!
# C70: a JSON body is the text of the value it was made from

`jsonOf` is the value a primitive denotes. `JsonCodec.marshal` writes, in printable ASCII, a text that
every reader of RFC 8259 (`Spec.Json.readJson`) reads as that value, as long as it has no NaN and no
infinity. With one of these the text is no JSON at all; a file or a foreign object raises `TypeError`.
-/

namespace Props.C70
open Py Py.Json Spec.Json Prim Prim.Json Proofs.Json

variable {ω : Type}

mutual
/-- is there an object in it JSON knows nothing of -/
def foreign : Val → Bool
  | .other _ => true
  | .list l => foreignItems l
  | .dict d => foreignPairs d
  | _ => false
def foreignItems : List Val → Bool
  | [] => false
  | v :: l => foreign v || foreignItems l
def foreignPairs : List (Str × Val) → Bool
  | [] => false
  | (_, v) :: d => foreign v || foreignPairs d
end

mutual
/-- The JSON value of a primitive: lists and dicts item by item, the text of a UUID, byte string, date or
time. The first failure counts. -/
def jsonOf (toJson : AtomKind → ω → Except Exc Str) : Prim ω → Except Exc Val
  | .none => .ok .none
  | .bool b => .ok (.bool b)
  | .int n => .ok (.int n)
  | .float x => .ok (.float x)
  | .str s => .ok (.str s)
  | .atom .file _ => .error .TypeError
  | .atom k x => (toJson k x).map .str
  | .array _ l => (jsonItems toJson l).map .list
  | .model d => (jsonPairs toJson d).map .dict
  | .raw v => if foreign v then .error .TypeError else .ok v
def jsonItems (toJson : AtomKind → ω → Except Exc Str) : List (Prim ω) → Except Exc (List Val)
  | [] => .ok []
  | p :: l => (jsonOf toJson p).bind fun v => (jsonItems toJson l).map (v :: ·)
def jsonPairs (toJson : AtomKind → ω → Except Exc Str) : List (Str × Prim ω) → Except Exc (List (Str × Val))
  | [] => .ok []
  | (k, p) :: d => (jsonOf toJson p).bind fun v => (jsonPairs toJson d).map ((k, v) :: ·)
end

mutual
theorem dumps_foreign (repr : Rat → Str) : ∀ v, (foreign v = true → dumps repr v = .error .TypeError) ∧
    (foreign v = false → ∃ t, dumps repr v = .ok t)
  | .none => ⟨fun h => by simp [foreign] at h, fun _ => ⟨_, by rw [dumps]⟩⟩
  | .bool true => ⟨fun h => by simp [foreign] at h, fun _ => ⟨_, by rw [dumps]⟩⟩
  | .bool false => ⟨fun h => by simp [foreign] at h, fun _ => ⟨_, by rw [dumps]⟩⟩
  | .int _ => ⟨fun h => by simp [foreign] at h, fun _ => ⟨_, by rw [dumps]⟩⟩
  | .float _ => ⟨fun h => by simp [foreign] at h, fun _ => ⟨_, by rw [dumps]⟩⟩
  | .str _ => ⟨fun h => by simp [foreign] at h, fun _ => ⟨_, by rw [dumps]⟩⟩
  | .other _ => ⟨fun _ => by rw [dumps], fun h => by simp [foreign] at h⟩
  | .list [] => ⟨fun h => by simp [foreign, foreignItems] at h, fun _ => ⟨_, by rw [dumps]⟩⟩
  | .list (v :: l) => by
    have h1 := dumps_foreign repr v
    have h2 := dumpsItems_foreign repr l
    simp only [foreign, foreignItems]
    cases hv : foreign v with
    | true => exact ⟨fun _ => by rw [dumps, h1.1 hv]; rfl, fun h => by simp at h⟩
    | false =>
      obtain ⟨a, ha⟩ := h1.2 hv
      cases hl : foreignItems l with
      | true => exact ⟨fun _ => by rw [dumps, ha, h2.1 hl]; rfl, fun h => by simp at h⟩
      | false =>
        obtain ⟨b, hb⟩ := h2.2 hl
        exact ⟨fun h => by simp at h, fun _ => ⟨'[' :: (a ++ b), by rw [dumps, ha, hb]; rfl⟩⟩
  | .dict [] => ⟨fun h => by simp [foreign, foreignPairs] at h, fun _ => ⟨_, by rw [dumps]⟩⟩
  | .dict ((k, v) :: l) => by
    have h1 := dumps_foreign repr v
    have h2 := dumpsPairs_foreign repr l
    simp only [foreign, foreignPairs]
    cases hv : foreign v with
    | true => exact ⟨fun _ => by rw [dumps, h1.1 hv]; rfl, fun h => by simp at h⟩
    | false =>
      obtain ⟨a, ha⟩ := h1.2 hv
      cases hl : foreignPairs l with
      | true => exact ⟨fun _ => by rw [dumps, ha, h2.1 hl]; rfl, fun h => by simp at h⟩
      | false =>
        obtain ⟨b, hb⟩ := h2.2 hl
        exact ⟨fun h => by simp at h, fun _ => ⟨'{' :: (Py.Json.quote k ++ c!": " ++ a ++ b), by rw [dumps, ha, hb]; rfl⟩⟩
theorem dumpsItems_foreign (repr : Rat → Str) : ∀ l, (foreignItems l = true → dumpsItems repr l = .error .TypeError) ∧
    (foreignItems l = false → ∃ t, dumpsItems repr l = .ok t)
  | [] => ⟨fun h => by simp [foreignItems] at h, fun _ => ⟨_, by rw [dumpsItems]⟩⟩
  | v :: l => by
    have h1 := dumps_foreign repr v
    have h2 := dumpsItems_foreign repr l
    simp only [foreignItems]
    cases hv : foreign v with
    | true => exact ⟨fun _ => by rw [dumpsItems, h1.1 hv]; rfl, fun h => by simp at h⟩
    | false =>
      obtain ⟨a, ha⟩ := h1.2 hv
      cases hl : foreignItems l with
      | true => exact ⟨fun _ => by rw [dumpsItems, ha, h2.1 hl]; rfl, fun h => by simp at h⟩
      | false =>
        obtain ⟨b, hb⟩ := h2.2 hl
        exact ⟨fun h => by simp at h, fun _ => ⟨c!", " ++ a ++ b, by rw [dumpsItems, ha, hb]; rfl⟩⟩
theorem dumpsPairs_foreign (repr : Rat → Str) : ∀ l, (foreignPairs l = true → dumpsPairs repr l = .error .TypeError) ∧
    (foreignPairs l = false → ∃ t, dumpsPairs repr l = .ok t)
  | [] => ⟨fun h => by simp [foreignPairs] at h, fun _ => ⟨_, by rw [dumpsPairs]⟩⟩
  | (k, v) :: l => by
    have h1 := dumps_foreign repr v
    have h2 := dumpsPairs_foreign repr l
    simp only [foreignPairs]
    cases hv : foreign v with
    | true => exact ⟨fun _ => by rw [dumpsPairs, h1.1 hv]; rfl, fun h => by simp at h⟩
    | false =>
      obtain ⟨a, ha⟩ := h1.2 hv
      cases hl : foreignPairs l with
      | true => exact ⟨fun _ => by rw [dumpsPairs, ha, h2.1 hl]; rfl, fun h => by simp at h⟩
      | false =>
        obtain ⟨b, hb⟩ := h2.2 hl
        exact ⟨fun h => by simp at h,
          fun _ => ⟨c!", " ++ Py.Json.quote k ++ c!": " ++ a ++ b, by rw [dumpsPairs, ha, hb]; rfl⟩⟩
end

theorem dumps_list {repr : Rat → Str} {v : Val} {l : List Val} : dumps repr (.list (v :: l)) =
    (dumps repr v).bind fun a => (dumpsItems repr l).map fun b => '[' :: (a ++ b) := by
  rw [dumps]
  cases dumps repr v with
  | error e => rfl
  | ok a => cases dumpsItems repr l <;> rfl

mutual
/-- `marshal` is `dumps` of the denoted value, or the failure to denote one -/
theorem marshal_eq (e : Enc ω) : ∀ p, (∀ err, jsonOf e.toJson p = .error err → marshal e p = .error err) ∧
    (∀ v, jsonOf e.toJson p = .ok v → foreign v = false ∧ marshal e p = dumps e.repr v)
  | .none => ⟨fun _ h => by simp [jsonOf] at h, fun v h => by rw [jsonOf] at h; cases h; exact ⟨rfl, by rw [marshal]⟩⟩
  | .bool b => ⟨fun _ h => by simp [jsonOf] at h, fun v h => by rw [jsonOf] at h; cases h; exact ⟨rfl, by rw [marshal]⟩⟩
  | .int n => ⟨fun _ h => by simp [jsonOf] at h, fun v h => by rw [jsonOf] at h; cases h; exact ⟨rfl, by rw [marshal]⟩⟩
  | .float x => ⟨fun _ h => by simp [jsonOf] at h, fun v h => by rw [jsonOf] at h; cases h; exact ⟨rfl, by rw [marshal]⟩⟩
  | .str s => ⟨fun _ h => by simp [jsonOf] at h, fun v h => by rw [jsonOf] at h; cases h; exact ⟨rfl, by rw [marshal]⟩⟩
  | .atom k x => by
    have key : k ≠ .file → jsonOf e.toJson (.atom k x) = (e.toJson k x).map .str := by
      intro hk; cases k <;> first | exact absurd rfl hk | rw [jsonOf]; simp
    have key' : k ≠ .file → encodeAtom e k x = (e.toJson k x).map Py.Json.quote := by
      intro hk; cases h : e.toJson k x <;> (cases k <;> first | exact absurd rfl hk | (simp [encodeAtom, h]; rfl))
    by_cases hk : k = .file
    · subst hk
      exact ⟨fun err h => by rw [jsonOf] at h; cases h; rfl, fun v h => by rw [jsonOf] at h; cases h⟩
    · rw [key hk, marshal, key' hk]
      cases e.toJson k x with
      | error err => exact ⟨fun _ h => by cases h; rfl, fun v h => by cases h⟩
      | ok s => exact ⟨fun _ h => (by cases h), fun v h => by cases h; exact ⟨rfl, by rw [dumps]; rfl⟩⟩
  | .array f [] => ⟨fun _ h => by simp [jsonOf, jsonItems, Except.map] at h,
      fun v h => by rw [jsonOf, jsonItems] at h; cases h; exact ⟨rfl, by rw [marshal, dumps]⟩⟩
  | .array f (p :: l) => by
    obtain ⟨a1, a2⟩ := marshal_eq e p
    obtain ⟨b1, b2⟩ := marshalItems_eq e l
    rw [jsonOf, jsonItems, marshal]
    cases hp : jsonOf e.toJson p with
    | error err => exact ⟨fun _ h => by cases h; rw [a1 _ hp]; rfl, fun v h => by cases h⟩
    | ok v =>
      obtain ⟨c1, c2⟩ := a2 v hp
      obtain ⟨t, ht⟩ := (dumps_foreign e.repr v).2 c1
      cases hl : jsonItems e.toJson l with
      | error err => exact ⟨fun _ h => by cases h; rw [b1 _ hl, c2, ht]; rfl, fun v h => by cases h⟩
      | ok vs =>
        obtain ⟨d1, d2⟩ := b2 vs hl
        refine ⟨fun _ h => (by cases h), fun w h => ?_⟩
        cases h
        exact ⟨by simp [foreign, foreignItems, c1, d1], by rw [c2, d2, dumps]⟩
  | .model [] => ⟨fun _ h => by simp [jsonOf, jsonPairs, Except.map] at h,
      fun v h => by rw [jsonOf, jsonPairs] at h; cases h; exact ⟨rfl, by rw [marshal, dumps]⟩⟩
  | .model ((k, p) :: l) => by
    obtain ⟨a1, a2⟩ := marshal_eq e p
    obtain ⟨b1, b2⟩ := marshalPairs_eq e l
    rw [jsonOf, jsonPairs, marshal]
    cases hp : jsonOf e.toJson p with
    | error err => exact ⟨fun _ h => by cases h; rw [a1 _ hp]; rfl, fun v h => by cases h⟩
    | ok v =>
      obtain ⟨c1, c2⟩ := a2 v hp
      obtain ⟨t, ht⟩ := (dumps_foreign e.repr v).2 c1
      cases hl : jsonPairs e.toJson l with
      | error err => exact ⟨fun _ h => by cases h; rw [b1 _ hl, c2, ht]; rfl, fun v h => by cases h⟩
      | ok vs =>
        obtain ⟨d1, d2⟩ := b2 vs hl
        refine ⟨fun _ h => (by cases h), fun w h => ?_⟩
        cases h
        exact ⟨by simp [foreign, foreignPairs, c1, d1], by rw [c2, d2, dumps]⟩
  | .raw v => by
    rw [jsonOf, marshal]
    cases h : foreign v with
    | true => exact ⟨fun _ h' => by cases h'; exact (dumps_foreign e.repr v).1 h, fun v h' => by cases h'⟩
    | false => exact ⟨fun _ h' => (by cases h'), fun v h' => by cases h'; exact ⟨h, rfl⟩⟩
theorem marshalItems_eq (e : Enc ω) : ∀ l, (∀ err, jsonItems e.toJson l = .error err → marshalItems e l = .error err) ∧
    (∀ v, jsonItems e.toJson l = .ok v → foreignItems v = false ∧ marshalItems e l = dumpsItems e.repr v)
  | [] => ⟨fun _ h => by simp [jsonItems] at h,
      fun v h => by rw [jsonItems] at h; cases h; exact ⟨rfl, by rw [marshalItems, dumpsItems]⟩⟩
  | p :: l => by
    obtain ⟨a1, a2⟩ := marshal_eq e p
    obtain ⟨b1, b2⟩ := marshalItems_eq e l
    rw [jsonItems, marshalItems]
    cases hp : jsonOf e.toJson p with
    | error err => exact ⟨fun _ h => by cases h; rw [a1 _ hp]; rfl, fun v h => by cases h⟩
    | ok v =>
      obtain ⟨c1, c2⟩ := a2 v hp
      obtain ⟨t, ht⟩ := (dumps_foreign e.repr v).2 c1
      cases hl : jsonItems e.toJson l with
      | error err => exact ⟨fun _ h => by cases h; rw [b1 _ hl, c2, ht]; rfl, fun v h => by cases h⟩
      | ok vs =>
        obtain ⟨d1, d2⟩ := b2 vs hl
        refine ⟨fun _ h => (by cases h), fun w h => ?_⟩
        cases h
        exact ⟨by simp [foreignItems, c1, d1], by rw [c2, d2, dumpsItems]⟩
theorem marshalPairs_eq (e : Enc ω) : ∀ l, (∀ err, jsonPairs e.toJson l = .error err → marshalPairs e l = .error err) ∧
    (∀ v, jsonPairs e.toJson l = .ok v → foreignPairs v = false ∧ marshalPairs e l = dumpsPairs e.repr v)
  | [] => ⟨fun _ h => by simp [jsonPairs] at h,
      fun v h => by rw [jsonPairs] at h; cases h; exact ⟨rfl, by rw [marshalPairs, dumpsPairs]⟩⟩
  | (k, p) :: l => by
    obtain ⟨a1, a2⟩ := marshal_eq e p
    obtain ⟨b1, b2⟩ := marshalPairs_eq e l
    rw [jsonPairs, marshalPairs]
    cases hp : jsonOf e.toJson p with
    | error err => exact ⟨fun _ h => by cases h; rw [a1 _ hp]; rfl, fun v h => by cases h⟩
    | ok v =>
      obtain ⟨c1, c2⟩ := a2 v hp
      obtain ⟨t, ht⟩ := (dumps_foreign e.repr v).2 c1
      cases hl : jsonPairs e.toJson l with
      | error err => exact ⟨fun _ h => by cases h; rw [b1 _ hl, c2, ht]; rfl, fun v h => by cases h⟩
      | ok vs =>
        obtain ⟨d1, d2⟩ := b2 vs hl
        refine ⟨fun _ h => (by cases h), fun w h => ?_⟩
        cases h
        exact ⟨by simp [foreignPairs, c1, d1], by rw [c2, d2, dumpsPairs]⟩
end

/-- **C70, the body.** The text of a primitive that denotes a value JSON can express is printable ASCII,
and every reader of RFC 8259 reads that value from it. -/
theorem C70_body (e : Enc ω) (p : Prim ω) (v : Val) (h : jsonOf e.toJson p = .ok v) (hv : Plain e.repr v) :
    ∃ t, marshal e p = .ok t ∧ readJson t = some v ∧ ∀ c ∈ t, 32 ≤ c.toNat ∧ c.toNat < 127 := by
  obtain ⟨-, h2⟩ := (marshal_eq e p).2 v h
  obtain ⟨t, ht⟩ := dumps_ok v hv
  exact ⟨t, by rw [h2, ht], dumps_readJson hv ht, dumps_printable v hv t ht⟩

/-- **C70, failures.** Exactly the primitives that denote no value raise, and what they raise is the first
failure: `TypeError` for a file or a foreign object, otherwise what `to_json` raised. -/
theorem C70_errors (e : Enc ω) (p : Prim ω) :
    (∀ err, marshal e p = .error err ↔ jsonOf e.toJson p = .error err) := by
  obtain ⟨h1, h2⟩ := marshal_eq e p
  refine fun err => ⟨fun h => ?_, h1 err⟩
  cases hj : jsonOf e.toJson p with
  | error err' => rw [h1 _ hj] at h; cases h; rfl
  | ok v =>
    obtain ⟨a, b⟩ := h2 v hj
    obtain ⟨t, ht⟩ := (dumps_foreign e.repr v).2 a
    rw [b, ht] at h; cases h

/-- **C70, distinct values, distinct texts.** -/
theorem C70_injective (e : Enc ω) (p q : Prim ω) (v w : Val) (hp : jsonOf e.toJson p = .ok v) (hv : Plain e.repr v)
    (hq : jsonOf e.toJson q = .ok w) (hw : Plain e.repr w) (h : marshal e p = marshal e q) : v = w := by
  obtain ⟨t, h1, h2, -⟩ := C70_body e p v hp hv
  obtain ⟨t', h1', h2', -⟩ := C70_body e q w hq hw
  rw [h1, h1'] at h
  cases h
  rw [h2] at h2'
  exact Option.some.inj h2'

/-- **C70, reading.** `unmarshal` of a JSON text, and of its UTF-8 bytes, is the value the text stands
for, given that `json.loads` reads RFC 8259. So a body that was marshalled comes back as the value it denotes. -/
theorem C70_unmarshal (loads : Str → Except Exc Val) (hl : ∀ s v, readJson s = some v → loads s = .ok v) (s : Str) (v : Val)
    (h : readJson s = some v) : unmarshal loads (.inr s) = .ok v ∧ unmarshal loads (.inl (utf8 s)) = .ok v := by
  refine ⟨hl s v h, ?_⟩
  simp only [unmarshal, utf8Decode_utf8]
  exact hl s v h

/-- **C70, round trip.** -/
theorem C70_roundtrip (e : Enc ω) (loads : Str → Except Exc Val) (hl : ∀ s v, readJson s = some v → loads s = .ok v)
    (p : Prim ω) (v : Val) (h : jsonOf e.toJson p = .ok v) (hv : Plain e.repr v) :
    ∃ t, marshal e p = .ok t ∧ unmarshal loads (.inr t) = .ok v ∧ unmarshal loads (.inl (utf8 t)) = .ok v := by
  obtain ⟨t, h1, h2, -⟩ := C70_body e p v h hv
  exact ⟨t, h1, C70_unmarshal loads hl t v h2⟩

/-- **C70, bytes that are no UTF-8** raise `ValueError` without reading any JSON. -/
theorem C70_not_utf8 (loads : Str → Except Exc Val) (b : Bytes) (h : ∀ s, utf8 s ≠ b) :
    unmarshal loads (.inl b) = .error .ValueError := by
  simp only [unmarshal]
  cases hb : utf8Decode b with
  | none => rfl
  | some s =>
    exact absurd (utf8_of_decode hb) (h s)

/-- **C70, NaN and infinities.** A value with a NaN or an infinity anywhere in it is written without
complaint, and what is written is no JSON. -/
theorem C70_nan_false (e : Enc ω) (p : Prim ω) (v : Val) (h : jsonOf e.toJson p = .ok v) (hv : Almost e.repr v)
    (hn : nonfinite v = true) : ∃ t, marshal e p = .ok t ∧ readJson t = none := by
  obtain ⟨h1, h2⟩ := (marshal_eq e p).2 v h
  obtain ⟨t, ht⟩ := (dumps_foreign e.repr v).2 h1
  exact ⟨t, by rw [h2, ht], nonfinite_readJson hv hn ht⟩

/-! ## A concrete case -/

/-- half a number is written `0.5` -/
def enc : Enc Nat := ⟨fun k x => if k = .uuid then .ok (Py.natStr x) else .error .ValueError, fun _ => c!"0.5"⟩

def body : Prim Nat :=
  .model [(c!"name", .str c!"a\"é😀"), (c!"tags", .array c!"csv" [.int (-7), .float (.fin ⟨1, 2, by decide, by decide⟩), .none]),
    (c!"id", .atom .uuid 12)]

def bodyVal : Val :=
  .dict [(c!"name", .str c!"a\"é😀"), (c!"tags", .list [.int (-7), .float (.fin ⟨1, 2, by decide, by decide⟩), .none]),
    (c!"id", .str c!"12")]

theorem body_denotes : jsonOf enc.toJson body = .ok bodyVal := by
  decide +kernel

theorem half_text : FloatText c!"0.5" ⟨1, 2, by decide, by decide⟩ :=
  ⟨⟨false, c!"0", some c!"5", none⟩, by decide, by rintro f ⟨⟩; decide, by rintro _ _ ⟨⟩, by simp, by decide +kernel,
    c!"", 'e', by simp, by simp, rfl⟩

theorem body_plain : Plain enc.repr bodyVal := by
  simp only [bodyVal, Plain, PlainPairs, PlainItems, and_true, true_and]
  exact ⟨by decide, half_text⟩

example : ∃ t, marshal enc body = .ok t ∧ readJson t = some bodyVal ∧ ∀ c ∈ t, 32 ≤ c.toNat ∧ c.toNat < 127 :=
  C70_body enc body bodyVal body_denotes body_plain

example : marshal enc body = .ok c!"{\"name\": \"a\\\"\\u00e9\\ud83d\\ude00\", \"tags\": [-7, 0.5, null], \"id\": \"12\"}" := by
  decide +kernel

example : marshal enc (.array c!"csv" [.int 1, .atom .date 0, .atom .file 0]) = .error .ValueError ∧
    marshal enc (.array c!"csv" [.int 1, .atom .file 0, .atom .date 0]) = .error .TypeError := by
  constructor <;> rw [C70_errors] <;> simp [jsonOf, jsonItems, enc, Except.bind, Except.map]

example : ∃ t, marshal enc (.array c!"csv" [.int 1, .float .nan]) = .ok t ∧ readJson t = none :=
  C70_nan_false enc _ (.list [.int 1, .float .nan]) (by simp [jsonOf, jsonItems, Except.bind, Except.map])
    (by simp [Almost, AlmostItems]) (by decide)

end Props.C70
