import Verif.Model.Doc20
import Verif.Proofs.Doc
/-!
# C42: Dumping a loaded document loses nothing and is stable

For documents without nulls, without empty lists, dicts or objects where they matter
(`Spec.Doc.Full`), the property holds. Without these conditions it does not (the `_false`
theorems): an empty `security` list, which switches security off, is dropped, and the empty scope
list of every api-key or basic requirement is written as a null, which cannot be dumped again.
-/

namespace Props.C42
open Py Tree _root_.Doc Spec.Doc

/-- The tables of the Swagger 2.0 classes are sensible. -/
theorem C42_grammar (c : Nat) : ClsOk (v20 c) := by
  have hall : ∀ k ∈ classes, ClsOk k := by
    unfold classes ClsOk
    decide +kernel
  unfold v20
  cases h : classes[c]? with
  | none =>
    rw [List.getD_eq_getElem?_getD, h]
    exact ⟨List.nodup_nil, (fun _ hn => nomatch hn), (fun _ hf => nomatch hf), (fun _ hf => nomatch hf)⟩
  | some k =>
    rw [List.getD_eq_getElem?_getD, h]
    exact hall k (List.mem_of_getElem? h)

/-- Dumping what was read from a document gives exactly its recognised fields with a value other
than the default. -/
theorem C42_dump (c : Nat) (j : Tree) (h : Full v20 (.one c) j) :
    ∃ o, parse v20 c j = some o ∧ dump v20 o = .ok (some (kept v20 (.one c) j)) := by
  have hg := Proofs.Doc.good v20 C42_grammar j (.one c) h
  obtain ⟨o, ho⟩ := hg.read
  refine ⟨o, ho, ?_⟩
  rw [hg.write o ho]
  cases he : isEmptyC j with
  | false => rfl
  | true => exact absurd (hg.empty he).2 (by simp [emptyOf])

/-- Reading the dump gives the same object, so that dumping again gives the same document. -/
theorem C42_reload (c : Nat) (j : Tree) (h : Full v20 (.one c) j) :
    ∃ o j', parse v20 c j = some o ∧ dump v20 o = .ok (some j') ∧ parse v20 c j' = some o := by
  obtain ⟨o, ho, hd⟩ := C42_dump c j h
  exact ⟨o, _, ho, hd, ((Proofs.Doc.good v20 C42_grammar j (.one c) h).again).trans ho⟩

/-- The part that is kept, looked up by name: a recognised field with a value other than the
default; a plain value as it stands, objects with what is kept of them (an empty list or dict of
objects is the same as none). -/
theorem C42_kept (c : Nat) (d : Dict Str Tree) (hd : (Dict.keys d).Nodup) :
    ∃ d', kept v20 (.one c) (.dict d) = .dict d' ∧ (Dict.keys d').Nodup ∧ ∀ n w,
      Dict.get? d' n = some w ↔
        ∃ dflt v, Dict.get? (v20 c).fields n = some dflt ∧ Dict.get? d n = some v ∧
          isDefault dflt v = false ∧
          ((Dict.get? (v20 c).child n = none ∧ w = v) ∨
            ∃ k, Dict.get? (v20 c).child n = some k ∧ isEmptyC v = false ∧ w = kept v20 k v) := by
  refine ⟨_, by rw [kept], Proofs.Doc.nodup_inOrder (C42_grammar c).1 _, fun n w => ?_⟩
  rw [Proofs.Doc.get?_inOrder, Proofs.Doc.keptEntries_get hd]
  cases hf : Dict.get? (v20 c).fields n with
  | none =>
    rw [if_neg (fun x => (Dict.get?_eq_none_iff _ _).1 hf x)]
    simp
  | some dflt =>
    rw [if_pos ((Dict.get?_isSome_iff _ _).1 (by rw [hf]; rfl))]
    cases hv : Dict.get? d n with
    | none => simp
    | some v =>
      simp only [Option.bind_some]
      cases hc : Dict.get? (v20 c).child n with
      | none =>
        rw [Proofs.Doc.keptField_raw hf hc]
        by_cases h : isDefault dflt v = true
        · simp [h]
        · rw [if_neg h]; grind
      | some k =>
        rw [Proofs.Doc.keptField_child hf hc]
        by_cases h : isDefault dflt v = true
        · simp [h]
        · by_cases h' : isEmptyC v = true
          · simp [h, h']
          · rw [if_neg (by simp [h, h'])]; grind

/-- Reading any document: the object has exactly the fields of its class; a plain field has the value
of the document, or else the default; unknown keys have no effect. -/
theorem C42_fields (c : Nat) (d : Dict Str Tree) (o : Tree) (h : parse v20 c (.dict d) = some o) :
    ∃ fs, o = .obj c fs ∧ Dict.keys fs = Dict.keys (v20 c).fields ∧
      ∀ n dflt, Dict.get? (v20 c).fields n = some dflt → Dict.get? (v20 c).child n = none →
        Dict.get? fs n = some ((Dict.get? d n).getD dflt) := by
  unfold parse at h
  rw [parseAs] at h
  cases he : parseEntries v20 (v20 c) d with
  | none => rw [he] at h; cases h
  | some e =>
    rw [he, Option.map_some, Proofs.Doc.assemble_eq he] at h
    cases h
    refine ⟨_, rfl, by simp [Dict.keys], fun n dflt hf hc => ?_⟩
    have hm := Dict.mem_of_get? hf
    have hwf : Dict.WF ((v20 c).fields.map fun f => (f.1, Proofs.Doc.fieldOf v20 (v20 c) d f)) := by
      show (Dict.keys _).Nodup
      have : Dict.keys ((v20 c).fields.map fun f => (f.1, Proofs.Doc.fieldOf v20 (v20 c) d f)) =
        Dict.keys (v20 c).fields := by simp [Dict.keys]
      rw [this]
      exact (C42_grammar c).1
    refine Dict.get?_of_mem hwf ?_
    refine List.mem_map.2 ⟨(n, dflt), hm, ?_⟩
    unfold Proofs.Doc.fieldOf
    dsimp only
    cases hv : Dict.get? d n with
    | none => simp [hc]
    | some v => simp [Proofs.Doc.parseField_raw hc]

/-- Reading any document: where objects are expected and the document has nothing (or a null), a
list or dict of objects is empty and a single object is `None`; `additionalProperties` is the
default (`true`) when absent, `None` when null. -/
theorem C42_nothing (c : Nat) (d : Dict Str Tree) (fs : List (Str × Tree))
    (h : parse v20 c (.dict d) = some (.obj c fs)) (n : Str)
    (hn : Dict.get? d n = none ∨ Dict.get? d n = some (.atom .none)) :
    (∀ x, Dict.get? (v20 c).child n = some (.list x) → Dict.get? fs n = some (.list [])) ∧
    (∀ x, Dict.get? (v20 c).child n = some (.dict x) → Dict.get? fs n = some (.dict [])) ∧
    (∀ x, Dict.get? (v20 c).child n = some (.one x) → Dict.get? fs n = some (.atom .none)) ∧
    (∀ x, Dict.get? (v20 c).child n = some (.boolOr x) →
      (Dict.get? d n = none → Dict.get? fs n = Dict.get? (v20 c).fields n) ∧
      (Dict.get? d n = some (.atom .none) → Dict.get? fs n = some (.atom .none))) := by
  unfold parse at h
  rw [parseAs] at h
  cases he : parseEntries v20 (v20 c) d with
  | none => rw [he] at h; cases h
  | some e =>
    rw [he, Option.map_some, Proofs.Doc.assemble_eq he] at h
    cases h
    have key : ∀ k, Dict.get? (v20 c).child n = some k →
        ∃ dflt, (okDefault k dflt = true ∧ Dict.get? (v20 c).fields n = some dflt) ∧
          Dict.get? ((v20 c).fields.map fun f => (f.1, Proofs.Doc.fieldOf v20 (v20 c) d f)) n =
          some (match Dict.get? d n with
            | none => (emptyOf k).getD dflt
            | some _ => (emptyOf k).getD (.atom .none)) := by
      intro k hk
      have hmem : n ∈ Dict.keys (v20 c).fields :=
        (C42_grammar c).2.1 n ((Dict.get?_isSome_iff _ _).1 (by rw [hk]; rfl))
      obtain ⟨dflt, hf⟩ := Option.isSome_iff_exists.1 ((Dict.get?_isSome_iff _ _).2 hmem)
      refine ⟨dflt, ⟨(C42_grammar c).2.2.2 _ (Dict.mem_of_get? hf) k hk, hf⟩, ?_⟩
      have hwf : Dict.WF ((v20 c).fields.map fun f => (f.1, Proofs.Doc.fieldOf v20 (v20 c) d f)) := by
        show (Dict.keys _).Nodup
        have : Dict.keys ((v20 c).fields.map fun f => (f.1, Proofs.Doc.fieldOf v20 (v20 c) d f)) =
          Dict.keys (v20 c).fields := by simp [Dict.keys]
        rw [this]
        exact (C42_grammar c).1
      refine Dict.get?_of_mem hwf (List.mem_map.2 ⟨(n, dflt), Dict.mem_of_get? hf, ?_⟩)
      unfold Proofs.Doc.fieldOf
      dsimp only
      rcases hn with hn | hn <;> rw [hn]
      · simp [hk]
      · simp [Proofs.Doc.parseField, hk, isNull]
    refine ⟨fun x hx => ?_, fun x hx => ?_, fun x hx => ?_, fun x hx => ?_⟩
    · obtain ⟨_, _, hg⟩ := key _ hx
      rw [hg]; rcases hn with hn | hn <;> rw [hn] <;> rfl
    · obtain ⟨_, _, hg⟩ := key _ hx
      rw [hg]; rcases hn with hn | hn <;> rw [hn] <;> rfl
    · obtain ⟨dflt, ⟨hok, _⟩, hg⟩ := key _ hx
      have : dflt = .atom .none := by
        cases dflt with
        | atom a => cases a <;> simp [okDefault] at hok; rfl
        | _ => simp [okDefault] at hok
      rw [hg, this]; rcases hn with hn | hn <;> rw [hn] <;> rfl
    · obtain ⟨dflt, ⟨_, hf⟩, hg⟩ := key _ hx
      refine ⟨fun h => ?_, fun h => ?_⟩
      · rw [hg, hf, h]; rfl
      · rw [hg, h]; rfl

/-- A null among a list or dict of objects is read as an object with all its defaults. -/
theorem C42_null_entry (c : Nat) : parse v20 c (.atom .none) = some (.obj c (v20 c).fields) := rfl

/-- a text -/
def txt (s : Str) : Tree := .atom (.str s)

theorem solid_txt (s : Str) : Solid (txt s) := by unfold txt; rw [Solid]; exact nofun

/-- a small document: one path with a parameter and a response, one definition with a property, an
unknown key -/
def sample : Tree :=
  .dict [(c!"swagger", txt c!"2.0"), (c!"x-note", txt c!"y"),
    (c!"paths", .dict [(c!"/a", .dict [(c!"get", .dict
      [(c!"deprecated", .atom (.bool false)),
       (c!"parameters", .list [.dict [(c!"name", txt c!"q"), (c!"in", txt c!"query"),
         (c!"collectionFormat", txt c!"csv")]]),
       (c!"responses", .dict [(c!"200", .dict [(c!"description", txt c!"ok")])])])])]),
    (c!"definitions", .dict [(c!"A", .dict [(c!"additionalProperties", .atom (.bool false)),
      (c!"properties", .dict [(c!"b", .dict [(c!"type", txt c!"string")])])])]),
    (c!"tags", .list [])]

theorem sample_full : Full v20 (.one cSwagger) sample := by
  refine ⟨by decide +kernel, ⟨Or.inr ⟨solid_txt _, rfl⟩, trivial, ?_, ?_, ?_, trivial⟩, by decide +kernel⟩
  · refine ⟨by decide +kernel, ⟨by decide +kernel, ⟨⟨by decide +kernel, ⟨Or.inl rfl, ?_, ?_, trivial⟩, by decide +kernel⟩, trivial⟩, by decide +kernel⟩, trivial⟩
    · exact ⟨⟨by decide +kernel, ⟨Or.inr ⟨solid_txt _, rfl⟩, Or.inr ⟨solid_txt _, rfl⟩, Or.inl rfl, trivial⟩, by decide +kernel⟩, trivial⟩
    · exact ⟨by decide +kernel, ⟨by decide +kernel, ⟨Or.inr ⟨solid_txt _, rfl⟩, trivial⟩, by decide +kernel⟩, trivial⟩
  · refine ⟨by decide +kernel, ⟨by decide +kernel, ⟨trivial, ?_, trivial⟩, by decide +kernel⟩, trivial⟩
    exact ⟨by decide +kernel, ⟨by decide +kernel, ⟨Or.inr ⟨solid_txt _, rfl⟩, trivial⟩, by decide +kernel⟩, trivial⟩
  · trivial

example : kept v20 (.one cSwagger) sample =
    .dict [(c!"swagger", txt c!"2.0"),
      (c!"paths", .dict [(c!"/a", .dict [(c!"get", .dict
        [(c!"parameters", .list [.dict [(c!"name", txt c!"q"), (c!"in", txt c!"query")]]),
         (c!"responses", .dict [(c!"200", .dict [(c!"description", txt c!"ok")])])])])]),
      (c!"definitions", .dict [(c!"A", .dict
        [(c!"properties", .dict [(c!"b", .dict [(c!"type", txt c!"string")])]),
         (c!"additionalProperties", .atom (.bool false))])])] := by rfl

/-- An operation that switches security off (`security: []`) loses the field when dumped and read
again: it then inherits the security of the document. -/
theorem C42_security_false : ∃ j o j' o', parse v20 cOperation j = some o ∧
    dump v20 o = .ok (some j') ∧ parse v20 cOperation j' = some o' ∧
    (∃ fs, o = .obj cOperation fs ∧ Dict.get? fs c!"security" = some (.list [])) ∧
    (∃ fs, o' = .obj cOperation fs ∧ Dict.get? fs c!"security" = some (.atom .none)) := by
  refine ⟨.dict [(c!"operationId", txt c!"f"), (c!"security", .list [])], _, _, _, rfl, rfl, rfl,
    ⟨_, rfl, rfl⟩, ⟨_, rfl, rfl⟩⟩

/-- A security requirement without scopes is written with a null, and the result, although it can
be read, cannot be dumped again. -/
theorem C42_scopes_false : ∃ j o o', parse v20 cOperation j = some o ∧
    dump v20 o = .ok (some (.dict [(c!"security", .list [.dict [(c!"key", .atom .none)]])])) ∧
    parse v20 cOperation (.dict [(c!"security", .list [.dict [(c!"key", .atom .none)]])]) = some o' ∧
    dump v20 o' = .error .ValueError :=
  ⟨.dict [(c!"security", .list [.dict [(c!"key", .list [])]])], _, _, rfl, rfl, rfl, rfl⟩

/-- A definition without restrictions (`A: {}`) is written as a null. -/
theorem C42_anything_false : ∃ j o, parse v20 cSwagger j = some o ∧
    dump v20 o = .ok (some (.dict [(c!"definitions", .dict [(c!"A", .atom .none)])])) :=
  ⟨.dict [(c!"definitions", .dict [(c!"A", .dict [])])], _, rfl, rfl⟩

/-- A response with a body of any kind (`schema: {}`) loses its schema. -/
theorem C42_schema_false : ∃ j o, parse v20 cResponse j = some o ∧
    (∃ fs s, o = .obj cResponse fs ∧ Dict.get? fs c!"schema" = some (.obj cSchema s)) ∧
    dump v20 o = .ok (some (.dict [(c!"description", txt c!"d")])) :=
  ⟨.dict [(c!"description", txt c!"d"), (c!"schema", .dict [])], _, rfl, ⟨_, _, rfl, rfl⟩, rfl⟩

/-- A vendor extension among the paths that is not an object makes the document unreadable. -/
theorem C42_extension_false :
    parse v20 cSwagger (.dict [(c!"paths", .dict [(c!"x-note", txt c!"y")])]) = none := rfl

end Props.C42
