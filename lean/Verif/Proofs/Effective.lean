import Verif.Model.Effective
import Verif.Spec.Described
import Verif.Props.C43
import Verif.Props.C50
import Verif.Props.C52
/-! # Lemmas for C77 -/

namespace Proofs.Effective
open Py Tree _root_.Doc Prim Call Spec.Doc Spec.Merge Spec.MergeRefs Spec.Described _root_.Effective

variable {ω : Type} {W : MergeRefs.World} {order : List Atom → List Atom} {env : Env ω}

mutual
theorem value_toVal : ∀ t, Value t (toVal t)
  | .atom .none => by simp [Value, toVal, atomVal]
  | .atom (.bool b) => by simp [Value, toVal, atomVal]
  | .atom (.int n) => by simp [Value, toVal, atomVal]
  | .atom (.float x) => by simp [Value, toVal, atomVal]
  | .atom (.str s) => by simp [Value, toVal, atomVal]
  | .list l => by rw [Value, toVal]; exact ⟨_, rfl, values_toVals l⟩
  | .dict d => by rw [Value, toVal]; exact ⟨_, rfl, pairs_toPairs d⟩
  | .obj _ _ => by simp [Value]
theorem values_toVals : ∀ l, Values l (toVals l)
  | [] => by simp [Values, toVals]
  | t :: l => by rw [Values, toVals]; exact ⟨_, _, rfl, value_toVal t, values_toVals l⟩
theorem pairs_toPairs : ∀ d, Pairs d (toPairs d)
  | [] => by simp [Pairs, toPairs]
  | (n, t) :: d => by rw [Pairs, toPairs]; exact ⟨_, _, rfl, value_toVal t, pairs_toPairs d⟩
end

/-- the fields of one object are copies of those of the other, but for the reference -/
def Copied (c : Nat) (fs gs : List (Str × Tree)) : Prop :=
  ∀ n dflt v, n ≠ c!"$ref" → Dict.get? (v20 c).fields n = some dflt → Dict.get? fs n = some v →
    ∃ w, Dict.get? gs n = some w ∧ (isDefault dflt v = true → w = dflt) ∧
      (isDefault dflt v = false → (Dict.get? (v20 c).child n = none → PlainCopy v w) ∧
        ∀ k, Dict.get? (v20 c).child n = some k → Copy v20 k v w)

theorem copied_of_copy {c : Nat} {t w : Tree} (h : Copy v20 (.one c) t w) {fs : List (Str × Tree)} (ht : t = .obj c fs) :
    ∃ gs, w = .obj c gs ∧ Copied c fs gs := by
  cases h with
  | obj k c' c'' fs' gs hk hg hall hdef hplain hchild =>
    cases ht
    obtain rfl : c = c' := by rcases hk with hk | hk <;> cases hk; rfl
    refine ⟨gs, rfl, fun n dflt v _ hf hv => ?_⟩
    have hmem : n ∈ Dict.keys gs := by rw [hg]; exact (Dict.get?_isSome_iff _ _).1 (by rw [hf]; rfl)
    obtain ⟨w, hw⟩ := Option.isSome_iff_exists.1 ((Dict.get?_isSome_iff _ _).2 hmem)
    exact ⟨w, hw, hdef n dflt v w hf hv hw, fun hd => ⟨hplain n dflt v w hf hv hw hd,
      fun k hk => hchild n dflt v w k hf hv hw hd hk⟩⟩
  | _ => cases ht

/-- a plain field: a copy of what is written, or of the default -/
theorem raw {c : Nat} {d : Dict Str Tree} {fs gs : List (Str × Tree)} (hp : parse v20 c (.dict d) = some (.obj c fs))
    (hc : Copied c fs gs) {n : Str} {dflt : Tree} (hf : Dict.get? (v20 c).fields n = some dflt)
    (hch : Dict.get? (v20 c).child n = none) (hn : n ≠ c!"$ref") (ha : dflt = nul ∨ ∃ s, dflt = .atom (.str s)) :
    PlainCopy ((Dict.get? d n).getD dflt) (attr gs n) := by
  obtain ⟨fs', h1, -, h3⟩ := Props.C42.C42_fields c d _ hp
  cases h1
  obtain ⟨w, hw, h4, h5⟩ := hc n dflt _ hn hf (h3 n dflt hf hch)
  have : attr gs n = w := by rw [attr, hw]; rfl
  rw [this]
  generalize (Dict.get? d n).getD dflt = v at *
  cases hd : isDefault dflt v with
  | true =>
    rw [h4 hd]
    have : v = dflt := by
      rcases ha with rfl | ⟨s, rfl⟩
      · cases v with
        | atom a => cases a <;> simp_all [isDefault, nul]
        | _ => simp [isDefault, nul] at hd
      · cases v with
        | atom a => cases a <;> simp_all [isDefault]
        | _ => simp [isDefault] at hd
    rw [this]
    refine ⟨fun l hl => ?_, fun _ => rfl⟩
    rcases ha with rfl | ⟨s, rfl⟩
    · cases hl
    · cases hl
  | false => exact (h5 hd).1 hch

theorem plainCopy_atom {a : Atom} {w : Tree} (h : PlainCopy (.atom a) w) : w = .atom a := h.2 fun _ => nofun
theorem plainCopy_dict {d : List (Str × Tree)} {w : Tree} (h : PlainCopy (.dict d) w) : w = .dict d := h.2 fun _ => nofun
theorem plainCopy_obj {c : Nat} {d : List (Str × Tree)} {w : Tree} (h : PlainCopy (.obj c d) w) : w = .obj c d :=
  h.2 fun _ => nofun

section
variable {q : Dict Str Tree} {n : Str} {w : Tree}

theorem text_of (h : PlainCopy ((Dict.get? q n).getD nul) w) : Text q n (text? w) := by
  unfold Text
  cases hv : Dict.get? q n with
  | none => rw [hv] at h; rw [plainCopy_atom h]; rfl
  | some v =>
    rw [hv, Option.getD_some] at h
    cases v with
    | atom a => rw [plainCopy_atom h]; cases a <;> rfl
    | list l => obtain ⟨m, rfl, _⟩ := h.1 l rfl; rfl
    | dict d => rw [plainCopy_dict h]; rfl
    | obj c d => rw [plainCopy_obj h]; rfl

theorem number_of (h : PlainCopy ((Dict.get? q n).getD nul) w) : Number q n (number? w) := by
  unfold Number
  cases hv : Dict.get? q n with
  | none => rw [hv] at h; rw [plainCopy_atom h]; rfl
  | some v =>
    rw [hv, Option.getD_some] at h
    cases v with
    | atom a =>
      rw [plainCopy_atom h]
      cases a with
      | float x => cases x <;> rfl
      | _ => rfl
    | list l => obtain ⟨m, rfl, _⟩ := h.1 l rfl; rfl
    | dict d => rw [plainCopy_dict h]; rfl
    | obj c d => rw [plainCopy_obj h]; rfl

theorem length_of (h : PlainCopy ((Dict.get? q n).getD nul) w) : Length q n (length? w) := by
  unfold Length
  cases hv : Dict.get? q n with
  | none => rw [hv] at h; rw [plainCopy_atom h]; rfl
  | some v =>
    rw [hv, Option.getD_some] at h
    cases v with
    | atom a =>
      rw [plainCopy_atom h]
      cases a with
      | int k =>
        cases k with
        | ofNat k => exact ⟨fun _ => rfl, fun h => absurd h (by simp)⟩
        | negSucc k => exact ⟨fun h => absurd h (by simp), fun _ => rfl⟩
      | _ => rfl
    | list l => obtain ⟨m, rfl, _⟩ := h.1 l rfl; rfl
    | dict d => rw [plainCopy_dict h]; rfl
    | obj c d => rw [plainCopy_obj h]; rfl

theorem switch_of (h : PlainCopy ((Dict.get? q n).getD nul) w) : Switch q n (!falsy w) := by
  unfold Switch
  cases hv : Dict.get? q n with
  | none => rw [hv] at h; rw [plainCopy_atom h]; rfl
  | some v =>
    rw [hv, Option.getD_some] at h
    cases v with
    | atom a => rw [plainCopy_atom h]; cases a <;> simp [falsy]
    | _ => trivial

theorem default_of (h : PlainCopy ((Dict.get? q c!"default").getD nul) w) : Default q (toVal w) (!isNull w) := by
  unfold Default
  cases hv : Dict.get? q c!"default" with
  | none => rw [hv] at h; rw [plainCopy_atom h]; exact ⟨rfl, rfl⟩
  | some v =>
    rw [hv, Option.getD_some] at h
    cases v with
    | atom a =>
      rw [plainCopy_atom h]
      cases a with
      | none => exact ⟨rfl, rfl⟩
      | _ => exact ⟨rfl, value_toVal _⟩
    | list l =>
      obtain ⟨m, rfl, hj⟩ := h.1 l rfl
      exact ⟨rfl, m, _, by rw [toVal], values_toVals m, hj⟩
    | dict d => rw [plainCopy_dict h]; exact ⟨rfl, value_toVal _⟩
    | obj c d => rw [plainCopy_obj h]; exact ⟨rfl, value_toVal _⟩

theorem enum_of (h : PlainCopy ((Dict.get? q c!"enum").getD nul) w) : Enum q (toVals (listed w)) := by
  unfold Enum
  cases hv : Dict.get? q c!"enum" with
  | none => rw [hv] at h; rw [plainCopy_atom h]; rfl
  | some v =>
    rw [hv, Option.getD_some] at h
    cases v with
    | atom a => rw [plainCopy_atom h]; rfl
    | list l => obtain ⟨m, rfl, hj⟩ := h.1 l rfl; exact ⟨m, values_toVals m, hj⟩
    | dict d => rw [plainCopy_dict h]; rfl
    | obj c d => rw [plainCopy_obj h]; rfl

theorem collection_of (h : PlainCopy ((Dict.get? q c!"collectionFormat").getD (.atom (.str c!"csv"))) w) :
    Collection q (text? w) := by
  unfold Collection
  cases hv : Dict.get? q c!"collectionFormat" with
  | none => rw [hv] at h; rw [plainCopy_atom h]; rfl
  | some v =>
    rw [hv, Option.getD_some] at h
    cases v with
    | atom a => rw [plainCopy_atom h]; cases a <;> first | trivial | rfl
    | _ => trivial
end

theorem limits {c : Nat} (hc : c = cItems ∨ c = cParameter ∨ c = cHeader) {q : Dict Str Tree} {fs gs : List (Str × Tree)}
    (hp : parse v20 c (.dict q) = some (.obj c fs)) (h : Copied c fs gs) (io : Option Nat) : Limits q (nodeOf c gs io) where
  type := text_of (raw hp h (by rcases hc with rfl | rfl | rfl <;> rfl) (by rcases hc with rfl | rfl | rfl <;> rfl) (by decide) (Or.inl rfl))
  format := text_of (raw hp h (by rcases hc with rfl | rfl | rfl <;> rfl) (by rcases hc with rfl | rfl | rfl <;> rfl) (by decide) (Or.inl rfl))
  default := default_of (raw hp h (by rcases hc with rfl | rfl | rfl <;> rfl) (by rcases hc with rfl | rfl | rfl <;> rfl) (by decide) (Or.inl rfl))
  maximum := number_of (raw hp h (by rcases hc with rfl | rfl | rfl <;> rfl) (by rcases hc with rfl | rfl | rfl <;> rfl) (by decide) (Or.inl rfl))
  exclusiveMaximum := switch_of (raw hp h (by rcases hc with rfl | rfl | rfl <;> rfl) (by rcases hc with rfl | rfl | rfl <;> rfl) (by decide) (Or.inl rfl))
  minimum := number_of (raw hp h (by rcases hc with rfl | rfl | rfl <;> rfl) (by rcases hc with rfl | rfl | rfl <;> rfl) (by decide) (Or.inl rfl))
  exclusiveMinimum := switch_of (raw hp h (by rcases hc with rfl | rfl | rfl <;> rfl) (by rcases hc with rfl | rfl | rfl <;> rfl) (by decide) (Or.inl rfl))
  maxLength := length_of (raw hp h (by rcases hc with rfl | rfl | rfl <;> rfl) (by rcases hc with rfl | rfl | rfl <;> rfl) (by decide) (Or.inl rfl))
  minLength := length_of (raw hp h (by rcases hc with rfl | rfl | rfl <;> rfl) (by rcases hc with rfl | rfl | rfl <;> rfl) (by decide) (Or.inl rfl))
  maxItems := length_of (raw hp h (by rcases hc with rfl | rfl | rfl <;> rfl) (by rcases hc with rfl | rfl | rfl <;> rfl) (by decide) (Or.inl rfl))
  minItems := length_of (raw hp h (by rcases hc with rfl | rfl | rfl <;> rfl) (by rcases hc with rfl | rfl | rfl <;> rfl) (by decide) (Or.inl rfl))
  multipleOf := ⟨_, number_of (raw hp h (by rcases hc with rfl | rfl | rfl <;> rfl) (by rcases hc with rfl | rfl | rfl <;> rfl) (by decide) (Or.inl rfl)), rfl⟩
  enum := enum_of (raw hp h (by rcases hc with rfl | rfl | rfl <;> rfl) (by rcases hc with rfl | rfl | rfl <;> rfl) (by decide) (Or.inl rfl))
  uniqueItems := switch_of (raw hp h (by rcases hc with rfl | rfl | rfl <;> rfl) (by rcases hc with rfl | rfl | rfl <;> rfl) (by decide) (Or.inl rfl))
  collectionFormat := collection_of (raw hp h (by rcases hc with rfl | rfl | rfl <;> rfl) (by rcases hc with rfl | rfl | rfl <;> rfl) (by decide) (Or.inr ⟨_, rfl⟩))
  allOf := rfl
  isSchema := rfl

theorem parseField_some {cls : Cls} {d e : List (Str × Tree)} (h : parseEntries v20 cls d = some e) {n : Str} {v : Tree}
    (hv : (n, v) ∈ d) : ∃ w, Proofs.Doc.parseField v20 cls n v = some w := by
  induction d generalizing e with
  | nil => cases hv
  | cons x d ih =>
    obtain ⟨m, u⟩ := x
    rw [Proofs.Doc.parseEntries_cons] at h
    cases hr : parseEntries v20 cls d with
    | none => rw [hr] at h; cases h
    | some rest =>
      cases hw : Proofs.Doc.parseField v20 cls m u with
      | none => rw [hr, hw] at h; cases h
      | some w =>
        rcases List.mem_cons.1 hv with hv | hv
        · cases hv; exact ⟨w, hw⟩
        · exact ih hr hv

/-- a field with one object: what is written is read, and the copy is a copy of it -/
theorem child {c c' : Nat} {d : Dict Str Tree} {fs gs : List (Str × Tree)} (hp : parse v20 c (.dict d) = some (.obj c fs))
    (hc : Copied c fs gs) {n : Str} (hn : n ≠ c!"$ref") (hf : Dict.get? (v20 c).fields n = some nul)
    (hch : Dict.get? (v20 c).child n = some (.one c')) :
    (Dict.get? d n = none ∨ Dict.get? d n = some (.atom .none)) ∧ attr gs n = .atom .none ∨
    ∃ e fs' gs', Dict.get? d n = some (.dict e) ∧ parse v20 c' (.dict e) = some (.obj c' fs') ∧
      attr gs n = .obj c' gs' ∧ Copy v20 (.one c') (.obj c' fs') (.obj c' gs') := by
  unfold parse at hp
  rw [parseAs] at hp
  cases he : parseEntries v20 (v20 c) d with
  | none => rw [he] at hp; cases hp
  | some e =>
    rw [he, Option.map_some, Proofs.Doc.assemble_eq he] at hp
    have hfs : Dict.get? fs n = some (Proofs.Doc.fieldOf v20 (v20 c) d (n, nul)) := by
      cases hp
      have hwf : Dict.WF ((v20 c).fields.map fun f => (f.1, Proofs.Doc.fieldOf v20 (v20 c) d f)) := by
        show (Dict.keys _).Nodup
        have : Dict.keys ((v20 c).fields.map fun f => (f.1, Proofs.Doc.fieldOf v20 (v20 c) d f)) =
          Dict.keys (v20 c).fields := by simp [Dict.keys]
        rw [this]
        exact (Props.C42.C42_grammar c).1
      exact Dict.get?_of_mem hwf (List.mem_map.2 ⟨(n, nul), Dict.mem_of_get? hf, rfl⟩)
    obtain ⟨w, hw, h1, h2⟩ := hc n nul _ hn hf hfs
    have ha : attr gs n = w := by rw [attr, hw]; rfl
    rw [ha]
    unfold Proofs.Doc.fieldOf at hfs h1 h2
    dsimp only at hfs h1 h2
    rw [hch] at hfs h1 h2
    cases hv : Dict.get? d n with
    | none =>
      rw [hv] at h1
      exact Or.inl ⟨Or.inl rfl, h1 rfl⟩
    | some v =>
      obtain ⟨u, hu⟩ := parseField_some he (Dict.mem_of_get? hv)
      rw [hv, Option.bind_some, hu] at h1 h2
      dsimp only at h1 h2
      unfold Proofs.Doc.parseField at hu
      rw [hch] at hu
      dsimp only at hu
      by_cases hnull : isNull v = true
      · rw [if_pos hnull] at hu
        have : v = .atom .none := by
          cases v with
          | atom a => cases a <;> simp_all [isNull]
          | _ => simp [isNull] at hnull
        subst this
        simp only [emptyOf, Option.getD_none, Option.some.injEq] at hu
        subst hu
        exact Or.inl ⟨Or.inr rfl, h1 rfl⟩
      · rw [if_neg hnull] at hu
        cases v with
        | dict g =>
          have hu' := hu
          rw [parseAs] at hu
          cases hg : parseEntries v20 (v20 c') g with
          | none => rw [hg] at hu; cases hu
          | some e' =>
            rw [hg] at hu
            dsimp only [Option.map_some] at hu
            cases hu
            obtain ⟨gs', hw', _⟩ := copied_of_copy ((h2 rfl).2 _ rfl) rfl
            subst hw'
            exact Or.inr ⟨g, _, gs', rfl, hu', rfl, (h2 rfl).2 _ rfl⟩
        | atom a =>
          rw [parseAs] at hu
          cases a <;> simp [parseAtom, isNull] at hu hnull
        | list l => simp [parseAs] at hu
        | obj c d => simp [parseAs] at hu

/-- the object is what the dict says, and so are its items -/
theorem described {n : Nat} {t : Tree} (h : Shows env n t) : ∀ {c : Nat} {q : Dict Str Tree} {fs gs : List (Str × Tree)},
    t = .obj c gs → (c = cItems ∨ c = cParameter ∨ c = cHeader) → parse v20 c (.dict q) = some (.obj c fs) → Copied c fs gs →
    Described env n q := by
  induction h with
  | @plain n c gs hi hn =>
    intro c' q fs gs' ht hc hp hcp
    cases ht
    refine .plain (hn ▸ limits hc hp hcp none) ?_ (by rw [hn]; rfl)
    rcases child (n := c!"items") (c' := cItems) hp hcp (by decide) (by rcases hc with rfl | rfl | rfl <;> rfl)
      (by rcases hc with rfl | rfl | rfl <;> rfl) with h | ⟨e, fs', gs', _, _, ha, _⟩
    · exact h.1
    · rw [ha] at hi; cases hi
  | @array n c gs m hi hn ih =>
    intro c' q fs gs' ht hc hp hcp
    cases ht
    rcases child (n := c!"items") (c' := cItems) hp hcp (by decide) (by rcases hc with rfl | rfl | rfl <;> rfl)
      (by rcases hc with rfl | rfl | rfl <;> rfl) with ⟨_, h⟩ | ⟨e, fs', gs', he, hpe, ha, hcopy⟩
    · rw [h] at hi; cases hi
    · obtain ⟨gs'', h1, h2⟩ := copied_of_copy hcopy rfl
      cases h1
      refine .array (hn ▸ limits hc hp hcp (some m)) he (by rw [hn]; rfl) ?_ ?_
      · rw [ha] at hi
        cases hi with
        | plain _ h => rw [h]; rfl
        | array _ h => rw [h]; rfl
      exact ih ha (Or.inl rfl) hpe h2

theorem declared {p : Decl} {q : Dict Str Tree} {fs gs : List (Str × Tree)}
    (hp : parse v20 cParameter (.dict q) = some (.obj cParameter fs)) (hcp : Copied cParameter fs gs)
    (h : Declares env p (.obj cParameter gs)) : Declared env p q := by
  obtain ⟨h1, h2, h3, h4, h5⟩ := h
  have text : ∀ n, PlainCopy ((Dict.get? q n).getD nul) (attr gs n) → ∀ s, attr gs n = .atom (.str s) →
      Dict.get? q n = some (.atom (.str s)) := by
    intro n hpc s hs
    have ht := text_of hpc
    rw [hs] at ht
    unfold Text at ht
    split at ht
    · next h => cases ht; exact h
    · cases ht
  refine ⟨text _ (raw hp hcp rfl rfl (by decide) (Or.inl rfl)) _ h1, text _ (raw hp hcp rfl rfl (by decide) (Or.inl rfl)) _ h2,
    h3 ▸ switch_of (raw hp hcp rfl rfl (by decide) (Or.inl rfl)), described h4 rfl (Or.inr (Or.inl rfl)) hp hcp, ?_, ?_⟩
  · have : ∀ {n io}, env.node n = nodeOf cParameter gs io → (env.node n).name = some (some p.name) := by
      intro n io hn
      rw [hn]
      show some (text? (attr gs c!"name")) = _
      rw [h1]; rfl
    cases h4 with
    | plain _ h => exact this h
    | array _ h => exact this h
  rw [h5]
  rcases child (n := c!"schema") (c' := cSchema) hp hcp (by decide) rfl rfl with ⟨hq, ha⟩ | ⟨e, _, _, he, _, ha, _⟩
  · rw [ha]
    refine ⟨fun ⟨d, hd⟩ => ?_, fun h => absurd h (by decide)⟩
    rcases hq with hq | hq <;> rw [hq] at hd <;> cases hd
  · rw [ha]; exact ⟨fun _ => rfl, fun _ => ⟨e, he⟩⟩

/-! ## references -/

variable {c : Nat}

theorem ref_field (hcl : c = cParameter ∨ c = cResponse) :
    Dict.get? (v20 c).fields c!"$ref" = some nul ∧ Dict.get? (v20 c).child c!"$ref" = none := by
  rcases hcl with rfl | rfl <;> exact ⟨rfl, rfl⟩

theorem ref_only (hcl : c = cParameter ∨ c = cResponse) (r : Str) :
    Dict.get? (assemble (v20 c) [(c!"$ref", Tree.atom (.str r))]) c!"$ref" = some (.atom (.str r)) := by
  rcases hcl with rfl | rfl <;> rfl

theorem means_unique (hcl : c = cParameter ∨ c = cResponse) {k k' i : Nat} {q q' : Dict Str Tree} (h : MeansAs W c k i q) (h' : MeansAs W c k' i q') : k = k' := by
  induction h generalizing k' with
  | @inline i q hr hp =>
    cases h' with
    | inline => rfl
    | ref hne hc _ _ =>
      rw [hc] at hp
      obtain ⟨fs, h1, _, h3⟩ := Props.C42.C42_fields _ _ _ hp
      have := h3 c!"$ref" nul (ref_field hcl).1 (ref_field hcl).2
      cases h1
      rw [hr] at this
      rw [ref_only hcl] at this
      cases this
  | @ref k i r j q hne hc hr hm ih =>
    cases h' with
    | inline hr' hp =>
      rw [hc] at hp
      obtain ⟨fs, h1, _, h3⟩ := Props.C42.C42_fields _ _ _ hp
      have := h3 c!"$ref" nul (ref_field hcl).1 (ref_field hcl).2
      cases h1
      rw [hr'] at this
      rw [ref_only hcl] at this
      cases this
    | ref hne' hc' hr' hm' =>
      rw [hc] at hc'
      have := congrArg (valueOf c!"$ref") hc'
      rw [valueOf, valueOf, ref_only hcl, ref_only hcl] at this
      cases this
      rw [hr] at hr'
      cases hr'
      rw [ih hm']

/-- nothing but a reference -/
def RefOnly (c : Nat) (t : Tree) : Prop := ∃ r, t = .obj c (assemble (v20 c) [(c!"$ref", .atom (.str r))])

theorem means_chain (hcl : c = cParameter ∨ c = cResponse) {k i : Nat} {q : Dict Str Tree} (h : MeansAs W c k i q) : ∀ vis : List Nat,
    (∀ v ∈ vis, ∃ k' q', k ≤ k' ∧ MeansAs W c k' v q') →
    ∃ rest, Chain W c vis i rest .done ∧ ∃ before last, i :: rest = before ++ [last] ∧
      (∀ b ∈ before, RefOnly c (W.content b)) ∧ Dict.get? q c!"$ref" = none ∧
      parse v20 c (.dict q) = some (W.content last) := by
  induction h with
  | @inline i q hr hp =>
    intro vis _
    refine ⟨[], .stop ?_, [], i, rfl, (fun _ h => by cases h), hr, hp⟩
    obtain ⟨fs, h1, _, h3⟩ := Props.C42.C42_fields _ _ _ hp
    intro r hr'
    have := h3 c!"$ref" nul (ref_field hcl).1 (ref_field hcl).2
    rw [hr] at this
    rw [h1] at hr'
    have h4 := hr'.2
    rw [valueOf, this] at h4
    cases h4
  | @ref k i r j q hne hc hr hm ih =>
    intro vis hv
    have hcls : cls? (W.content j) = some c := by
      cases hm with
      | inline _ hp =>
        obtain ⟨fs, h1, _⟩ := Props.C42.C42_fields _ _ _ hp
        rw [h1]; rfl
      | ref _ hc _ _ => rw [hc]; rfl
    have hj : j ∉ vis := by
      intro hmem
      obtain ⟨k', q', hk, hm'⟩ := hv j hmem
      have := means_unique hcl hm hm'
      omega
    obtain ⟨rest, hch, before, last, heq, hb, hlast⟩ := ih (j :: vis) (by
      intro v hv'
      rcases List.mem_cons.1 hv' with rfl | hv'
      · exact ⟨k, q, Nat.le_refl _, hm⟩
      · obtain ⟨k', q', hk, hm'⟩ := hv v hv'
        exact ⟨k', q', by omega, hm'⟩)
    refine ⟨j :: rest, .step ⟨hne, by rw [hc]; exact ref_only hcl r⟩ hr hcls hj hch, i :: before, last, by rw [heq]; rfl, ?_, hlast⟩
    intro b hb'
    rcases List.mem_cons.1 hb' with rfl | hb'
    · exact ⟨r, hc⟩
    · exact hb b hb'

theorem refOnly_default (hcl : c = cParameter ∨ c = cResponse) {t : Tree} (h : RefOnly c t) {n : Str} {v dflt : Tree} (hn : n ≠ c!"$ref")
    (hf : Dict.get? (v20 c).fields n = some dflt) (hv : valueOf n t = some v) : isDefault dflt v = true := by
  obtain ⟨r, rfl⟩ := h
  rw [valueOf] at hv
  have hm := Dict.mem_of_get? hv
  unfold assemble at hm
  obtain ⟨f, hfm, heq⟩ := List.mem_map.1 hm
  obtain ⟨rfl, rfl⟩ := Prod.mk.inj heq
  have := Dict.get?_of_mem (Props.C42.C42_grammar c).1 hfm
  rw [hf] at this
  cases this
  have h1 : Dict.get? [(c!"$ref", Tree.atom (.str r))] f.1 = none := by
    simp only [Dict.get?]
    rw [if_neg (fun e => hn (by simpa using e.symm))]
  rw [h1]
  dsimp only
  have h2 : ∀ f ∈ (v20 c).fields, isDefault f.2 (((Dict.get? (v20 c).child f.1).bind emptyOf).getD f.2) = true := by
    rcases hcl with rfl | rfl <;> decide +kernel
  exact h2 f hfm

/-- merging what is nothing but references, then one object -/
theorem mergeAll_last (hcl : c = cParameter ∨ c = cResponse) (ho : ∀ l, (order l).Perm l) {n : Str} {dflt : Tree} (hn : n ≠ c!"$ref")
    (hf : Dict.get? (v20 c).fields n = some dflt) {last : List (Str × Tree)} :
    ∀ (before : List Tree) (fs : List (Str × Tree)) {gs : List (Str × Tree)}, (∀ b ∈ before, RefOnly c b) →
      Proofs.MergeRefs.mergeAll order (.obj c fs) (before ++ [.obj c last]) = some (.obj c gs) →
      Dict.get? fs n = some dflt →
      ∃ v w, Dict.get? last n = some v ∧ Dict.get? gs n = some w ∧
        mergeField order dflt (Dict.get? (v20 c).child n).isSome dflt v (copyOf v20 order (v20 c) n v) =
          some w := by
  intro before
  induction before with
  | nil =>
    intro fs gs _ h hown
    rcases Proofs.MergeRefs.mergeAll_field hf h hown with ⟨h0, _⟩ | ⟨o, os, v, own', gs', heq, hv, hm, hg, hr⟩
    · cases h0
    · cases heq
      cases hr
      exact ⟨v, own', hv, hg, hm⟩
  | cons b before ih =>
    intro fs gs hb h hown
    rcases Proofs.MergeRefs.mergeAll_field hf h hown with ⟨h0, _⟩ | ⟨o, os, v, own', gs', heq, hv, hm, hg, hr⟩
    · cases h0
    · cases heq
      have hd := refOnly_default hcl (hb _ (List.mem_cons_self ..)) hn hf hv
      have : own' = dflt := by
        unfold mergeField at hm
        rw [if_pos hd] at hm
        exact (Option.some.inj hm).symm
      subst this
      exact ih gs' (fun x hx => hb x (List.mem_cons_of_mem _ hx)) hr hg

theorem effective_copied (hcl : c = cParameter ∨ c = cResponse) (ho : ∀ l, (order l).Perm l) {k i fuel : Nat} {q : Dict Str Tree} (h : MeansAs W c k i q) {t : Tree}
    (he : MergeRefs.effective W order c fuel i = some (.value t)) :
    Dict.get? q c!"$ref" = none ∧ ∃ fs gs, parse v20 c (.dict q) = some (.obj c fs) ∧
      t = .obj c gs ∧ Copied c fs gs := by
  obtain ⟨rest, hch, before, last, heq, hb, href, hlast⟩ := means_chain hcl h [i] (by
    intro v hv
    cases List.mem_singleton.1 hv
    exact ⟨k, q, Nat.le_refl _, h⟩)
  refine ⟨href, ?_⟩
  rcases Proofs.MergeRefs.effective_chain he with hf' | ⟨rest', e, hch', ⟨x, hx, _⟩ | ⟨t', ht, rfl, hm⟩⟩
  · cases hf'
  · cases hx
  · cases ht
    obtain ⟨rfl, _⟩ := Proofs.MergeRefs.chain_unique hch' hch
    obtain ⟨_, gs, _, rfl, _⟩ := Props.C52.C52_chain he
    obtain ⟨fs, hfs, hkeys, _⟩ := Props.C42.C42_fields _ _ _ hlast
    refine ⟨fs, gs, by rw [← hfs]; exact hlast, rfl, ?_⟩
    rw [heq, List.map_append, List.map_cons, List.map_nil, hfs] at hm
    intro n dflt v hn hf hv
    obtain ⟨v', w, hv', hw, hmf⟩ := mergeAll_last hcl ho hn hf _ _ (by
      intro b hb'
      obtain ⟨j, hj, rfl⟩ := List.mem_map.1 hb'
      exact hb j hj) hm hf
    rw [hv] at hv'
    cases hv'
    have hdd := Props.C52.fresh_field hf
    refine ⟨w, hw, fun hd => ?_, fun hd => ⟨fun hc => ?_, fun kd hc => ?_⟩⟩
    · unfold mergeField at hmf
      rw [if_pos hd] at hmf
      exact (Option.some.inj hmf).symm
    · rw [hc] at hmf
      exact Proofs.Merge.mergeField_fresh ho hdd hd hmf
    · rw [hc] at hmf
      have := Proofs.Merge.mergeField_child hdd hd hmf
      unfold copyOf at this
      rw [hc] at this
      exact Proofs.Merge.copyAs_copy Props.C42.C42_grammar ho v kd w this

end Proofs.Effective
