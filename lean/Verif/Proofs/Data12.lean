import Verif.Spec.Data12
import Verif.Spec.Document20
import Verif.Proofs.Closed12
/-!
# The dict of an upgraded parameter asks for what the 1.2 parameter asks for
-/

namespace Proofs.Data12
open Py Tree Upgrade Spec.Conform Spec.Upgrade12 Spec.Document20 Spec.Data12 Spec.Wire Spec.SchemaDoc
open Spec.Service (text Maybe)
open Proofs.Closed12 (PlainQ)

theorem maybe_text {q : Dict Str Tree} {n : Str} {o : Option Str} (h : Maybe q n o) : textAt q n = o := by
  unfold textAt
  cases o with
  | some s => rw [show Dict.get? q n = some (text s) from h]; rfl
  | none => rcases h with h | h <;> rw [h]

theorem missing {q : Dict Str Tree} {n : Str} {l : List Str} (h : Only q l) (hn : n ∉ l) : Dict.get? q n = none :=
  Classical.byContradiction fun h' => hn (h n h')

theorem value_tree {q : Dict Str Tree} (hq : PlainQ q) {n : Str} {v : Val} (h : Spec.Listing12.Value q n v) :
    Dict.get? q n = some (_root_.Upgraded.ofVal v) ∨ Dict.get? q n = none ∧ v = .none := by
  unfold Spec.Listing12.Value Spec.Listing12.under at h
  cases hg : Dict.get? q n with
  | some t =>
    rw [hg, Option.getD_some] at h
    rw [Proofs.Closed12.ofVal_value t v (Proofs.Closed12.plain_get hq hg) h]
    exact .inl rfl
  | none =>
    rw [hg, Option.getD_none, Spec.Swagger12.null, Spec.Described.Value] at h
    exact .inr ⟨rfl, h⟩

theorem number_int {q : Dict Str Tree} (hq : PlainQ q) {n : Str} {k : Int} (h : Spec.Listing12.Value q n (.int k)) : numberAt q n = some k := by
  rcases value_tree hq h with h | ⟨-, h⟩
  · unfold numberAt; rw [h]; rfl
  · cases h

theorem number_float {q : Dict Str Tree} (hq : PlainQ q) {n : Str} {r : Rat} (h : Spec.Listing12.Value q n (.float (.fin r))) :
    numberAt q n = some r := by
  rcases value_tree hq h with h | ⟨-, h⟩
  · unfold numberAt; rw [h]; rfl
  · cases h

theorem noEnum {q : Dict Str Tree} (hq : PlainQ q) {n : Str} {v : Val} (h : Spec.Listing12.Value q n v) (hv : NoEnum v) : listAt q n = [] := by
  unfold listAt
  rcases value_tree hq h with h | ⟨h, -⟩
  · rw [h]
    cases v with
    | list l => rw [hv l rfl]; rfl
    | _ => rfl
  · rw [h]

theorem off {q : Dict Str Tree} (hq : PlainQ q) {n : Str} {v : Val} (h : Spec.Listing12.Value q n v) (hv : v = .none ∨ v = .bool false) :
    Off q n := by
  rcases value_tree hq h with h | ⟨h, -⟩
  · rcases hv with rfl | rfl
    · exact .inr (.inl h)
    · exact .inr (.inr h)
  · exact .inl h

theorem values_mem {l : List Tree} {vs : List Val} (h : Spec.Described.Values l vs) {t : Tree} (ht : t ∈ l) : ∃ v ∈ vs, Spec.Described.Value t v := by
  induction l generalizing vs with
  | nil => cases ht
  | cons a l ih =>
    rw [Spec.Described.Values] at h
    obtain ⟨v, vs', rfl, h1, h2⟩ := h
    rcases List.mem_cons.1 ht with rfl | ht
    · exact ⟨v, by simp, h1⟩
    · obtain ⟨x, hx, h3⟩ := ih h2 ht
      exact ⟨x, by simp [hx], h3⟩

/-- the values listed in the dict are those of the record -/
theorem listed {q : Dict Str Tree} (hq : PlainQ q) {n : Str} {l : List Val} (h : Spec.Listing12.Value q n (.list l)) :
    ∃ ts, Dict.get? q n = some (.list ts) ∧ Spec.Described.Values ts l := by
  unfold Spec.Listing12.Value Spec.Listing12.under at h
  cases hg : Dict.get? q n with
  | none => rw [hg, Option.getD_none, Spec.Swagger12.null, Spec.Described.Value] at h; cases h
  | some t =>
    rw [hg, Option.getD_some] at h
    cases t with
    | atom a => cases a <;> (rw [Spec.Described.Value] at h; cases h)
    | list ts =>
      rw [Spec.Described.Value] at h
      obtain ⟨vs, e, h⟩ := h
      cases e
      exact ⟨ts, rfl, h⟩
    | dict d =>
      rw [Spec.Described.Value] at h
      obtain ⟨vs, e, h⟩ := h
      cases e
    | obj c fs => exact absurd (Proofs.Closed12.plain_get hq hg) (by simp [Spec.Pointed.Plain])

/-- what a dict says about values of a primitive type -/
structure Says (env : Env) (q : Dict Str Tree) (ty : Str) (format : Option Str) (enum min max : Val) : Prop where
  ref : refAt q = none
  type : textAt q c!"type" = some ty
  format : textAt q c!"format" = format
  enum : Spec.Listing12.Value q c!"enum" enum
  limits : (ty = c!"integer" ∨ ty = c!"number") → ∀ r, Fits q r → Between env min max r

theorem leads {look : Str → Option (Dict Str Tree)} {q d : Dict Str Tree} (hq : refAt q = none) (h : Leads look q d) : d = q := by
  cases h with
  | stop _ => rfl
  | go h => rw [hq] at h; cases h

theorem scalar {env : Env} {form : Str → Str → Prop} {look : Str → Option (Dict Str Tree)} {q : Dict Str Tree} {ty : Str} {format : Option Str}
    {enum min max : Val} (hq : PlainQ q) (h : Says env q ty format enum min max) (hb : Basic ty format enum) {t : Str} {v : Val}
    (hr : Reads q t v) (hc : Conforms look form False q v) : Scalar env form ty format enum min max t v := by
  have hty := h.type
  have key : ∀ {s : Str}, textAt q c!"type" = some s → ty = s := fun e => by rw [hty] at e; exact Option.some.inj e
  have hna : ty ≠ c!"array" := by rintro rfl; cases hb <;> (rename_i e _; exact absurd e (by decide))
  cases hr with
  | integer h1 h2 =>
    refine .integer (key h1) h2 (h.limits (.inl (key h1)) _ ?_)
    cases hc with
    | integer l _ hf _ => exact leads h.ref l ▸ hf
    | number l ht => rw [leads h.ref l, h1] at ht; exact absurd ht (by decide)
  | @number _ _ _ r h1 h2 h3 =>
    refine .number (key h1) h2 h3 (h.limits (.inr (key h1)) _ ?_)
    cases hc with
    | null h => exact h.elim
    | integer l ht => rw [leads h.ref l, h1] at ht; exact absurd ht (by decide)
    | @number _ _ _ r' l _ hn hf _ =>
      have e : r' = r := by
        rcases h3 with rfl | ⟨k, rfl, rfl⟩ <;> rcases hn with hn | ⟨k', hn, e⟩ <;> cases hn
        · rfl
        · exact e
      rw [← e]
      exact leads h.ref l ▸ hf
    | boolean => rcases h3 with h3 | ⟨k, h3, -⟩ <;> cases h3
    | string => rcases h3 with h3 | ⟨k, h3, -⟩ <;> cases h3
    | array => rcases h3 with h3 | ⟨k, h3, -⟩ <;> cases h3
    | object => rcases h3 with h3 | ⟨k, h3, -⟩ <;> cases h3
  | boolean h1 h2 => exact .boolean (key h1) h2
  | string h1 =>
    cases hc with
    | number l ht => rw [leads h.ref l, h1] at ht; exact absurd ht (by decide)
    | string l _ ha _ hf =>
      rw [leads h.ref l] at ha hf
      refine .string (key h1) ?_ (fun f e => hf f (by rw [h.format, e]))
      rintro l rfl hl
      obtain ⟨ts, e, hvs⟩ := listed hq h.enum
      unfold Allowed listAt at ha
      rw [e] at ha
      dsimp only at ha
      rcases ha with rfl | ⟨x, hx, -, hv⟩
      · rw [Spec.Described.Values] at hvs; exact absurd hvs hl
      · obtain ⟨y, hy, hv'⟩ := values_mem hvs hx
        have : y = .str t := by
          have hp := Proofs.Closed12.plain_get hq e
          rw [Spec.Pointed.Plain] at hp
          have hp := Proofs.Placed.plainList_iff.1 hp x hx
          have e1 := Proofs.Closed12.ofVal_value x _ hp hv
          rw [← e1, _root_.Upgraded.ofVal, Spec.Described.Value] at hv'
          exact hv'
        rw [← this]; exact hy
  | array h1 => exact absurd (key h1) hna

theorem elements {env : Env} {form : Str → Str → Prop} {look : Str → Option (Dict Str Tree)} {i : Dict Str Tree} {ty : Str} {format : Option Str}
    {enum min max : Val} (hq : PlainQ i) (h : Says env i ty format enum min max) (hb : Basic ty format enum) {ts : List Str} {vs : List Val}
    (hlen : ts.length = vs.length) (hr : ∀ (k : Nat) t v, ts[k]? = some t → vs[k]? = some v → Reads i t v)
    (hc : ∀ v ∈ vs, Conforms look form False i v) : List.Forall₂ (Scalar env form ty format enum min max) ts vs := by
  induction ts generalizing vs with
  | nil => cases vs with
    | nil => exact .nil
    | cons => cases hlen
  | cons t ts ih => cases vs with
    | nil => cases hlen
    | cons v vs =>
      refine .cons (scalar hq h hb (hr 0 t v rfl rfl) (hc v (by simp))) (ih (by simpa using hlen) ?_ ?_)
      · intro k t' v' h1 h2; exact hr (k + 1) t' v' (by simpa using h1) (by simpa using h2)
      · intro v' hv; exact hc v' (by simp [hv])

/-- a limit of the record is one in the dict -/
theorem limit {env : Env} (hpy : Python env) {q : Dict Str Tree} (hq : PlainQ q) {n : Str} {type : Option Str} {ty : Str}
    (hty : type = some ty) {v x : Val} (hv : Spec.Listing12.Value q n x) (h : LimitOf env type v x) (hlim : Limited env (env.lower ty) v)
    (m : Rat) (hm : Limit env v m) : numberAt q n = some m := by
  rcases hlim with rfl | ⟨hf, hw⟩
  · exact absurd hm (hpy.null _)
  · cases h with
    | absent _ _ h => exact absurd h hf
    | integer _ x k _ h1 h2 =>
      unfold Limit at hm
      rw [h1] at hm
      cases hm
      cases hty
      obtain ⟨j, rfl⟩ := hw hpy.small m h1
      rw [hpy.whole] at h2
      cases h2
      exact number_int hq hv
    | number _ x _ h1 =>
      unfold Limit at hm
      rw [h1] at hm
      cases hm
      exact number_float hq hv

theorem between_none {env : Env} (hpy : Python env) (r : Rat) : Between env .none .none r :=
  ⟨fun m h => absurd h (hpy.null _), fun m h => absurd h (hpy.null _)⟩

/-- the items of an upgraded parameter -/
theorem items_says {env : Env} (hpy : Python env) {i : Dict Str Tree} {j : Items20} (hi : Items20In i j) {type ref format : Option Str} {enum : Val}
    (hj : PlainItems env type ref format enum j) {ty : Str} (hty : type = some ty) :
    Says env i (env.lower ty) format enum .none .none := by
  obtain ⟨t, e1, -, e2⟩ := hj.type
  rw [hty] at e1
  cases e1
  refine ⟨?_, ?_, ?_, ?_, fun _ r _ => between_none hpy r⟩
  · unfold refAt; rw [missing hi.only (by decide)]
  · rw [maybe_text hi.type, e2]
  · rw [maybe_text hi.format, hj.format]
  · rw [← hj.enum]; exact hi.enum

theorem off_only {q : Dict Str Tree} {n : Str} {l : List Str} (h : Only q l) (hn : n ∉ l) : Off q n := .inl (missing h hn)

theorem parameter_ref {q : Dict Str Tree} {p20 : Param20} (h : Param20In q p20) : refAt q = none := by
  unfold refAt; rw [missing h.only (by decide)]

/-- texts cut at commas -/
theorem comma {q : Dict Str Tree} {c : Str} (h : (Dict.get? q c!"collectionFormat").getD (text c!"csv") = text c) (hc : c = c!"csv") :
    Collects q c!"csv" ∧ ∀ f, Collects q f → f = c!"csv" := by
  subst hc
  cases hg : Dict.get? q c!"collectionFormat" with
  | none =>
    refine ⟨.inl ⟨hg, rfl⟩, ?_⟩
    rintro f (⟨-, rfl⟩ | e)
    · rfl
    · rw [hg] at e; cases e
  | some t =>
    rw [hg, Option.getD_some] at h
    subst h
    refine ⟨.inr hg, ?_⟩
    rintro f (⟨e, -⟩ | e)
    · rw [hg] at e; cases e
    · rw [hg] at e; cases e; rfl

theorem separates {q : Dict Str Tree} (h : ∀ f, Collects q f → f = c!"csv") {s : Char} (hs : Separates q s) : s = ',' := by
  obtain ⟨f, hf, hm⟩ := hs
  have := h f hf
  subst this
  simp only [List.mem_cons, Prod.mk.injEq, List.not_mem_nil, or_false] at hm
  rcases hm with ⟨-, h⟩ | ⟨h, -⟩ | ⟨h, -⟩ | ⟨h, -⟩
  · exact h
  all_goals exact absurd h (by decide)

/-- arrays -/
theorem array {env : Env} {form : Str → Str → Prop} {look : Str → Option (Dict Str Tree)} {q i : Dict Str Tree} (hq : PlainQ i) (hr : refAt q = none)
    (hty : textAt q c!"type" = some c!"array") (hit : Dict.get? q c!"items" = some (.dict i)) (hcol : ∀ f, Collects q f → f = c!"csv")
    {ty : Str} {format : Option Str} {enum : Val} (hs : Says env i ty format enum .none .none) (hb : Basic ty format enum) {ts : List Str} {v : Val}
    (h : ReadsAll q ts v) (hc : Conforms look form False q v) :
    ∃ us vs, ts = [between ',' us] ∧ v = .list vs ∧ us ≠ [] ∧ (∀ t ∈ us, ',' ∉ t) ∧
      List.Forall₂ (Scalar env form ty format enum .none .none) us vs ∧ (On q c!"uniqueItems" → vs.Nodup) := by
  cases h with
  | multi hm => exact absurd (hcol _ hm) (by decide)
  | one h =>
    cases h with
    | integer e => rw [hty] at e; exact absurd e (by decide)
    | number e => rw [hty] at e; exact absurd e (by decide)
    | boolean e => rw [hty] at e; exact absurd e (by decide)
    | string e => rw [hty] at e; exact absurd e (by decide)
    | @array _ i' s us vs _ e hsep hne hno hlen hall =>
      rw [hit] at e
      cases e
      cases separates hcol hsep
      cases hc with
      | number l e => rw [leads hr l, hty] at e; exact absurd e (by decide)
      | array l _ e hcs _ hu =>
        rw [leads hr l] at e hu
        rw [hit] at e
        cases e
        exact ⟨us, vs, rfl, rfl, hne, hno, elements hq hs hb hlen hall hcs, hu⟩

/-- the parameter that is sent, read as the 1.2 document has it -/
theorem sends {env : Env} (hpy : Python env) {scope : Str} {p : Param} {p20 : Param20} (hof : ParamOf env scope p p20) (hb : p.paramType ≠ some c!"body")
    (hreach : Reach env p) {q : Dict Str Tree} (hq : PlainQ q) (hin : Param20In q p20) {form : Str → Str → Prop}
    {look : Str → Option (Dict Str Tree)} {ts : List Str} {v : Val} (hr : ReadsAll q ts v) (hc : Conforms look form False q v) :
    Sends env form p ts v := by
  have href := parameter_ref hin
  cases hof with
  | body sc h => exact absurd h hb
  | multiple loc i d _ _ hm hit hi hd =>
    have hit' : ∃ iq, Dict.get? q c!"items" = some (.dict iq) ∧ Items20In iq i := hin.items
    obtain ⟨iq, e, hiq⟩ := hit'
    have hpi := Proofs.Closed12.plain_get hq e
    obtain ⟨ty, hty, -, -⟩ := hi.type
    have hmin : p.minimum = .none ∧ p.maximum = .none ∧ Basic (env.lower ty) p.format p.enum ∧ (p.uniqueItems = .none ∨ p.uniqueItems = .bool false) := by
      cases hreach with
      | one _ h => rcases h with h | h
                   · exact absurd hm.1 h
                   · rw [hm.2] at h; cases h
      | multiple ty' _ _ _ e1 hb h1 h2 h3 => rw [hty] at e1; cases e1; exact ⟨h1, h2, hb, h3⟩
      | array _ _ _ _ _ e => rw [hit] at e; cases e
    obtain ⟨us, vs, rfl, rfl, h1, h2, h3, h4⟩ := array hpi href (maybe_text hin.type) e (comma hin.collectionFormat rfl).2
      (items_says hpy hiq hi hty) hmin.2.2.1 hr hc
    refine .multiple hm.1 hit hty h1 h2 ?_ ?_
    · rw [hmin.1, hmin.2.1]; exact h3
    · intro e; rw [e] at hmin; rcases hmin.2.2.2 with h | h <;> cases h
  | single loc ty d mn mx _ _ hm hit _ hty _ hmn hmx =>
    have hin' := hin
    obtain ⟨hB, hlo, hhi⟩ : Basic (env.lower ty) p.format p.enum ∧ Limited env (env.lower ty) p.minimum ∧ Limited env (env.lower ty) p.maximum := by
      cases hreach with
      | one ty' _ _ e1 h1 h2 h3 => rw [hty] at e1; cases e1; exact ⟨h1, h2, h3⟩
      | multiple _ h1 h2 => exact absurd ⟨h1, h2⟩ hm
      | array _ _ _ _ _ e => rw [hit] at e; cases e
    have hsay : Says env q (env.lower ty) p.format p.enum p.minimum p.maximum := by
      refine ⟨href, maybe_text hin.type, maybe_text hin.format, hin.enum, fun _ r hf => ⟨fun m hmm => ?_, fun m hmm => ?_⟩⟩
      · exact (hf.max m (limit hpy hq hty hin.maximum hmx hhi m hmm)).1
      · exact (hf.min m (limit hpy hq hty hin.minimum hmn hlo m hmm)).1
    have hna : env.lower ty ≠ c!"array" := by intro e; rw [e] at hB; cases hB <;> (rename_i e _; exact absurd e (by decide))
    have hna' : textAt q c!"type" ≠ some c!"array" := by rw [hsay.type]; intro e; exact hna (Option.some.inj e)
    cases hr with
    | multi _ e => exact absurd e hna'
    | one hr =>
      refine .one ?_ hit hty (scalar hq hsay hB hr hc)
      by_cases h1 : IsTrue p.allowMultiple
      · right
        cases h2 : p.blankItems with
        | true => rfl
        | false => exact absurd ⟨h1, h2⟩ hm
      · exact .inl h1
  | array loc ty d mn mx j i _ _ _ hit hty _ _ _ hi =>
    obtain ⟨tj, h1, h2, h3, h4⟩ : ∃ tj, env.lower ty = c!"array" ∧ j.type = some tj ∧ Basic (env.lower tj) j.format .none ∧
        (p.uniqueItems = .none ∨ p.uniqueItems = .bool false) := by
      cases hreach with
      | one _ _ e => rw [hit] at e; cases e
      | multiple _ _ _ e => rw [hit] at e; cases e
      | array ty' j' tj e1 e2 e3 e4 hB _ hu =>
        rw [hit] at e3; cases e3
        rw [hty] at e1; cases e1
        exact ⟨tj, e2, e4, hB, hu⟩
    have hit' : ∃ iq, Dict.get? q c!"items" = some (.dict iq) ∧ Items20In iq i := hin.items
    obtain ⟨iq, e, hiq⟩ := hit'
    have hpi := Proofs.Closed12.plain_get hq e
    obtain ⟨us, vs, rfl, rfl, g1, g2, g3, g4⟩ := array hpi href (by rw [maybe_text hin.type, h1]) e (comma hin.collectionFormat rfl).2
      (items_says hpy hiq hi h2) h3 hr hc
    refine .array hty h1 hit h2 g1 g2 g3 ?_
    intro e; rw [e] at h4; rcases h4 with h | h <;> cases h

/-! ## within reach -/

/-- a parameter and its items -/
def Own (q : Dict Str Tree) (x : Dict Str Tree) : Prop := x = q ∨ Dict.get? q c!"items" = some (.dict x)

theorem plainly {env : Env} {q : Dict Str Tree} {ty : Str} {format : Option Str} {enum min max : Val} (hq : PlainQ q)
    (h : Says env q ty format enum min max) (hb : Basic ty format enum) (hm : Dict.get? q c!"multipleOf" = none)
    (hl : Dict.get? q c!"maxLength" = none) (hl' : Dict.get? q c!"minLength" = none) : Plainly q := by
  have hmult : numberAt q c!"multipleOf" = none := by unfold numberAt; rw [hm]
  have hmax : lengthAt q c!"maxLength" = none := by unfold lengthAt; rw [hl]
  have hmin : lengthAt q c!"minLength" = none := by unfold lengthAt; rw [hl']
  cases hb with
  | integer e he => exact .integer (e ▸ h.type) (noEnum hq h.enum he) hmult
  | number e he => exact .number (e ▸ h.type) (noEnum hq h.enum he) fun _ => hmult
  | boolean e he => exact .boolean (e ▸ h.type) (noEnum hq h.enum he)
  | string e he =>
    cases hf : format with
    | none => exact .string (e ▸ h.type) (fun f e => by rw [h.format, hf] at e; cases e) (by rw [hmax]; simp)
    | some f =>
      cases hbu : built f with
      | false => exact .string (e ▸ h.type) (fun f' e => by rw [h.format, hf] at e; cases e; exact hbu) (by rw [hmax]; simp)
      | true => exact .built (e ▸ h.type) (by rw [h.format, hf]) hbu (noEnum hq h.enum (he f hf hbu)) hmax hmin

theorem simple {q : Dict Str Tree} {l : List Str} (ho : Only q l) (h1 : c!"allOf" ∉ l) (h2 : c!"exclusiveMaximum" ∉ l)
    (h3 : c!"exclusiveMinimum" ∉ l) (hp : Plainly q) : Simple q :=
  ⟨.inl (by unfold listAt; rw [missing ho h1]), ⟨.inr (off_only ho h2), .inr (off_only ho h3)⟩, hp⟩

theorem no_objects {q : Dict Str Tree} (hq : PlainQ q) (n : Str) : ∀ t ∈ listAt q n, ∀ c fs, t ≠ .obj c fs := by
  rintro t ht c fs rfl
  unfold listAt at ht
  split at ht
  · next l e =>
    have hp := Proofs.Closed12.plain_get hq e
    rw [Spec.Pointed.Plain] at hp
    exact absurd (Proofs.Placed.plainList_iff.1 hp _ ht) (by simp [Spec.Pointed.Plain])
  · cases ht

theorem type_cases {ty : Str} {format : Option Str} {enum : Val} (h : Basic ty format enum) : ty ≠ c!"object" ∧ ty ≠ c!"array" := by
  cases h <;> (rename_i e _; subst e; exact ⟨by decide, by decide⟩)

/-- the parameter and its items are within reach -/
theorem within {env : Env} (hpy : Python env) {scope : Str} {p : Param} {p20 : Param20} (hof : ParamOf env scope p p20) (hb : p.paramType ≠ some c!"body")
    (hreach : Reach env p) {q : Dict Str Tree} (hq : PlainQ q) (hin : Param20In q p20) : Within (Own q) := by
  have href := parameter_ref hin
  have facts : ∀ x, Own q x → PlainQ x ∧ refAt x = none ∧ Simple x ∧ (∃ t, textAt x c!"type" = some t ∧ t ≠ c!"object") ∧ (∃ f, Collects x f) ∧
      ∀ d, Dict.get? x c!"items" = some (.dict d) → Own q d := by
    have items : ∀ {j : Items20} {type ref format : Option Str} {enum : Val} {iq : Dict Str Tree} {ty : Str}, Dict.get? q c!"items" = some (.dict iq) →
        Items20In iq j → PlainItems env type ref format enum j → type = some ty → Basic (env.lower ty) format enum →
        PlainQ iq ∧ refAt iq = none ∧ Simple iq ∧ (∃ t, textAt iq c!"type" = some t ∧ t ≠ c!"object") ∧ (∃ f, Collects iq f) ∧
        ∀ d, Dict.get? iq c!"items" = some (.dict d) → Own q d := by
      intro j type ref format enum iq ty e hiq hi hty hB
      have hpi : PlainQ iq := Proofs.Closed12.plain_get hq e
      have hsay := items_says hpy hiq hi hty
      refine ⟨hpi, hsay.ref, simple hiq.only (by decide) (by decide) (by decide) (plainly hpi hsay hB (missing hiq.only (by decide))
        (missing hiq.only (by decide)) (missing hiq.only (by decide))), ⟨_, hsay.type, (type_cases hB).1⟩,
        ⟨_, .inl ⟨missing hiq.only (by decide), rfl⟩⟩, fun d hd => ?_⟩
      rw [missing hiq.only (by decide)] at hd; cases hd
    have arr : ∀ {iq : Dict Str Tree} {u : Val}, Dict.get? q c!"items" = some (.dict iq) → textAt q c!"type" = some c!"array" →
        listAt q c!"enum" = [] → Spec.Listing12.Value q c!"uniqueItems" u → u = .none ∨ u = .bool false → p20.collectionFormat = c!"csv" →
        PlainQ q ∧ refAt q = none ∧ Simple q ∧ (∃ t, textAt q c!"type" = some t ∧ t ≠ c!"object") ∧ (∃ f, Collects q f) ∧
        ∀ d, Dict.get? q c!"items" = some (.dict d) → Own q d := by
      intro iq u e hty hen hu hu' hcf
      refine ⟨hq, href, simple hin.only (by decide) (by decide) (by decide) (.array hty e hen (off hq hu hu') ?_), ⟨_, hty, by decide⟩,
        ⟨_, (comma hin.collectionFormat hcf).1⟩, fun d hd => .inr hd⟩
      unfold lengthAt; rw [missing hin.only (by decide)]; simp
    cases hof with
    | body sc h => exact absurd h hb
    | multiple loc i d _ _ hm hit hi hd =>
      have hit' : ∃ iq, Dict.get? q c!"items" = some (.dict iq) ∧ Items20In iq i := hin.items
      obtain ⟨iq, e, hiq⟩ := hit'
      obtain ⟨ty, hty, -, -⟩ := hi.type
      have hmin : Basic (env.lower ty) p.format p.enum ∧ (p.uniqueItems = .none ∨ p.uniqueItems = .bool false) := by
        cases hreach with
        | one _ h => rcases h with h | h
                     · exact absurd hm.1 h
                     · rw [hm.2] at h; cases h
        | multiple ty' _ _ _ e1 hb h1 h2 h3 => rw [hty] at e1; cases e1; exact ⟨hb, h3⟩
        | array _ _ _ _ _ e => rw [hit] at e; cases e
      rintro x (rfl | hx)
      · exact arr e (maybe_text hin.type) (noEnum hq hin.enum (by rintro l ⟨⟩)) hin.unique hmin.2 rfl
      · rw [e] at hx; cases hx; exact items e hiq hi hty hmin.1
    | single loc ty d mn mx _ _ hm hit _ hty _ hmn hmx =>
      obtain ⟨hB, hlo, hhi⟩ : Basic (env.lower ty) p.format p.enum ∧ Limited env (env.lower ty) p.minimum ∧ Limited env (env.lower ty) p.maximum := by
        cases hreach with
        | one ty' _ _ e1 h1 h2 h3 => rw [hty] at e1; cases e1; exact ⟨h1, h2, h3⟩
        | multiple _ h1 h2 => exact absurd ⟨h1, h2⟩ hm
        | array _ _ _ _ _ e => rw [hit] at e; cases e
      have hsay : Says env q (env.lower ty) p.format p.enum p.minimum p.maximum := by
        refine ⟨href, maybe_text hin.type, maybe_text hin.format, hin.enum, fun _ r hf => ⟨fun m hmm => ?_, fun m hmm => ?_⟩⟩
        · exact (hf.max m (limit hpy hq hty hin.maximum hmx hhi m hmm)).1
        · exact (hf.min m (limit hpy hq hty hin.minimum hmn hlo m hmm)).1
      have hno : Dict.get? q c!"items" = none := hin.items
      rintro x (rfl | hx)
      · exact ⟨hq, href, simple hin.only (by decide) (by decide) (by decide) (plainly hq hsay hB (missing hin.only (by decide))
          (missing hin.only (by decide)) (missing hin.only (by decide))), ⟨_, hsay.type, (type_cases hB).1⟩,
          ⟨_, (comma hin.collectionFormat rfl).1⟩, fun d hd => .inr hd⟩
      · rw [hno] at hx; cases hx
    | array loc ty d mn mx j i _ _ _ hit hty _ _ _ hi =>
      obtain ⟨tj, h1, h2, h3, h4, h5⟩ : ∃ tj, env.lower ty = c!"array" ∧ j.type = some tj ∧ Basic (env.lower tj) j.format .none ∧
          (p.uniqueItems = .none ∨ p.uniqueItems = .bool false) ∧ NoEnum p.enum := by
        cases hreach with
        | one _ _ e => rw [hit] at e; cases e
        | multiple _ _ _ e => rw [hit] at e; cases e
        | array ty' j' tj e1 e2 e3 e4 hB he hu =>
          rw [hit] at e3; cases e3
          rw [hty] at e1; cases e1
          exact ⟨tj, e2, e4, hB, hu, he⟩
      have hit' : ∃ iq, Dict.get? q c!"items" = some (.dict iq) ∧ Items20In iq i := hin.items
      obtain ⟨iq, e, hiq⟩ := hit'
      rintro x (rfl | hx)
      · exact arr e (by rw [maybe_text hin.type, h1]) (noEnum hq hin.enum h5) hin.unique h4 rfl
      · rw [e] at hx; cases hx; exact items e hiq hi h2 h3
  refine ⟨fun x h => (facts x h).2.2.1, fun x h => (facts x h).2.2.2.1, fun x h => (facts x h).2.1, fun x d h e => (facts x h).2.2.2.2.2 d e,
    fun x h => no_objects (facts x h).1 _, fun x h => (facts x h).2.2.2.2.1⟩

end Proofs.Data12
