import Verif.Proofs.Wire
import Verif.Props.C77
import Verif.Props.C80
/-!
# C81: what is sent in path, query, headers and forms conforms to the document, and so do headers received

`Spec/Wire.lean` says how a server reads the text of a parameter, `Spec/Conform.lean` when a value conforms to a
declaration. C77 relates the document to the parameters of a call, C33-C35 say what conversion does with arguments,
C72 where the texts are found.
-/

namespace Props.C81
open Py Tree Prim Spec Spec.Described Spec.SchemaDoc Spec.Conform Spec.Wire Proofs.Conform Proofs.Wire Props.C79

variable {ω : Type} {env : Prim.Env ω} {S : Dict Str Tree → Prop} {form : Str → Str → Prop} {N : Prop}
  {toJson : AtomKind → ω → Except Exc Str} {fuel n : Nat} {q : Dict Str Tree} {v : Val} {read : Bool}

/-! ## values -/

theorem nulls_mem {l : List Val} {v : Val} (hv : v ∈ l) (h : nulls v = true) : nullItems l = true := by
  induction l with
  | nil => cases hv
  | cons a l ih =>
    rw [nullItems, Bool.or_eq_true]
    rcases List.mem_cons.1 hv with rfl | hv
    · exact .inl h
    · exact .inr (ih hv)

theorem atom_json {k : AtomKind} {x : ω} {f : Str} (hk : (f, k) ∈ made) :
    C70.jsonOf toJson (.atom k x) = (toJson k x).map .str := by
  have hkf : k ≠ .file := by
    rintro rfl; revert hk; simp [made]
  cases k <;> first | rfl | exact absurd rfl hkf

theorem made_conforms (hS : Within S) (hform : Forms env toJson form) {x : Prim ω} (h : Made env q x) (hq : S q) {w : Val}
    (hj : C70.jsonOf toJson x = .ok w) (hfin : Spec.Json.nonfinite w = false) (hnull : nulls w = true → N) :
    Conforms (fun _ => none) form N q w := by
  induction h generalizing w with
  | none => cases hj; exact .null (hnull rfl)
  | integer ht hf ha => cases hj; exact .integer (.stop (hS.noRef _ hq)) ht hf ha
  | @whole _ k ht hf ha => cases hj; exact .number (.stop (hS.noRef _ hq)) ht (.inr ⟨k, rfl, rfl⟩) hf ha
  | number ht hf ha => cases hj; exact .number (.stop (hS.noRef _ hq)) ht (.inl rfl) hf ha
  | @odd _ y ht hy =>
    cases hj
    cases y with
    | fin r => exact absurd rfl (hy r)
    | _ => cases hfin
  | boolean ht ha => cases hj; exact .boolean (.stop (hS.noRef _ hq)) ht ha
  | @string q s ht ha hs hf he =>
    cases hj
    refine .string (.stop (hS.noRef _ hq)) ht ha hs fun f hf' => ?_
    by_cases hem : f = c!"email"
    · subst hem; exact hform.email s (he hf')
    · exact hform.unknown f s hem (hf f hf')
  | @atom q f k i v x ht hf hk hat he hmin hmax =>
    rw [atom_json hk] at hj
    cases hto : toJson k x with
    | error e => rw [hto] at hj; cases hj
    | ok s =>
      rw [hto] at hj
      cases hj
      refine .string (.stop (hS.noRef _ hq)) ht (.inl he) ⟨fun m hm => ?_, fun m hm => ?_⟩ fun g hg => ?_
      · rw [hmin] at hm; cases hm
      · rw [hmax] at hm; cases hm
      · rw [hf] at hg; cases hg
        exact hform.object _ k hk i _ x s hat hto
  | @array q i f xs ht hit _ hs hu he _ ih =>
    simp only [C70.jsonOf] at hj
    cases hji : C70.jsonItems toJson xs with
    | error e => rw [hji] at hj; cases hj
    | ok ws =>
      rw [hji] at hj
      cases hj
      rw [jsonItems_forall] at hji
      have hfin := nonfinite_items hfin
      have hnull : ∀ u ∈ ws, nulls u = true → N := fun u hu h => hnull (nulls_mem hu h)
      have hlen := hji.length_eq
      refine .array (.stop (hS.noRef _ hq)) ht hit ?_ (hlen ▸ hs) (fun ho => ?_) (.inl he)
      · intro y hy
        obtain ⟨p, hp, h1⟩ := forall₂_right hji y hy
        exact ih p hp (hS.items _ _ hq hit) h1 (hfin y hy) (hnull y hy)
      · unfold On at ho
        rcases hu with hu | hu | hu <;> rw [hu] at ho <;> cases ho

/-- **C81, values.** Whatever a parameter, header or items object converts, the value of the result conforms to what
the document declares for the object. -/
theorem C81_conforms (hreg : env.reg = builtins) (hder : ∀ n, (env.node n).isSchema = false → env.deref n = .ok n)
    (hS : Within S) (hform : Forms env toJson form) (hd : Described env n q) (hq : S q) {x : Prim ω}
    (h : convert env fuel n v read = .ok x) {w : Val} (hj : C70.jsonOf toJson x = .ok w)
    (hfin : Spec.Json.nonfinite w = false) (hnull : nulls w = true → N) : Conforms (fun _ => none) form N q w :=
  made_conforms hS hform (converted hreg hder hS hd hq h) hq hj hfin hnull

/-! ## texts -/

open Prim.World (Outside)

variable {w : Outside} {e : Prim.Env World.Atom} {other : Prim World.Atom → Str}

/-- The text of a converted value can be read: no booleans, no `None`, numbers are finite; arrays are cut into their
elements again. -/
inductive Clear (leaf : Prim World.Atom → Except Exc Str) : Prim World.Atom → Prop
  | int {k} : Clear leaf (.int k)
  | float {r} : C74.Decimal r → Clear leaf (.float (.fin r))
  | str {s} : Clear leaf (.str s)
  | atom {k x} : Clear leaf (.atom k x)
  | array {f s xs} : separator f = some s → xs ≠ [] → (∀ x ∈ xs, Clear leaf x) →
      (∀ x ∈ xs, ∀ t, Call.text leaf x = .ok t → t ≠ [] ∧ s ∉ t) → Clear leaf (.array f xs)

theorem between_join (s : Char) : ∀ l : List Str, between s l = join [s] l
  | [] => rfl
  | [t] => rfl
  | t :: u :: l => by rw [between, join, between_join s (u :: l)]; simp; simp

/-- the texts of objects as they are in a URL -/
def inUrl (w : Outside) (other : Prim World.Atom → Str) (k : AtomKind) (x : World.Atom) : Except Exc Str :=
  World.leaf w other (.atom k x)

theorem reads_items {i : Dict Str Tree} {xs : List (Prim World.Atom)} {ts : List Str}
    (ih : ∀ x ∈ xs, ∀ t, Call.text (World.leaf w other) x = .ok t → ∃ val, C70.jsonOf (inUrl w other) x = .ok val ∧
      Reads i t val ∧ Spec.Json.nonfinite val = false ∧ nulls val = false)
    (hts : List.Forall₂ (fun c t => Call.text (World.leaf w other) c = .ok t) xs ts) :
    ∃ vals, C70.jsonItems (inUrl w other) xs = .ok vals ∧ ts.length = vals.length ∧
      (∀ (k : Nat) t v, ts[k]? = some t → vals[k]? = some v → Reads i t v) ∧
      Spec.Json.nonfiniteItems vals = false ∧ nullItems vals = false := by
  induction hts with
  | nil => exact ⟨[], rfl, rfl, fun k t v h => by simp at h, rfl, rfl⟩
  | @cons x t xs ts h1 _ ih2 =>
    obtain ⟨vals, a1, a2, a3, a4, a5⟩ := ih2 fun y hy => ih y (by simp [hy])
    obtain ⟨val, b1, b2, b3, b4⟩ := ih x (by simp) t h1
    refine ⟨val :: vals, ?_, by simp [a2], ?_, ?_, ?_⟩
    · simp only [C70.jsonItems, b1, a1, Except.bind, Except.map]
    · intro k t' v' h1 h2
      cases k with
      | zero => simp only [List.getElem?_cons_zero, Option.some.injEq] at h1 h2; subst h1 h2; exact b2
      | succ k => simp only [List.getElem?_cons_succ] at h1 h2; exact a3 k t' v' h1 h2
    · rw [Spec.Json.nonfiniteItems, b3, a4]; rfl
    · rw [nullItems, b4, a5]; rfl

theorem made_reads (hw : C74.Sound w) {c : Prim World.Atom} (h : Made (World.env w e) q c)
    (hc : Clear (World.leaf w other) c) {t : Str} (ht : Call.text (World.leaf w other) c = .ok t) :
    ∃ val, C70.jsonOf (inUrl w other) c = .ok val ∧ Reads q t val ∧ Spec.Json.nonfinite val = false ∧
      nulls val = false := by
  induction h generalizing t with
  | none => cases hc
  | @integer q k hty _ _ =>
    cases ht
    exact ⟨_, rfl, .integer hty (C73.readJson_int k), rfl, rfl⟩
  | @whole q k hty _ _ =>
    cases ht
    exact ⟨_, rfl, .number hty (C73.readJson_int k) (.inr ⟨k, rfl, rfl⟩), rfl, rfl⟩
  | @number q r hty _ _ =>
    cases ht
    cases hc with
    | float hd => exact ⟨_, rfl, .number hty (C73.readJson_float (hw.repr r hd)) (.inl rfl), rfl, rfl⟩
  | odd _ hy => cases hc with | float => exact absurd rfl (hy _)
  | boolean => cases hc
  | @string q s hty _ _ _ _ => cases ht; exact ⟨_, rfl, .string hty, rfl, rfl⟩
  | @atom q f k i v x hty _ hk _ _ _ _ =>
    have ht : inUrl w other k x = .ok t := ht
    rw [atom_json hk, ht]
    exact ⟨_, rfl, .string hty, rfl, rfl⟩
  | @array q i f xs hty hit _ _ _ _ hcol ih =>
    cases hc with
    | @array _ s _ hs hne hcl hcut =>
    rw [Call.text, if_neg (by rw [hs]; simp)] at ht
    cases hts : Call.texts (World.leaf w other) xs with
    | error x => rw [hts] at ht; cases ht
    | ok ts =>
      rw [hts] at ht
      have hall := C74.texts_forall hts
      have hcl' : ∀ t ∈ ts, t ≠ [] ∧ s ∉ t := by
        intro t htm
        obtain ⟨x, hx, h1⟩ := forall₂_right hall t htm
        exact hcut x hx t h1
      have hne' : ts ≠ [] := by
        rintro rfl; cases hall; exact hne rfl
      have hdrop : ts.dropWhile (· = []) = ts := by
        cases ts with
        | nil => rfl
        | cons t ts => rw [List.dropWhile_cons, if_neg (by simp [(hcl' t (by simp)).1])]
      have := (C35.C35_text f s hs ts fun x hx => (hcl' x hx).2).1
      dsimp only at ht
      rw [this, hdrop, ← between_join] at ht
      cases ht
      obtain ⟨vals, a1, a2, a3, a4, a5⟩ := reads_items (fun x hx t h1 => ih x hx (hcl x hx) h1) hall
      refine ⟨.list vals, ?_, .array hty hit ⟨f, hcol, (C35.C35_separators f s).1 hs⟩ hne' (fun t h => (hcl' t h).2) a2 a3,
        a4, a5⟩
      simp only [C70.jsonOf, a1, Except.map]

/-- **C81, texts.** The text sent for an argument is read by the server as a value that conforms to what the document
declares, if it can be read at all. -/
theorem C81_text (hw : C74.Sound w) (hder : ∀ n, (e.node n).isSchema = false → e.deref n = .ok n) (hS : Within S)
    (hform : Forms (World.env w e) (inUrl w other) form) (hd : Described (World.env w e) n q) (hq : S q)
    {c : Prim World.Atom} (h : convert (World.env w e) fuel n v read = .ok c) (hc : Clear (World.leaf w other) c) {t : Str}
    (ht : Call.text (World.leaf w other) c = .ok t) :
    ∃ val, Reads q t val ∧ Conforms (fun _ => none) form False q val := by
  have hm := converted (env := World.env w e) rfl hder hS hd hq h
  obtain ⟨val, h1, h2, h3, h4⟩ := made_reads hw hm hc ht
  exact ⟨val, h2, made_conforms hS hform hm hq h1 h3 fun h => by rw [h4] at h; cases h⟩

/-- a text per element can be read, too -/
def Legible (leaf : Prim World.Atom → Except Exc Str) (c : Prim World.Atom) : Prop :=
  Clear leaf c ∨ ∃ xs, c = .array c!"multi" xs ∧ ∀ x ∈ xs, Clear leaf x

/-- **C81, texts under one name** (query and form). -/
theorem C81_texts (hw : C74.Sound w) (hder : ∀ n, (e.node n).isSchema = false → e.deref n = .ok n) (hS : Within S)
    (hform : Forms (World.env w e) (inUrl w other) form) (hd : Described (World.env w e) n q) (hq : S q)
    {c : Prim World.Atom} (h : convert (World.env w e) fuel n v read = .ok c) (hc : Legible (World.leaf w other) c)
    {ts : List Str} (ht : C72.textsOf (World.leaf w other) c = .ok ts) :
    ∃ val, ReadsAll q ts val ∧ Conforms (fun _ => none) form False q val := by
  have hm := converted (env := World.env w e) rfl hder hS hd hq h
  have single : ∀ t, Clear (World.leaf w other) c → Call.text (World.leaf w other) c = .ok t → ts = [t] →
      ∃ val, ReadsAll q ts val ∧ Conforms (fun _ => none) form False q val := by
    rintro t hc ht' rfl
    obtain ⟨val, h1, h2⟩ := C81_text hw hder hS hform hd hq h hc ht'
    exact ⟨val, .one h1, h2⟩
  rcases hc with hc | ⟨xs, rfl, hc⟩
  · cases hcc : c with
    | array f l =>
      rw [hcc] at ht hc
      simp only [C72.textsOf, Call.urlTexts] at ht
      have hne : f ≠ c!"multi" := by
        rintro rfl
        cases hc with
        | array h1 => revert h1; simp [separator]
      rw [if_neg hne] at ht
      cases htt : Call.text (World.leaf w other) (.array f l) with
      | error x => rw [htt] at ht; cases ht
      | ok t =>
        rw [htt] at ht; cases ht
        exact single t (hcc ▸ hc) (hcc ▸ htt) rfl
    | _ =>
      cases htt : Call.text (World.leaf w other) c with
      | error x =>
        rw [hcc] at ht htt
        simp only [C72.textsOf, htt, Except.map] at ht
        cases ht
      | ok t =>
        refine single t hc htt ?_
        rw [hcc] at ht htt
        simp only [C72.textsOf, htt, Except.map] at ht
        cases ht; rfl
  · have htx : Call.texts (World.leaf w other) xs = .ok ts := ht
    have hall := C74.texts_forall htx
    cases hm with
    | @array _ i _ _ hty hit hmi hs hu he hcol =>
    obtain ⟨vals, a1, a2, a3, a4, a5⟩ := reads_items (fun x hx t h1 => made_reads hw (hmi x hx) (hc x hx) h1) hall
    refine ⟨.list vals, .multi hcol hty hit a2 a3, ?_⟩
    refine made_conforms hS hform (.array (f := c!"multi") (xs := xs) hty hit hmi hs hu he hcol) hq ?_ a4 fun h => ?_
    · simp only [C70.jsonOf, a1, Except.map]
    · rw [show nulls (.list vals) = nullItems vals by rw [nulls], a5] at h; cases h

/-! ## requests -/

open Call Io Ask Spec.Server Props.C72

variable {W : MergeRefs.World} {order : List Atom → List Atom} {mfuel : Nat} {own up : List Nat}
  {qs us : List (Dict Str Tree)} {ps : List Decl} {δ π : Type} {files : FileArg World.Atom → FileVal} {op : Op δ}
  {k : Dict Str Val} {r r' : Req (Prim World.Atom) π} {renv : Io.Env (Prim World.Atom) δ π} {sch : SchemeArg} {hf : Bool}
  {nm : Str}

/-- The parameters `ps` of an operation are those of a document (C77): `qs` are declared for the operation, `us` for its
path item, no two with the same name. -/
structure Setting (W : MergeRefs.World) (order : List Atom → List Atom) (mfuel : Nat) (w : Outside)
    (e : Prim.Env World.Atom) (own up : List Nat) (qs us : List (Dict Str Tree)) (ps : List Decl) : Prop where
  perm : ∀ l, (order l).Perm l
  forOp : List.Forall₂ (fun i q => ∃ k, Means W k i q) own qs
  forItem : List.Forall₂ (fun i q => ∃ k, Means W k i q) up us
  parameters : ∃ ts, _root_.Effective.parameters W order mfuel own up = some ts ∧
    List.Forall₂ (_root_.Effective.Declares (World.env w e)) ps ts
  distinct : ((inForce qs us).map nameIn).Nodup
  direct : ∀ n, (e.node n).isSchema = false → e.deref n = .ok n
  sound : C74.Sound w

/-- there is a value for the parameter: an argument, or a default in the document -/
def Present (q : Dict Str Tree) (k : Dict Str Val) (nm : Str) : Prop :=
  Dict.get? k nm ≠ none ∨ ∃ t, Dict.get? q c!"default" = some t ∧ t ≠ .atom .none

/-- the value: the argument, else the default -/
def Value (q : Dict Str Tree) (k : Dict Str Val) (nm : Str) (v : Val) : Prop :=
  Dict.get? k nm = some v ∨ Dict.get? k nm = none ∧ Default q v true

theorem parameter (hset : Setting W order mfuel w e own up qs us ps) (hS : Within S) (hq : q ∈ inForce qs us) (hSq : S q)
    (hname : Dict.get? q c!"name" = some (.atom (.str nm))) (hpr : Present q k nm) :
    ∃ p v, Declared (World.env w e) p q ∧ p.name = nm ∧ Value q k nm v ∧ Supplied (World.env w e) ps k p v := by
  obtain ⟨ts, h, hp⟩ := hset.parameters
  have hall := C77.C77_parameters hset.perm hset.forOp hset.forItem h hp
  obtain ⟨p, hpm, hd⟩ : ∃ p ∈ ps, Declared (World.env w e) p q := by
    obtain ⟨p, h1, h2⟩ := forall₂_right hall q hq
    exact ⟨p, h1, h2⟩
  have hpn : p.name = nm := by
    have := hd.name; rw [hname] at this; simpa using this.symm
  have hl := limits hd.object
  have hfile : ∀ {d : Dict Str Tree} {a : Node}, S d → Limits d a → a.type ≠ some c!"file" := by
    intro d a hd hl ht
    rw [text_eq hl.type] at ht
    cases (hS.simple d hd).plainly with
    | object h => obtain ⟨t, h1, h2⟩ := hS.typed d hd
                  rcases h with h | ⟨h, -⟩ <;> rw [h] at ht <;> cases ht
    | _ h => rw [h] at ht; cases ht
  obtain ⟨v, hv, hg⟩ : ∃ v, Value q k nm v ∧ Spec.Calls.given (World.env w e) k p = some v := by
    unfold Spec.Calls.given
    rw [hpn]
    cases hk : Dict.get? k nm with
    | some v => exact ⟨v, .inl hk, rfl⟩
    | none =>
      rcases hpr with hpr | ⟨t, h1, h2⟩
      · exact absurd hk hpr
      · have hdef := hl.default
        have hset : ((World.env w e).node p.obj).defaultSet = true := by
          unfold Default at hdef
          rw [h1] at hdef
          cases t with
          | atom a => cases a <;> first | exact absurd rfl h2 | exact hdef.1
          | _ => exact hdef.1
        rw [hset] at hdef
        exact ⟨_, .inr ⟨hk, hdef⟩, by rw [hset]; rfl⟩
  refine ⟨p, v, hd, hpn, hv, ?_, hpm, hfile hSq hl, ?_, hg⟩
  · have hn := C77.names_declared hall
    have hnd := hset.distinct
    rw [← hn] at hnd
    have : ps.map (fun p => some p.name) = (ps.map Decl.name).map some := by rw [List.map_map]; rfl
    rw [this] at hnd
    exact List.Pairwise.of_map some (fun a b h e => h (by rw [e])) hnd
  · rintro ⟨it, h1, h2⟩
    cases hd.object with
    | plain _ _ h => rw [h] at h1; cases h1
    | array _ g1 g2 _ g3 =>
      rw [g2] at h1; cases h1
      exact hfile (hS.items _ _ hSq g1) (limits g3) h2

theorem at_prim {p : Decl} {l : Str} {c : Prim World.Atom} (hl : p.in_ = l) (hb : l ≠ c!"body")
    (h : prim (World.env w e) fuel p v = .ok c) : convert (World.env w e) fuel p.obj v false = .ok c := by
  unfold prim at h
  rwa [if_neg (by rw [hl]; exact hb)] at h

/-- **C81, query.** For a query parameter with a value, the texts in the prepared request under its name are, if they can
be read, read by the server as a value that conforms to the declaration in the document. -/
theorem C81_query (hset : Setting W order mfuel w e own up qs us ps) (hS : Within S)
    (hform : Forms (World.env w e) (inUrl w other) form) (hq : q ∈ inForce qs us) (hSq : S q)
    (hname : Dict.get? q c!"name" = some (.atom (.str nm))) (hin : Dict.get? q c!"in" = some (.atom (.str c!"query")))
    (hpr : Present q k nm) (ha : ask (World.env w e) (World.leaf w other) fuel ps files op k = .ok r)
    (hp : prepare renv op sch hf r = .ok r') :
    ∃ p v c, Declared (World.env w e) p q ∧ Value q k nm v ∧ convert (World.env w e) fuel p.obj v false = .ok c ∧
      (Legible (World.leaf w other) c → ∃ val,
        ReadsAll q ((r'.p.query.filter fun x => x.1 = nm).map Prod.snd) val ∧
        Conforms (fun _ => none) form False q val) := by
  obtain ⟨p, v, hd, hpn, hv, hs⟩ := parameter hset hS hq hSq hname hpr
  have hpi : p.in_ = c!"query" := by
    have := hd.location; rw [hin] at this; simpa using this.symm
  obtain ⟨c, xs, hc, hxs, h⟩ := (C72_query ha hp).1 p v hs hpi
  have hc := at_prim hpi (by decide) hc
  refine ⟨p, v, c, hd, hv, hc, fun hl => ?_⟩
  rw [hpn] at h
  rw [h]
  exact C81_texts hset.sound hset.direct hS hform hd.object hSq hc hl hxs

/-- **C81, form.** The same for form parameters, in a request without files: the server decodes the body. -/
theorem C81_form (hset : Setting W order mfuel w e own up qs us ps) (hS : Within S)
    (hform : Forms (World.env w e) (inUrl w other) form) (hq : q ∈ inForce qs us) (hSq : S q)
    (hname : Dict.get? q c!"name" = some (.atom (.str nm))) (hin : Dict.get? q c!"in" = some (.atom (.str c!"formData")))
    (hpr : Present q k nm) (ha : ask (World.env w e) (World.leaf w other) fuel ps files op k = .ok r)
    (hp : prepare renv op sch hf r = .ok r') (hfile : r.p.file = []) (hfd : r.p.formData ≠ []) :
    ∃ body l, r'.data = .text body ∧ formDecode body = some l ∧
    ∃ p v c, Declared (World.env w e) p q ∧ Value q k nm v ∧ convert (World.env w e) fuel p.obj v false = .ok c ∧
      (Legible (World.leaf w other) c → ∃ val, ReadsAll q ((l.filter fun x => x.1 = nm).map Prod.snd) val ∧
        Conforms (fun _ => none) form False q val) := by
  obtain ⟨p, v, hd, hpn, hv, hs⟩ := parameter hset hS hq hSq hname hpr
  have hpi : p.in_ = c!"formData" := by
    have := hd.location; rw [hin] at this; simpa using this.symm
  obtain ⟨body, l, h1, h2, -, h3, -⟩ := C72_form ha hp hfile hfd
  obtain ⟨c, xs, hc, hxs, h⟩ := h3 p v hs hpi
  have hc := at_prim hpi (by decide) hc
  refine ⟨body, l, h1, h2, p, v, c, hd, hv, hc, fun hl => ?_⟩
  rw [hpn] at h
  rw [h]
  exact C81_texts hset.sound hset.direct hS hform hd.object hSq hc hl hxs

/-- **C81, header.** The same for a header parameter, whatever capitalisation the server looks it up by. -/
theorem C81_header (hset : Setting W order mfuel w e own up qs us ps) (hS : Within S)
    (hform : Forms (World.env w e) (inUrl w other) form) (hq : q ∈ inForce qs us) (hSq : S q)
    (hname : Dict.get? q c!"name" = some (.atom (.str nm))) (hin : Dict.get? q c!"in" = some (.atom (.str c!"header")))
    (hpr : Present q k nm) (ha : ask (World.env w e) (World.leaf w other) fuel ps files op k = .ok r)
    (hp : prepare renv op sch hf r = .ok r')
    (ho : ∀ d ∈ inForce qs us, ∀ s, nameIn d = some s → renv.lower s = renv.lower nm → s = nm) {x : Str}
    (hx : renv.lower x = renv.lower nm) (h1 : renv.lower x ≠ renv.lower c!"Accept")
    (h2 : renv.lower x ≠ renv.lower c!"Content-Type") :
    ∃ p v c t, Declared (World.env w e) p q ∧ Value q k nm v ∧ convert (World.env w e) fuel p.obj v false = .ok c ∧
      Utils.CIDict.getitem renv.lower r'.header x = .ok t ∧
      (Clear (World.leaf w other) c → ∃ val, Reads q t val ∧ Conforms (fun _ => none) form False q val) := by
  obtain ⟨p, v, hd, hpn, hv, hs⟩ := parameter hset hS hq hSq hname hpr
  have hpi : p.in_ = c!"header" := by
    have := hd.location; rw [hin] at this; simpa using this.symm
  have ho' : ∀ d ∈ ps, renv.lower d.name = renv.lower p.name → d.name = p.name := by
    intro d hdm hlow
    obtain ⟨ts, g1, g2⟩ := hset.parameters
    have hall := C77.C77_parameters hset.perm hset.forOp hset.forItem g1 g2
    have : some d.name ∈ (inForce qs us).map nameIn := by
      rw [← C77.names_declared hall]
      exact List.mem_map.2 ⟨d, hdm, rfl⟩
    obtain ⟨y, hy, hyn⟩ := List.mem_map.1 this
    rw [hpn] at hlow ⊢
    exact ho y hy _ hyn hlow
  obtain ⟨c, t, hc, ht, h⟩ := C72_header ha hp hs hpi ho' (by rw [hpn]; exact hx) h1 h2
  have hc := at_prim hpi (by decide) hc
  exact ⟨p, v, c, t, hd, hv, hc, h, fun hl => C81_text hset.sound hset.direct hS hform hd.object hSq hc hl ht⟩

/-- **C81, path.** The same for path parameters: a server that matches the path against the route reads, for every hole,
a text; the one for a declared parameter is, if it can be read, a value that conforms. -/
theorem C81_path (hset : Setting W order mfuel w e own up qs us ps) (hS : Within S)
    (hform : Forms (World.env w e) (inUrl w other) form)
    (ha : ask (World.env w e) (World.leaf w other) fuel ps files op k = .ok r) (hp : prepare renv op sch hf r = .ok r')
    (plus : Bool) {t : List Seg} (ht : Plain t) (hop : op.path = written t)
    (hb : ∀ n ∈ holes t, ∀ x, Dict.get? r.p.path n = some x → plus = true ∨ ' ' ∉ x) :
    ∃ l, readPath plus t r'.path = some l ∧ l.map Prod.fst = holes t ∧
      ∀ q nm, q ∈ inForce qs us → S q → Dict.get? q c!"name" = some (.atom (.str nm)) →
        Dict.get? q c!"in" = some (.atom (.str c!"path")) → Present q k nm →
        ∃ p v c, Declared (World.env w e) p q ∧ Value q k nm v ∧ convert (World.env w e) fuel p.obj v false = .ok c ∧
          ∀ y, (nm, y) ∈ l → Clear (World.leaf w other) c →
            ∃ val, Reads q y val ∧ Conforms (fun _ => none) form False q val := by
  obtain ⟨l, h1, h2, h3⟩ := C72_path plus ha hp ht hop hb
  refine ⟨l, h1, h2, fun q nm hq hSq hname hin hpr => ?_⟩
  obtain ⟨p, v, hd, hpn, hv, hs⟩ := parameter hset hS hq hSq hname hpr
  have hpi : p.in_ = c!"path" := by
    have := hd.location; rw [hin] at this; simpa using this.symm
  obtain ⟨c, x, hc, hx, h4⟩ := h3 p v hs hpi
  have hc := at_prim hpi (by decide) hc
  refine ⟨p, v, c, hd, hv, hc, fun y hy hl => ?_⟩
  rw [h4 y (by rw [hpn]; exact hy)]
  exact C81_text hset.sound hset.direct hS hform hd.object hSq hc hl hx

end Props.C81
