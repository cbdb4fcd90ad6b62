import Verif.Proofs.JsonNumber
import Verif.Props.C81
/-!
# C81, headers received

The texts of the headers of a reply are read with the declarations in the document: what reads as a conforming value is
accepted as that value, and whatever is accepted conforms.
-/

namespace Props.C81
open Py Tree Prim Spec Spec.Described Spec.SchemaDoc Spec.Conform Spec.Wire Spec.Reply Proofs.Conform Proofs.Wire Props.C79
open Prim.World (Outside)

variable {w : Outside} {e : Prim.Env World.Atom} {S : Dict Str Tree → Prop} {form : Str → Str → Prop} {N : Prop}
  {toJson : AtomKind → World.Atom → Except Exc Str} {n : Nat} {q : Dict Str Tree}

/-- Declarations whose texts the library reads as JSON writes them: no booleans (every text but the empty one is true),
no numbers that are cut off to integers. -/
structure Literal (q : Dict Str Tree) : Prop where
  boolean : textAt q c!"type" ≠ some c!"boolean"
  number : textAt q c!"type" = some c!"number" → textAt q c!"format" ≠ some c!"int32" ∧ textAt q c!"format" ≠ some c!"int64"

/-- without references a declaration leads to itself only -/
theorem leads_self {q d : Dict Str Tree} (h : Leads (fun _ => none) q d) : d = q := by
  cases h with
  | stop => rfl
  | go _ h => cases h

theorem numeral_unique {v : Val} {r s : Rat} (h : Numeral v r) (h' : Numeral v s) : r = s := by
  rcases h with rfl | ⟨k, rfl, rfl⟩ <;> rcases h' with h' | ⟨j, h', rfl⟩ <;> cases h' <;> rfl

/-- the text is accepted with a stack of depth `F`, as the value -/
def Accepts (env : Prim.Env World.Atom) (toJson : AtomKind → World.Atom → Except Exc Str) (n : Nat) (t : Str) (v : Val) (F : Nat) :
    Prop :=
  ∀ read, ∃ x v', convert env F n (.str t) read = .ok x ∧ C70.jsonOf toJson x = .ok v' ∧ Same v v'

theorem Accepts.mono {env : Prim.Env World.Atom} {t : Str} {v : Val} {F G : Nat} (h : Accepts env toJson n t v F) (hg : F ≤ G) :
    Accepts env toJson n t v G := by
  intro read
  obtain ⟨x, v', h1, h2, h3⟩ := h read
  exact ⟨x, v', convert_deeper env hg n _ read h1 (by simp), h2, h3⟩

/-- **C81, acceptance.** A text that reads as a value which conforms to the declaration in the document is accepted, and
converted to the very value. -/
theorem C81_accepted (hder : ∀ n, (e.node n).isSchema = false → e.deref n = .ok n) (hS : Within S)
    (hlit : ∀ q, S q → Literal q) (hback : Back (World.env w e) toJson form) (hq : S q)
    (hd : Described (World.env w e) n q) {t : Str} {v : Val} (h : Reads q t v) (hc : Conforms (fun _ => none) form N q v) :
    ∃ F, Accepts (World.env w e) toJson n t v F := by
  have hstr : ∀ n t, effective (World.env w e) n (.str t) = .str t := fun n t => by simp [effective]
  induction h generalizing n with
  | @integer q t k ht hj =>
    have hl := limits hd
    have hsim := hS.simple q hq
    have htype := text_eq hl.type
    cases hc with
    | integer hl' _ hf _ =>
      cases leads_self hl'
      refine ⟨1, fun read => ⟨.int k, _, ?_, rfl, .refl _⟩⟩
      have := C33.C33_integer (World.env w e) 0 n n (.str t) read (hder n hl.isSchema)
        (typed rfl (by decide) (htype.trans ht) rfl (get_integer _)) hl.allOf (by rw [hstr]; simp)
      refine (this.2 k ?_).1 (limits_range hl hsim.exclusive hf).1
      rw [hstr]
      show (match intOfText t with | some n => Except.ok n | Option.none => .error Exc.ValueError) = _
      rw [(Proofs.JsonNumber.int_json hj).1]
    | number hl' ht' => cases leads_self hl'; rw [ht] at ht'; cases ht'
  | @number q t v r ht hj hv =>
    have hl := limits hd
    have hsim := hS.simple q hq
    have htype := text_eq hl.type
    have hformat := text_eq hl.format
    have key : Fits q r → ∃ F, Accepts (World.env w e) toJson n t v F := by
      intro hf
      refine ⟨1, fun read => ⟨.float (.fin r), _, ?_, rfl, .number hv (.inl rfl)⟩⟩
      have hn := (hlit q hq).number ht
      have := C33.C33_number (World.env w e) 0 n n (.str t) read (hder n hl.isSchema)
        (typed rfl (by decide) (htype.trans ht) hformat ((get_number _).trans (by
          rw [if_neg (by simp [hn.1, hn.2])]))) hl.allOf (by rw [hstr]; simp)
      refine (this.2 r ?_).1 (limits_range hl hsim.exclusive hf)
      rw [hstr]
      show (match floatOfText t with | some x => Except.ok x | Option.none => .error Exc.ValueError) = _
      rcases hv with rfl | ⟨k, rfl, rfl⟩
      · rw [Proofs.JsonNumber.float_json hj]
      · rw [(Proofs.JsonNumber.int_json hj).2]
    cases hc with
    | number hl' ht' hv' hf => cases leads_self hl'; exact key (numeral_unique hv' hv ▸ hf)
    | integer hl' ht' => cases leads_self hl'; rw [ht] at ht'; cases ht'
    | null | boolean | string | array | object => rcases hv with h | ⟨k, h, -⟩ <;> cases h
  | boolean ht => exact absurd ht (hlit _ hq).boolean
  | @string q t ht =>
    have hl := limits hd
    have hsim := hS.simple q hq
    have htype := text_eq hl.type
    have hformat := text_eq hl.format
    have hi := hder n hl.isSchema
    cases hc with
    | number hl' ht' => cases leads_self hl'; rw [ht] at ht'; cases ht'
    | string hl' ht' he hlen hfo =>
      cases leads_self hl'
      by_cases hbu : ∃ f, textAt q c!"format" = some f ∧ built f = true
      · obtain ⟨f, hf, hbu⟩ := hbu
        obtain ⟨k, hk⟩ := built_iff.1 hbu
        obtain ⟨x, h1, h2⟩ := hback.object f k hk t (hfo f hf) n
        refine ⟨1, fun read => ⟨.atom k x, .str t, ?_, by rw [atom_json hk, h2]; rfl, .refl _⟩⟩
        rw [convert_atom (env := World.env w e) hi (typed rfl (by decide) (htype.trans ht) (hformat.trans hf) (get_built hk)) hl.allOf
          (by rw [hstr]; simp), hstr, h1]
        rfl
      · have hf : ∀ g, textAt q c!"format" = some g → built g = false := by
          intro g hg
          cases hgb : built g with
          | false => rfl
          | true => exact absurd ⟨g, hg, hgb⟩ hbu
        have hc : C34.Conforms ((World.env w e).node n) t := by
          refine ⟨(allowed_iff (enum_is hl.enum) (hS.values q hq) t).1 he, ?_, ?_⟩
          · intro m hm _
            rw [length_eq hl.maxLength] at hm; exact hlen.2 m hm
          · intro m hm
            rw [length_eq hl.minLength] at hm; exact hlen.1 m hm
        refine ⟨1, fun read => ⟨.str t, _, ?_, rfl, .refl _⟩⟩
        by_cases hem : textAt q c!"format" = some c!"email"
        · exact (C34.C34_email (World.env w e) 0 n n t read hi (typed rfl (by decide) (htype.trans ht) hformat
            ((get_string hf).trans (by rw [if_pos hem]))) hl.allOf).1 ⟨hc, hback.email t (hfo _ hem)⟩
        · exact (C34.C34_string (World.env w e) 0 n n (.str t) read hi (typed rfl (by decide) (htype.trans ht) hformat
            ((get_string hf).trans (by rw [if_neg hem]))) hl.allOf (by rw [hstr]; simp) t (.inl (hstr _ _))).1 hc
  | @array q it s ts vs ht hit hsep hne hcut hlen hrd ih =>
    have hl := limits hd
    have hsim := hS.simple q hq
    have htype := text_eq hl.type
    have hi := hder n hl.isSchema
    obtain ⟨m, hm1, hm2⟩ : ∃ m, ((World.env w e).node n).items = some m ∧ Described (World.env w e) m it := by
      cases hd with
      | plain _ h2 _ => rcases h2 with h2 | h2 <;> rw [h2] at hit <;> cases hit
      | array _ h2 h3 _ h5 => rw [h2] at hit; cases hit; exact ⟨_, h3, h5⟩
    have hu : Off q c!"uniqueItems" := by
      cases hsim.plainly with
      | array _ _ _ hu _ => exact hu
      | object h => rcases h with h | ⟨h, -⟩ <;> rw [ht] at h <;> cases h
      | _ h => rw [ht] at h; cases h
    have hun := switch_off hl.uniqueItems hu
    have hitS := hS.items q it hq hit
    cases hc with
    | number hl' ht' => cases leads_self hl'; rw [ht] at ht'; cases ht'
    | array hl' _ hit' hall hsz hnd hall2 =>
      cases leads_self hl'
      rw [hit] at hit'; cases hit'
      obtain ⟨F, hF⟩ := bound (P := fun (i : Nat) F => ∀ t v, ts[i]? = some t → vs[i]? = some v →
          Accepts (World.env w e) toJson m t v F)
        (fun i F G h hg t v h1 h2 => (h t v h1 h2).mono hg) (List.range ts.length) (by
          intro i hi
          have hi := List.mem_range.1 hi
          have hi' : i < vs.length := hlen ▸ hi
          obtain ⟨F, hF⟩ := ih i ts[i] vs[i] (List.getElem?_eq_getElem hi) (List.getElem?_eq_getElem hi') hitS hm2
            (hall _ (List.getElem_mem _))
          refine ⟨F, fun t v h1 h2 => ?_⟩
          rw [List.getElem?_eq_getElem hi] at h1
          rw [List.getElem?_eq_getElem hi'] at h2
          cases h1; cases h2; exact hF)
      replace hF : ∀ (i : Nat) t v, ts[i]? = some t → vs[i]? = some v → Accepts (World.env w e) toJson m t v F := by
        intro i t v h1 h2
        obtain ⟨hlt, -⟩ := List.getElem?_eq_some_iff.1 h1
        exact hF i (List.mem_range.2 hlt) t v h1 h2
      clear hnd hall2
      have : ∃ xs ws, List.Forall₂ (fun v x => convert (World.env w e) F m v true = .ok x) (ts.map .str) xs ∧
          List.Forall₂ (fun p v => C70.jsonOf toJson p = .ok v) xs ws ∧ vs.length = ws.length ∧
          ∀ (i : Nat) v w, vs[i]? = some v → ws[i]? = some w → Same v w := by
        clear ih hne hcut hall hsz hrd
        induction ts generalizing vs with
        | nil =>
          cases vs with
          | nil => exact ⟨[], [], .nil, .nil, rfl, fun i v w h => by simp at h⟩
          | cons => cases hlen
        | cons t ts ih2 =>
          cases vs with
          | nil => cases hlen
          | cons v vs =>
          obtain ⟨xs, ws, h1, h2, h3, h4⟩ := ih2 (vs := vs) (by simpa using hlen) fun i t v h1 h2 =>
            hF (i + 1) t v (by simpa using h1) (by simpa using h2)
          obtain ⟨x, w', g3, g1, g2⟩ := hF 0 t v rfl rfl true
          refine ⟨x :: xs, w' :: ws, .cons g3 h1, .cons g1 h2, by simp [h3], fun i a b ha hb => ?_⟩
          cases i with
          | zero =>
            simp only [List.getElem?_cons_zero, Option.some.injEq] at ha hb
            subst ha; subst hb; exact g2
          | succ i => exact h4 i a b (by simpa using ha) (by simpa using hb)
      obtain ⟨xs, ws, h1, h2, h3, h4⟩ := this
      obtain ⟨f, hcol, hsep⟩ := hsep
      refine ⟨F + 1, fun read => ⟨.array (C35.formatOf ((World.env w e).node n)) xs, .list ws, ?_, ?_, .list h3 h4⟩⟩
      · refine ((C35.C35_array (World.env w e) F n n m (.str (between s ts)) read (ts.map .str) (ts.map .str) hi
          (typed rfl (by decide) (htype.trans ht) rfl (get_array _)) hl.allOf hm1 ?_
          (by rw [hun]; rfl)).1 _).2 ⟨xs, rfl, h1, ?_, ?_⟩
        · rw [hstr, format_collects hl.collectionFormat hcol, (C35.C35_separators f s).2 hsep, between_join]
          simp only [C35.given, Option.map_some, splitChar_join hne hcut]
        · intro k hk
          rw [length_eq hl.minItems] at hk
          rw [List.length_map, hlen]; exact hsz.1 k hk
        · intro k hk _
          rw [length_eq hl.maxItems] at hk
          rw [List.length_map, hlen]; exact hsz.2 k hk
      · simp only [C70.jsonOf, jsonItems_forall.2 h2]; rfl

/-! ## replies -/

open Io Proofs.Reply _root_.Doc

variable {W : MergeRefs.World} {order : List Atom → List Atom} {ref : Nat → Option Nat} {fuel stack : Nat}
  {ids : Dict Str Nat} {table : Dict Str (RespDecl Nat Nat)} {o : Reply.Outside}

theorem mem_kept {η h σ τ ρ υ D : Type} {env : REnv η h σ τ ρ υ D} {r : Option (RespDecl h σ)} :
    ∀ {l : List (Str × Str)}, (∀ e ∈ l, (C28.value env r e.1 e.2).isOk) → ∀ {x t : Str}, (x, t) ∈ l →
      ∃ y, C28.value env r x t = .ok y ∧ (x, y) ∈ C28.kept env r l
  | (k, v) :: l, hok, x, t, hm => by
    have hkv := hok (k, v) (by simp)
    rw [C28.kept]
    cases hv : C28.value env r k v with
    | error e => dsimp only at hkv; rw [hv] at hkv; cases hkv
    | ok y =>
      rcases List.mem_cons.1 hm with h | h
      · cases h; exact ⟨y, hv, by simp⟩
      · obtain ⟨z, h1, h2⟩ := mem_kept (fun e he => hok e (by simp [he])) h
        exact ⟨z, h1, by simp [h2]⟩

/-- a call that raises nothing keeps every header -/
theorem call_header {η h σ τ ρ υ D : Type} {env : REnv η h σ τ ρ υ D} {table : Dict Str (RespDecl h σ)} {s : Resp η ρ D}
    {c : RespCall ρ} (hok : (applyWith env table s c).2 = none) :
    (addHeaders env (C28.entry table (c.status.or s.status)) s.header (c.header.getD [])).2 = none ∧
      (applyWith env table s c).1.header =
        (addHeaders env (C28.entry table (c.status.or s.status)) s.header (c.header.getD [])).1 := by
  unfold applyWith at hok ⊢
  simp only [C28.respDecl_eq] at hok ⊢
  cases hadd : addHeaders env (C28.entry table (c.status.or s.status)) s.header (c.header.getD []) with
  | mk d e =>
  cases e with
  | some e => simp only [hadd] at hok; cases hok
  | none =>
    refine ⟨rfl, ?_⟩
    dsimp only
    cases c.raw with
    | none => rfl
    | some raw =>
      dsimp only
      cases c.status.or s.status with
      | none => rfl
      | some z =>
        dsimp only
        cases C28.entry table (some z) with
        | none => rfl
        | some r =>
          dsimp only
          cases r.schema with
          | none => rfl
          | some sch =>
            dsimp only
            split
            · rfl
            · split <;> rfl

theorem latest_or (cs : List (Option Int)) (c : Option Int) : C28.latest (cs ++ [c]) none = c.or (C28.latest cs none) := by
  simp only [C28.latest, List.foldl_append, List.foldl_cons, List.foldl_nil]
  cases c <;> rfl

/-- **C81, headers received.** Whatever was received before and whatever is received now under a status the document
declares: if the call raises nothing, every header is found, in any capitalisation; one that the document declares, by
a value that conforms to the declaration, any other as it is. -/
theorem C81_received {ω : Type} {env : Prim.Env ω} {toJson : AtomKind → ω → Except Exc Str}
    (ho : ∀ l, (order l).Perm l) (ht : Reply.Table env ref W order fuel ids table)
    (hreg : env.reg = builtins) (hder : ∀ n, (env.node n).isSchema = false → env.deref n = .ok n) (hS : Within S)
    (hform : Forms env toJson form) (cs : List (RespCall (Bytes ⊕ Str))) (c : RespCall (Bytes ⊕ Str)) {z : Int}
    (hz : C28.latest ((cs ++ [c]).map (·.status)) none = some z) {k i : Nat} (hi : entryFor ids z = some i)
    (hm : MeansAs W cResponse k i q) {b : Bool}
    (hok : (applyWith (Reply.renv o env stack) table
      { applyAll (Reply.renv o env stack) table Resp.init cs with rawBodyOnly := b } c).2 = none) {hd : List (Str × Str)}
    (hh : c.header = some hd) {x t : Str} (hx : (x, t) ∈ hd) {x' : Str} (hx' : o.text.lower x' = o.text.lower x) :
    ∃ l y, Utils.CIDict.getitem o.text.lower (applyWith (Reply.renv o env stack) table
        { applyAll (Reply.renv o env stack) table Resp.init cs with rawBodyOnly := b } c).1.header x' = .ok l ∧ y ∈ l ∧
      (headerAt q x = none → y = .str t) ∧
      ∀ d, headerAt q x = some (.dict d) → S d → ∀ v, C70.jsonOf toJson y = .ok v → Spec.Json.nonfinite v = false →
        (nulls v = true → N) → Conforms (fun _ => none) form N d v := by
  obtain ⟨r, hr, hdecl⟩ := (C80.C80_entry ho ht z).2 i hi
  obtain ⟨-, -, h3⟩ := hdecl k q hm
  obtain ⟨hinv, -, -⟩ := C28.applyAll_spec (Reply.renv o env stack) table cs Resp.init (C28.inv_nil _)
  obtain ⟨g1, g2⟩ := call_header hok
  have hst : c.status.or (applyAll (Reply.renv o env stack) table Resp.init cs).status = some z := by
    rw [C28.C28_status, ← hz, List.map_append, List.map_cons, List.map_nil, latest_or]; rfl
  simp only [hst, hr, hh, Option.getD_some] at g1 g2
  obtain ⟨a1, a2, a3⟩ := C28.addHeaders_spec (Reply.renv o env stack) (some r) hd
    (applyAll (Reply.renv o env stack) table Resp.init cs).header hinv
  obtain ⟨y, hy, hyk⟩ := mem_kept (a3.1 g1) hx
  have hmem : y ∈ C28.valuesOf o.text.lower (addHeaders (Reply.renv o env stack) (some r)
      (applyAll (Reply.renv o env stack) table Resp.init cs).header hd).1 x' := by
    have := a2 x'
    rw [show (Reply.renv o env stack).lower = o.text.lower from rfl] at this
    rw [this]
    refine List.mem_append_right _ (List.mem_map.2 ⟨(x, y), List.mem_filter.2 ⟨hyk, ?_⟩, rfl⟩)
    exact decide_eq_true hx'
  rw [g2]
  unfold C28.valuesOf at hmem
  unfold Utils.CIDict.getitem
  cases hg : Dict.get? (addHeaders (Reply.renv o env stack) (some r)
      (applyAll (Reply.renv o env stack) table Resp.init cs).header hd).1 (o.text.lower x') with
  | none => rw [hg] at hmem; cases hmem
  | some p =>
    obtain ⟨p1, l⟩ := p
    rw [hg] at hmem
    refine ⟨l, y, rfl, hmem, fun hn => ?_, fun d hhd hSd v hv hfin hnull => ?_⟩
    · unfold C28.value at hy
      rw [Option.bind_some, (h3 x).1 hn] at hy
      cases hy; rfl
    · obtain ⟨m, hm1, hm2⟩ := (h3 x).2 d hhd
      unfold C28.value at hy
      rw [Option.bind_some, hm1] at hy
      exact C81_conforms hreg hder hS hform hm2 hSd hy hv hfin hnull

/-- **C81, replies.** C80 with headers: a reply whose declared headers read as values that conform to their declarations
and whose body conforms is accepted. -/
theorem C81_reply {look : Str → Option (Dict Str Tree)} {T : Dict Str Tree → Prop} {M : Prop}
    (ho : ∀ l, (order l).Perm l) {B : Nat → Dict Str Tree → Prop} (hset : C79.Setting (World.env w e) B look T)
    (hback : Back (World.env w e) toJson form) (hneu : ∀ q, T q → Neutral False q)
    (hloads : ∀ s v, Spec.Json.readJson s = some v → o.loads s = .ok v)
    (hl : o.text.lower c!"content-type" = c!"content-type") (hj : JsonType o c!"application/json")
    (ht : Reply.Table (World.env w e) ref W order fuel ids table) {z : Int} {k i : Nat} (hi : entryFor ids z = some i)
    {s : Dict Str Tree} (hm : MeansAs W cResponse k i q) (hs : Dict.get? q c!"schema" = some (.dict s)) (hT : T s)
    (hB : ∀ m, C78.Belongs (World.env w e) ref W m s → B m s)
    {txt : Str} {raw : Bytes ⊕ Str} (hraw : raw = .inr txt ∨ raw = .inl (utf8 txt)) {v : Val}
    (hv : Spec.Json.readJson txt = some v) (hc : Conforms look form M s v)
    (hn : v = .none → ∃ d, Leads look s d) {hd : List (Str × Str)}
    (hct : ∀ h ∈ hd, o.text.lower h.1 = c!"content-type" → headerAt q h.1 = none ∧ JsonType o (o.text.lower h.2))
    (hder : ∀ n, (e.node n).isSchema = false → e.deref n = .ok n) (hS : Within S) (hlit : ∀ q, S q → Literal q)
    (hhd : ∀ h ∈ hd, headerAt q h.1 = none ∨ ∃ d u, headerAt q h.1 = some (.dict d) ∧ S d ∧ Reads d h.2 u ∧
      Conforms (fun _ => none) form N d u) :
    ∃ F, ∀ stack, F ≤ stack →
      ∃ x v', (applyWith (Reply.renv o (World.env w e) stack) table Resp.init ⟨some z, some raw, some hd⟩).2 = none ∧
        (applyWith (Reply.renv o (World.env w e) stack) table Resp.init ⟨some z, some raw, some hd⟩).1.data = some x ∧
        C70.jsonOf toJson x = .ok v' ∧ Same v v' := by
  obtain ⟨F, hF⟩ := C80.C80_reply ho hset (C79_own w e) hback hneu hloads hl hj ht hi hm hs hT hB hraw hv hc hn hct
  obtain ⟨r, hr, hdecl⟩ := (C80.C80_entry ho ht z).2 i hi
  obtain ⟨-, -, h3⟩ := hdecl k q hm
  obtain ⟨G, hG⟩ := bound (P := fun (h : Str × Str) G => ∀ stack, G ≤ stack →
      (C28.value (Reply.renv o (World.env w e) stack) (C28.entry table (some z)) h.1 h.2).isOk)
    (fun h G G' hG hle stack hs => hG stack (Nat.le_trans hle hs)) hd (by
      intro h hh
      rw [hr]
      unfold C28.value
      rcases hhd h hh with hnone | ⟨d, u, h1, h2, h4, h5⟩
      · refine ⟨0, fun stack _ => ?_⟩
        rw [Option.bind_some, (h3 h.1).1 hnone]; rfl
      · obtain ⟨m, hm1, hm2⟩ := (h3 h.1).2 d h1
        obtain ⟨G, hG⟩ := C81_accepted hder hS hlit hback h2 hm2 h4 h5
        refine ⟨G, fun stack hs => ?_⟩
        obtain ⟨x, v', hx, -, -⟩ := (hG.mono hs) true
        rw [Option.bind_some, hm1]
        show (convert (World.env w e) stack m (.str h.2) true).isOk
        rw [hx]; rfl)
  refine ⟨max F G, fun stack hst => ?_⟩
  exact hF stack (Nat.le_trans (Nat.le_max_left ..) hst) fun h hh => hG h hh stack (Nat.le_trans (Nat.le_max_right ..) hst)

end Props.C81
