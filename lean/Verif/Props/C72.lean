import Verif.Model.Ask
import Verif.Spec.Server
import Verif.Props.C21
import Verif.Props.C22
import Verif.Props.C32
import Verif.Props.C63
import Verif.Props.C70
/-!
# C72: the server receives the arguments of the call

From the arguments of `op(**kwargs)` to what a server reads in the prepared request, location by location.
`text leaf c` and `urlTexts leaf f l` are the texts of a converted argument (C32, C35, C73), `Spec.Server`
and `Spec.formDecode`, `Spec.Json.readJson` are the server's readers.
-/

namespace Props.C72
open Py Utils Prim Call Spec.Calls Io Ask Spec Spec.Server Props.C21

variable {ω δ π : Type}

/-! ## reading a filled route -/

def toPieces : List Seg → List Piece
  | [] => []
  | .lit s :: t => .lit ('/' :: s) :: toPieces t
  | .hole n :: t => .lit c!"/" :: .hole n :: toPieces t

theorem text_toPieces (t : List Seg) : C21.text (toPieces t) = written t := by
  induction t with
  | nil => rfl
  | cons g t ih => cases g <;> simp [toPieces, C21.text, written, ih]

/-- literals are plain text of one segment, holes have ordinary names -/
def Plain (t : List Seg) : Prop :=
  ∀ g ∈ t, match g with
    | .lit s => '{' ∉ s ∧ '}' ∉ s ∧ '/' ∉ s
    | .hole n => SimpleName n

theorem good_toPieces {t : List Seg} (h : Plain t) : Good (toPieces t) := by
  induction t with
  | nil => intro p hp; cases hp
  | cons g t ih =>
    have ih := ih fun x hx => h x (by simp [hx])
    have hg := h g (by simp)
    intro p hp
    cases g with
    | lit s =>
      simp only [toPieces, List.mem_cons] at hp
      rcases hp with rfl | hp
      · exact ⟨by simpa using hg.1, by simpa using hg.2.1⟩
      · exact ih p hp
    | hole n =>
      simp only [toPieces, List.mem_cons] at hp
      rcases hp with rfl | rfl | hp
      · exact ⟨by decide, by decide⟩
      · exact hg
      · exact ih p hp

theorem pieces_append {c : Char} {a : Str} (h : c ∉ a) (b : Str) :
    pieces c (a ++ b) = match pieces c b with
      | [] => [a]
      | p :: ps => (a ++ p) :: ps := by
  induction a with
  | nil =>
    cases b with
    | nil => rfl
    | cons x b =>
      simp only [List.nil_append, pieces]
      split
      · rfl
      · cases pieces c b <;> rfl
  | cons x a ih =>
    simp only [List.mem_cons, not_or] at h
    rw [List.cons_append, pieces, if_neg (Ne.symm h.1), ih h.2]
    cases pieces c b <;> rfl

theorem percentDecode_qpByte' {plus : Bool} {b : UInt8} (hb : plus = true ∨ b.toNat ≠ 32) (s : Str) :
    percentDecode plus (qpByte b ++ s) = (percentDecode plus s).map (b :: ·) := by
  cases plus with
  | true => exact percentDecode_qpByte b s
  | false =>
    have hb : b.toNat ≠ 32 := by simpa using hb
    unfold qpByte
    rw [if_neg hb]
    unfold quoteByte
    split
    · rename_i h
      simp only [Bool.false_and, Bool.or_false] at h
      have key : ∀ b : UInt8, alwaysSafe b = true →
          Char.ofNat b.toNat ≠ '%' ∧ (Char.ofNat b.toNat).toNat = b.toNat ∧ b.toNat < 128 := by
        intro b
        refine byte_all (P := fun b => alwaysSafe b = true →
          Char.ofNat b.toNat ≠ '%' ∧ (Char.ofNat b.toNat).toNat = b.toNat ∧ b.toNat < 128) ?_ b
        decide +kernel
      obtain ⟨h1, h3, h4⟩ := key b h
      rw [List.singleton_append, percentDecode_cons _ h1 (by rw [h3]; exact h4), h3]
      simp
    · have hb := b.toNat_lt
      show percentDecode false ('%' :: _ :: _ :: s) = _
      rw [percentDecode_pct _ _ s (hexVal_hexUpper (by omega)) (hexVal_hexUpper (by omega))]
      have : 16 * (b.toNat / 16) + b.toNat % 16 = b.toNat := by omega
      rw [this]; simp

theorem readText_quote_plus {plus : Bool} {v : Str} (h : plus = true ∨ ' ' ∉ v) :
    readText plus (quote_plus v) = some v := by
  have key : ∀ l : Bytes, plus = true ∨ (32 : UInt8) ∉ l → percentDecode plus (l.flatMap qpByte) = some l := by
    intro l hl
    induction l with
    | nil => rfl
    | cons b l ih =>
      rw [List.flatMap_cons, percentDecode_qpByte' (hl.imp id fun h e => h (by
        have : b = 32 := UInt8.toNat_inj.1 e
        simp [this])), ih (hl.imp id fun h e => h (by simp [e]))]
      rfl
  unfold readText
  rw [quote_plus_eq, key (utf8 v) (h.imp id fun hv hm => hv ((mem_utf8_ascii (a := ' ') (by decide)).1 hm))]
  exact utf8Decode_utf8 v

theorem readSegs_fill {plus : Bool} {value : Str → Option Str} {t : List Seg} {x : Str} (ht : Plain t)
    (hf : fill (fun n => (value n).map quote_plus) (toPieces t) = some x)
    (hb : ∀ n ∈ holes t, ∀ v, value n = some v → plus = true ∨ ' ' ∉ v) :
    ∃ xs, pieces '/' x = [] :: xs ∧ readSegs plus t xs = some ((holes t).map fun n => (n, (value n).getD [])) ∧
      ∀ n ∈ holes t, value n ≠ none := by
  induction t generalizing x with
  | nil =>
    simp only [toPieces, fill, Option.some.injEq] at hf
    subst hf
    exact ⟨[], rfl, rfl, by simp [holes]⟩
  | cons g t ih =>
    have ht' : Plain t := fun y hy => ht y (by simp [hy])
    have hg := ht g (by simp)
    cases g with
    | lit s =>
      simp only [toPieces, fill, Option.map_eq_some_iff] at hf
      obtain ⟨y, hy, rfl⟩ := hf
      obtain ⟨xs, h1, h2, h3⟩ := ih ht' hy hb
      refine ⟨s :: xs, ?_, ?_, h3⟩
      · rw [List.cons_append, pieces, if_pos rfl, pieces_append hg.2.2, h1]; simp
      · simp [readSegs, h2, holes]
    | hole n =>
      simp only [toPieces, fill, Option.map_eq_some_iff] at hf
      obtain ⟨z, hz, rfl⟩ := hf
      cases hv : value n with
      | none => rw [hv] at hz; cases hz
      | some v =>
        rw [hv] at hz
        simp only [Option.map_some, Option.map_eq_some_iff] at hz
        obtain ⟨y, hy, rfl⟩ := hz
        obtain ⟨xs, h1, h2, h3⟩ := ih ht' hy fun m hm => hb m (by simp [holes, hm])
        refine ⟨quote_plus v :: xs, ?_, ?_, ?_⟩
        · rw [List.singleton_append, pieces, if_pos rfl, pieces_append (not_mem_quote_plus (by decide)), h1]; simp
        · simp [readSegs, h2, holes, readText_quote_plus (hb n (by simp [holes]) v hv), hv]
        · intro m hm
          simp only [holes, List.mem_cons] at hm
          rcases hm with rfl | hm
          · simp [hv]
          · exact h3 m hm

theorem readPath_fill {plus : Bool} {value : Str → Option Str} {t : List Seg} {x : Str} (ht : Plain t)
    (hf : fill (fun n => (value n).map quote_plus) (toPieces t) = some x)
    (hb : ∀ n ∈ holes t, ∀ v, value n = some v → plus = true ∨ ' ' ∉ v) :
    readPath plus t x = some ((holes t).map fun n => (n, (value n).getD [])) ∧ ∀ n ∈ holes t, value n ≠ none := by
  obtain ⟨xs, h1, h2, h3⟩ := readSegs_fill ht hf hb
  exact ⟨by rw [readPath, h1]; exact h2, h3⟩

/-! ## from the call to the request -/

variable {env : Prim.Env ω} {leaf : Prim ω → Except Exc Str} {fuel : Nat} {ps : List Decl} {files : FileArg ω → FileVal}
  {op : Op δ} {k : Dict Str Val} {r r' : Req (Prim ω) π} {renv : Io.Env (Prim ω) δ π} {sch : SchemeArg} {hf : Bool}

theorem ask_ok (h : ask env leaf fuel ps files op k = .ok r) :
    ∃ s, call env leaf fuel ps k = .ok s ∧ r = init op (paramsOf files s) := by
  unfold ask at h
  cases hc : call env leaf fuel ps k with
  | error e => rw [hc] at h; cases h
  | ok s => rw [hc] at h; cases h; exact ⟨s, rfl, rfl⟩

/-- `p` is a parameter with the value `v`, no other parameter has its name, and it is no file -/
structure Supplied (env : Prim.Env ω) (ps : List Decl) (k : Dict Str Val) (p : Decl) (v : Val) : Prop where
  distinct : (ps.map Decl.name).Nodup
  declared : p ∈ ps
  noFile : (env.node p.obj).type ≠ some c!"file"
  noFiles : ¬ fileList env p
  given : given env k p = some v

/-- the texts of a converted argument in a query or form -/
def textsOf (leaf : Prim ω → Except Exc Str) (c : Prim ω) : Except Exc (List Str) :=
  match c with
  | .array f l => urlTexts leaf f l
  | c => (Call.text leaf c).map ([·])

theorem textsOf_single {c : Prim ω} {t : Str} (h : ∀ f l, c ≠ .array f l) (ht : Call.text leaf c = .ok t) :
    textsOf leaf c = .ok [t] := by
  cases c <;> first | exact absurd rfl (h _ _) | simp [textsOf, ht, Except.map]

/-- where a supplied argument is, by its location -/
theorem supplied {s : Call.Sent ω} (hs : call env leaf fuel ps k = .ok s) {p : Decl} {v : Val}
    (hS : Supplied env ps k p v) : ∃ c, prim env fuel p v = .ok c ∧
      (p.in_ = c!"path" → ∃ x, Call.text leaf c = .ok x ∧ Dict.get? s.path p.name = some x) ∧
      (p.in_ = c!"header" → ∃ x, Call.text leaf c = .ok x ∧ Dict.get? s.header p.name = some x) ∧
      (p.in_ = c!"query" → ∃ xs, textsOf leaf c = .ok xs ∧ (s.query.filter fun e => e.1 = p.name).map Prod.snd = xs) ∧
      (p.in_ = c!"formData" → ∃ xs, textsOf leaf c = .ok xs ∧
        (s.formData.filter fun e => e.1 = p.name).map Prod.snd = xs) ∧
      (p.in_ = c!"body" → Dict.get? s.body p.name = some c) := by
  obtain ⟨c, e, hc, hb, hu⟩ := C32.C32_only_there env leaf fuel ps k s hs hS.distinct p hS.declared v hS.given
  refine ⟨c, hc, ?_⟩
  have q1 := congrArg C32.Under.path hu
  have q2 := congrArg C32.Under.header hu
  have q3 := congrArg C32.Under.query hu
  have q4 := congrArg C32.Under.formData hu
  have q5 := congrArg C32.Under.body hu
  have nf := hS.noFile
  have nfs := hS.noFiles
  cases hb with
  | aFile _ h => exact absurd h nf
  | files _ _ _ _ h => exact absurd h nfs
  | queryArray f l ts it _ hi _ _ ht =>
    rw [hi]
    refine ⟨fun h => absurd h (by decide), fun h => absurd h (by decide), fun _ => ⟨ts, ht, q3⟩, fun h => absurd h (by decide), fun h => absurd h (by decide)⟩
  | formArray f l ts it _ hi _ _ ht =>
    rw [hi]
    refine ⟨fun h => absurd h (by decide), fun h => absurd h (by decide), fun h => absurd h (by decide), fun _ => ⟨ts, ht, q4⟩, fun h => absurd h (by decide)⟩
  | query _ t _ hi ha ht =>
    rw [hi]
    refine ⟨fun h => absurd h (by decide), fun h => absurd h (by decide), fun _ => ⟨[t], textsOf_single ha ht, q3⟩, fun h => absurd h (by decide), fun h => absurd h (by decide)⟩
  | form _ t _ hi ha ht =>
    rw [hi]
    refine ⟨fun h => absurd h (by decide), fun h => absurd h (by decide), fun h => absurd h (by decide), fun _ => ⟨[t], textsOf_single ha ht, q4⟩, fun h => absurd h (by decide)⟩
  | header _ t _ hi ht =>
    rw [hi]
    refine ⟨fun h => absurd h (by decide), fun _ => ⟨t, ht, q2⟩, fun h => absurd h (by decide), fun h => absurd h (by decide), fun h => absurd h (by decide)⟩
  | path _ t _ hi ht =>
    rw [hi]
    refine ⟨fun _ => ⟨t, ht, q1⟩, fun h => absurd h (by decide), fun h => absurd h (by decide), fun h => absurd h (by decide), fun h => absurd h (by decide)⟩
  | inFile _ t _ hi ht =>
    rw [hi]
    refine ⟨fun h => absurd h (by decide), fun h => absurd h (by decide), fun h => absurd h (by decide), fun h => absurd h (by decide), fun h => absurd h (by decide)⟩
  | body _ _ hi =>
    rw [hi]
    refine ⟨fun h => absurd h (by decide), fun h => absurd h (by decide), fun h => absurd h (by decide), fun h => absurd h (by decide), fun _ => q5⟩

/-- **C72, path.** Of a request whose path is a route, a server reads one text per hole: the text of the argument
given for the path parameter of that name. The server has to take `+` for a blank, or no text has a blank. -/
theorem C72_path (plus : Bool) (ha : ask env leaf fuel ps files op k = .ok r) (hp : prepare renv op sch hf r = .ok r')
    {t : List Seg} (ht : Plain t) (hop : op.path = written t)
    (hb : ∀ n ∈ holes t, ∀ x, Dict.get? r.p.path n = some x → plus = true ∨ ' ' ∉ x) :
    ∃ l, readPath plus t r'.path = some l ∧ l.map Prod.fst = holes t ∧
      ∀ p v, Supplied env ps k p v → p.in_ = c!"path" → ∃ c x, prim env fuel p v = .ok c ∧
        Call.text leaf c = .ok x ∧ ∀ y, (p.name, y) ∈ l → y = x := by
  obtain ⟨s, hs, rfl⟩ := ask_ok ha
  obtain ⟨_, path, _, _, _, _, _, _, h2, _, _, _, rfl⟩ := prepare_ok.1 hp
  simp only [init] at h2 hb
  rw [hop, ← text_toPieces, format_text _ _ (good_toPieces ht)] at h2
  have he : Dict.get? (pathParams (paramsOf files s)) = fun n => (Dict.get? s.path n).map quote_plus := by
    funext n; exact get?_pathParams _ n
  rw [he] at h2
  cases hfill : fill (fun n => (Dict.get? s.path n).map quote_plus) (toPieces t) with
  | none => rw [hfill] at h2; cases h2
  | some x =>
    rw [hfill] at h2
    simp only [Except.ok.injEq] at h2
    subst h2
    obtain ⟨h3, h4⟩ := readPath_fill ht hfill hb
    refine ⟨_, h3, by simp [Function.comp_def], ?_⟩
    intro p v hS hin
    obtain ⟨c, hc, hpath, -⟩ := supplied hs hS
    obtain ⟨x, hx, hg⟩ := hpath hin
    refine ⟨c, x, hc, hx, fun y hy => ?_⟩
    obtain ⟨n, hn, heq⟩ := List.mem_map.1 hy
    simp only [Prod.mk.injEq] at heq
    obtain ⟨rfl, rfl⟩ := heq
    rw [hg]; rfl

/-- **C72, URL.** The same for the URL: what follows `scheme://host` is read as the path is. -/
theorem C72_url (plus : Bool) (ha : ask env leaf fuel ps files op k = .ok r) (hp : prepare renv op sch hf r = .ok r')
    {host : Str} (hh : '{' ∉ host ∧ '}' ∉ host) {t : List Seg} (ht : Plain t) (hop : op.url = c!"//" ++ host ++ written t)
    (hb : ∀ n ∈ holes t, ∀ x, Dict.get? r.p.path n = some x → plus = true ∨ ' ' ∉ x) :
    ∃ scheme path l, r'.url = scheme ++ c!"://" ++ host ++ path ∧ chooseScheme r.scheme sch = .ok scheme ∧
      readPath plus t path = some l ∧ l.map Prod.fst = holes t ∧
      ∀ p v, Supplied env ps k p v → p.in_ = c!"path" → ∃ c x, prim env fuel p v = .ok c ∧
        Call.text leaf c = .ok x ∧ ∀ y, (p.name, y) ∈ l → y = x := by
  obtain ⟨s, hs, rfl⟩ := ask_ok ha
  obtain ⟨scheme, _, url, _, _, _, _, h1, _, h2, _, _, rfl⟩ := prepare_ok.1 hp
  simp only [init] at h2 hb
  have hgood : Good (.lit (c!"//" ++ host) :: toPieces t) := by
    intro q hq
    simp only [List.mem_cons] at hq
    rcases hq with rfl | hq
    · refine ⟨?_, ?_⟩ <;> simp [hh.1, hh.2]
    · exact good_toPieces ht q hq
  have htext : op.url = C21.text (.lit (c!"//" ++ host) :: toPieces t) := by
    rw [hop, C21.text, text_toPieces]
  rw [htext, format_text _ _ hgood] at h2
  have he : Dict.get? (pathParams (paramsOf files s)) = fun n => (Dict.get? s.path n).map quote_plus := by
    funext n; exact get?_pathParams _ n
  rw [he, fill] at h2
  cases hfill : fill (fun n => (Dict.get? s.path n).map quote_plus) (toPieces t) with
  | none => rw [hfill] at h2; cases h2
  | some x =>
    rw [hfill] at h2
    simp only [Option.map_some, Except.ok.injEq] at h2
    subst h2
    obtain ⟨h3, h4⟩ := readPath_fill ht hfill hb
    refine ⟨scheme, x, _, by simp, h1, h3, by simp [Function.comp_def], ?_⟩
    intro p v hS hin
    obtain ⟨c, hc, hpath, -⟩ := supplied hs hS
    obtain ⟨x, hx, hg⟩ := hpath hin
    refine ⟨c, x, hc, hx, fun y hy => ?_⟩
    obtain ⟨n, hn, heq⟩ := List.mem_map.1 hy
    simp only [Prod.mk.injEq] at heq
    obtain ⟨rfl, rfl⟩ := heq
    rw [hg]; rfl

/-- **C72, query.** The query of the prepared request has, under the name of a query parameter, the texts of its
argument, in order, and nothing under any other name. -/
theorem C72_query (ha : ask env leaf fuel ps files op k = .ok r) (hp : prepare renv op sch hf r = .ok r') :
    (∀ p v, Supplied env ps k p v → p.in_ = c!"query" → ∃ c xs, prim env fuel p v = .ok c ∧
      textsOf leaf c = .ok xs ∧ (r'.p.query.filter fun e => e.1 = p.name).map Prod.snd = xs) ∧
    ∀ n, (∀ p ∈ ps, p.name = n → given env k p = none) → ∀ x, (n, x) ∉ r'.p.query := by
  obtain ⟨s, hs, rfl⟩ := ask_ok ha
  rw [(C63.C63_frame renv op sch hf _ _ hp).1]
  refine ⟨fun p v hS hin => ?_, fun n hn x hx => ?_⟩
  · obtain ⟨c, hc, -, -, hq, -⟩ := supplied hs hS
    obtain ⟨xs, h1, h2⟩ := hq hin
    exact ⟨c, xs, hc, h1, h2⟩
  · have := congrArg C32.Under.query (C32.C32_absent env leaf fuel ps k s hs n hn)
    simp only [C32.under, List.map_eq_nil_iff, List.filter_eq_nil_iff] at this
    exact absurd (by simp) (this (n, x) hx)

theorem wf_header {s : Call.Sent ω} (hs : call env leaf fuel ps k = .ok s) : Dict.WF s.header := by
  obtain ⟨h1, h2, h3⟩ := (C31.C31_succeeds env leaf fuel ps k).1 ⟨s, hs⟩
  obtain ⟨es, e1, e2⟩ := (convertAll_spec env leaf fuel k ps ({}, [])).1 fun p hp => ⟨h1 p hp, h3 p hp⟩
  unfold call at hs
  rw [e2] at hs
  simp only at hs
  split at hs
  · cases hs
  · cases hs
    have : ∀ (es : List (Str × Entry ω)) (s : Call.Sent ω), Dict.WF s.header → Dict.WF (addAll s es).header := by
      intro es
      induction es with
      | nil => intro s h; exact h
      | cons e es ih =>
        intro s h
        obtain ⟨n, e⟩ := e
        refine ih _ ?_
        cases e <;> first | exact h | exact Dict.WF_set h _ _
    exact this es {} Dict.WF_nil

theorem lastCI_of_mem {lower : Str → Str} {l : List (Str × Str)} {n x : Str} (hw : Dict.WF l) (hm : (n, x) ∈ l)
    (ho : ∀ e ∈ l, lower e.1 = lower n → e.1 = n) : C63.lastCI lower l n = some x := by
  induction l with
  | nil => cases hm
  | cons e l ih =>
    have hw' := List.nodup_cons.1 hw
    rw [C63.lastCI]
    rcases List.mem_cons.1 hm with rfl | hm
    · have : C63.lastCI lower l n = none := by
        have : ∀ l : List (Str × Str), n ∉ l.map Prod.fst → (∀ e ∈ l, lower e.1 = lower n → e.1 = n) →
            C63.lastCI lower l n = none := by
          intro l
          induction l with
          | nil => intro _ _; rfl
          | cons e l ih =>
            intro h1 h2
            simp only [List.map_cons, List.mem_cons, not_or] at h1
            rw [C63.lastCI, ih h1.2 fun e he => h2 e (by simp [he])]
            simp only
            rw [if_neg]
            intro e1
            exact h1.1 (h2 e (by simp) e1.symm).symm
        exact this l hw'.1 fun e he => ho e (by simp [he])
      rw [this]
      simp
    · rw [ih hw'.2 hm fun e he => ho e (by simp [he])]

/-- **C72, header.** A server, which reads header names in any capitalisation, finds the text of the argument
under the name of a header parameter, if that is neither `Accept` nor `Content-Type` and no other parameter has
the same name in another capitalisation. -/
theorem C72_header (ha : ask env leaf fuel ps files op k = .ok r) (hp : prepare renv op sch hf r = .ok r')
    {p : Decl} {v : Val} (hS : Supplied env ps k p v) (hin : p.in_ = c!"header")
    (ho : ∀ q ∈ ps, renv.lower q.name = renv.lower p.name → q.name = p.name) {n : Str}
    (hn : renv.lower n = renv.lower p.name) (h1 : renv.lower n ≠ renv.lower c!"Accept")
    (h2 : renv.lower n ≠ renv.lower c!"Content-Type") :
    ∃ c x, prim env fuel p v = .ok c ∧ Call.text leaf c = .ok x ∧ CIDict.getitem renv.lower r'.header n = .ok x := by
  obtain ⟨s, hs, rfl⟩ := ask_ok ha
  obtain ⟨c, hc, -, hh, -⟩ := supplied hs hS
  obtain ⟨x, hx, hg⟩ := hh hin
  refine ⟨c, x, hc, hx, ?_⟩
  obtain ⟨ct, d, fs, -, -, -, hk⟩ := C63.C63_headers renv op sch hf _ _ rfl hp
  rw [hk n]
  simp only [h1, h2, false_and, if_false]
  have hl : C63.lastCI renv.lower s.header p.name = some x := by
    refine lastCI_of_mem (wf_header hs) (Dict.mem_of_get? hg) fun e he hl => ?_
    obtain ⟨m, y⟩ := e
    refine Classical.byContradiction fun hne => ?_
    have habs := C32.C32_absent env leaf fuel ps k s hs m fun q hq hqn =>
      absurd (hqn ▸ ho q hq (hqn ▸ hl)) hne
    have := congrArg C32.Under.header habs
    simp only [C32.under] at this
    rw [Dict.get?_of_mem (wf_header hs) he] at this
    cases this
  have hcong : ∀ l : List (Str × Str), C63.lastCI renv.lower l n = C63.lastCI renv.lower l p.name := by
    intro l
    induction l with
    | nil => rfl
    | cons e l ih => rw [C63.lastCI, C63.lastCI, ih, hn]
  show (match C63.lastCI renv.lower s.header n with
    | some v => Except.ok v
    | none => .error Exc.KeyError) = .ok x
  rw [hcong, hl]

/-- **C72, form.** Without files, form arguments are in the body, in form encoding; the body says so, and a server
reads under the name of a form parameter the texts of its argument, in order, and nothing under other names. -/
theorem C72_form (ha : ask env leaf fuel ps files op k = .ok r) (hp : prepare renv op sch hf r = .ok r')
    (hfile : r.p.file = []) (hform : r.p.formData ≠ []) :
    ∃ body l, r'.data = .text body ∧ formDecode body = some l ∧
      (∀ n, renv.lower n = renv.lower c!"Content-Type" → renv.lower n ≠ renv.lower c!"Accept" →
        CIDict.getitem renv.lower r'.header n = .ok c!"application/x-www-form-urlencoded") ∧
      (∀ p v, Supplied env ps k p v → p.in_ = c!"formData" → ∃ c xs, prim env fuel p v = .ok c ∧
        textsOf leaf c = .ok xs ∧ (l.filter fun e => e.1 = p.name).map Prod.snd = xs) ∧
      ∀ n, (∀ p ∈ ps, p.name = n → given env k p = none) → ∀ x, (n, x) ∉ l := by
  obtain ⟨s, hs, rfl⟩ := ask_ok ha
  obtain ⟨ct, d, fs, hd, rfl, -, hk⟩ := C63.C63_headers renv op sch hf _ _ rfl hp
  obtain ⟨rfl, body, hb, hdec⟩ := C22.C22_prepared renv op _ _ hf ct _ fs hfile hform hd
  refine ⟨body, s.formData, hb, hdec, fun n h1 h2 => ?_, fun p v hS hin => ?_, fun n hn x hx => ?_⟩
  · rw [hk n, if_neg (fun h => h2 h.1), if_pos ⟨h1, by simp, by simp [formType]⟩]; rfl
  · obtain ⟨c, hc, -, -, -, hq, -⟩ := supplied hs hS
    obtain ⟨xs, h1, h2⟩ := hq hin
    exact ⟨c, xs, hc, h1, h2⟩
  · have := congrArg C32.Under.formData (C32.C32_absent env leaf fuel ps k s hs n hn)
    simp only [C32.under, List.map_eq_nil_iff, List.filter_eq_nil_iff] at this
    exact absurd (by simp) (this (n, x) hx)

theorem get_map {α β γ : Type} [DecidableEq α] (f : β → γ) (n : α) : ∀ d : Dict α β,
    Dict.get? (d.map fun e => (e.1, f e.2)) n = (Dict.get? d n).map f
  | [] => rfl
  | (m, x) :: d => by
    rw [List.map_cons, Dict.get?, Dict.get?]
    split
    · rfl
    · exact get_map f n d

/-- **C72, files.** The files of a request are what was given for its file parameters: under the name of a parameter of
the type `file`, or of a list of files in the query or a form, there is what its argument was converted to; under all other
names there is nothing. -/
theorem C72_files (ha : ask env leaf fuel ps files op k = .ok r) (hd : (ps.map Decl.name).Nodup)
    (hin : ∀ p ∈ ps, p.in_ ≠ c!"file") :
    (∀ p ∈ ps, ∀ v, given env k p = some v → (env.node p.obj).type = some c!"file" →
      ∃ c, prim env fuel p v = .ok c ∧ Dict.get? r.p.file p.name = some (files (.prim c))) ∧
    (∀ p ∈ ps, ∀ v f l, given env k p = some v → fileList env p → p.in_ = c!"query" ∨ p.in_ = c!"formData" →
      prim env fuel p v = .ok (.array f l) → Dict.get? r.p.file p.name = some (files (.prim (.array f l)))) ∧
    (∀ p v, Supplied env ps k p v → Dict.get? r.p.file p.name = none) ∧
    ∀ n, (∀ p ∈ ps, p.name = n → given env k p = none) → Dict.get? r.p.file n = none := by
  obtain ⟨s, hs, rfl⟩ := ask_ok ha
  have key : ∀ n, Dict.get? (init (π := π) op (paramsOf files s)).p.file n = (Dict.get? s.file n).map files :=
    fun n => get_map files n s.file
  refine ⟨fun p hp v hv ht => ?_, fun p hp v f l hv hfl hq hc => ?_, fun p v hS => ?_, fun n hn => ?_⟩
  · obtain ⟨c, e, hc, hb, hu⟩ := C32.C32_only_there env leaf fuel ps k s hs hd p hp v hv
    have q := congrArg C32.Under.file hu
    refine ⟨c, hc, ?_⟩
    rw [key]
    have q : Dict.get? s.file p.name = (C32.only s p.name e).file := q
    rw [q]
    cases hb <;> first | rfl | contradiction
  · obtain ⟨c, e, hc', hb, hu⟩ := C32.C32_only_there env leaf fuel ps k s hs hd p hp v hv
    rw [hc] at hc'
    cases hc'
    have q : Dict.get? s.file p.name = (C32.only s p.name e).file := congrArg C32.Under.file hu
    rw [key, q]
    generalize hy : (.array f l : Prim ω) = y at hb
    cases hb with
    | aFile => rfl
    | files => rfl
    | queryArray f' l' ts it _ _ hi hx _ => obtain ⟨it', h1, h2⟩ := hfl; rw [hi] at h1; cases h1; contradiction
    | formArray f' l' ts it _ _ hi hx _ => obtain ⟨it', h1, h2⟩ := hfl; rw [hi] at h1; cases h1; contradiction
    | query _ _ _ _ h _ => exact absurd hy.symm (h f l)
    | form _ _ _ _ h _ => exact absurd hy.symm (h f l)
    | header _ _ _ h _ => rw [h] at hq; exact absurd hq (by decide)
    | path _ _ _ h _ => rw [h] at hq; exact absurd hq (by decide)
    | inFile _ _ _ h _ => rw [h] at hq; exact absurd hq (by decide)
    | body _ _ h => rw [h] at hq; exact absurd hq (by decide)
  · obtain ⟨c, e, hc, hb, hu⟩ := C32.C32_only_there env leaf fuel ps k s hs hd p hS.declared v hS.given
    have q : Dict.get? s.file p.name = (C32.only s p.name e).file := congrArg C32.Under.file hu
    rw [key, q]
    have h1 := hS.noFile
    have h2 := hS.noFiles
    have h3 := hin p hS.declared
    cases hb <;> first | rfl | contradiction
  · rw [key]
    have : Dict.get? s.file n = none := congrArg C32.Under.file (C32.C32_absent env leaf fuel ps k s hs n hn)
    rw [this]
    rfl

/-- **C72, body.** Without files and form arguments the payload is, for a JSON media type, a JSON text that reads as
the value the argument of the body parameter was converted to; the media type is announced. -/
theorem C72_body {renv : Io.Env (Prim ω) δ Str} {r r' : Req (Prim ω) Str}
    (ha : ask env leaf fuel ps files op k = .ok r) (hp : prepare renv op sch hf r = .ok r')
    (hfile : r.p.file = []) (hform : r.p.formData = []) {p : Decl} {v : Val} (hS : Supplied env ps k p v)
    (hin : p.in_ = c!"body") (hone : ∀ q ∈ ps, q.in_ = c!"body" → q.name = p.name)
    (hop : op.parameters.map (fun d => (d.name, d.in_)) = ps.map fun q => (q.name, q.in_))
    {enc : Prim.Json.Enc ω} (hm : ∀ b d, renv.marshal (C24.bodyType op.consumes r.consume) b d = Prim.Json.marshal enc b) :
    ∃ c, prim env fuel p v = .ok c ∧ ∀ w, C70.jsonOf enc.toJson c = .ok w → Spec.Json.Plain enc.repr w →
      (∃ body, r'.data = .payload body ∧ Spec.Json.readJson body = some w) ∧
      ∀ n, renv.lower n = renv.lower c!"Content-Type" → renv.lower n ≠ renv.lower c!"Accept" →
        C24.bodyType op.consumes r.consume ≠ [] →
        CIDict.getitem renv.lower r'.header n = .ok (C24.bodyType op.consumes r.consume) := by
  obtain ⟨s, hs, rfl⟩ := ask_ok ha
  obtain ⟨c, hc, -, -, -, -, hb⟩ := supplied hs hS
  have hb := hb hin
  refine ⟨c, hc, fun w hw hpl => ?_⟩
  obtain ⟨ct, d, fs, hd, rfl, -, hk⟩ := C63.C63_headers renv op sch hf _ _ rfl hp
  have hpay := C63.C63_payload renv op _ _ hf ct _ fs hd
  rw [if_neg (by simp [hfile]), if_neg (by simp [hform])] at hpay
  have hne : (init op (paramsOf files s) : Req (Prim ω) Str).p.body ≠ [] := by
    intro h0
    have : s.body = [] := h0
    rw [this] at hb; cases hb
  rw [if_pos hne] at hpay
  have hfind : ∃ q, op.parameters.find? (fun q => q.in_ = c!"body") = some q ∧ q.name = p.name := by
    have hmem : (p.name, p.in_) ∈ op.parameters.map (fun d => (d.name, d.in_)) := by
      rw [hop]; exact List.mem_map.2 ⟨p, hS.declared, rfl⟩
    obtain ⟨q0, hq0, e0⟩ := List.mem_map.1 hmem
    simp only [Prod.mk.injEq] at e0
    cases hq : op.parameters.find? (fun q => q.in_ = c!"body") with
    | none =>
      have := List.find?_eq_none.1 hq q0 hq0
      simp [e0.2, hin] at this
    | some q =>
      have h1 := List.mem_of_find?_eq_some hq
      have h2 := List.find?_some hq
      have : (q.name, q.in_) ∈ ps.map fun q => (q.name, q.in_) := by
        rw [← hop]; exact List.mem_map.2 ⟨q, h1, rfl⟩
      obtain ⟨q', hq', e'⟩ := List.mem_map.1 this
      simp only [Prod.mk.injEq] at e'
      exact ⟨q, rfl, by rw [← e'.1]; exact hone q' hq' (by rw [e'.2]; simpa using h2)⟩
  obtain ⟨q, hq, hqn⟩ := hfind
  rw [hq] at hpay
  obtain ⟨sc, b, x, -, hx1, hx2, hx3⟩ := hpay
  have : b = c := by
    have h3 : Dict.get? s.body q.name = some b := hx1
    rw [hqn, hb] at h3
    exact (Option.some.inj h3).symm
  subst this
  rw [hm] at hx2
  obtain ⟨t, t1, t2, -⟩ := C70.C70_body enc b w hw hpl
  rw [t1] at hx2
  cases hx2
  refine ⟨⟨x, hx3, t2⟩, fun n h1 h2 h3 => ?_⟩
  have hct : ct = some (C24.bodyType op.consumes (init op (paramsOf files s) : Req (Prim ω) Str).consume) := by
    cases ct with
    | none =>
      exfalso
      unfold prepareData at hd
      rw [if_neg (by simp [hfile]), if_neg (by simp [hform]), if_pos hne] at hd
      split at hd
      · cases hd
      · next hnone =>
        simp only [Except.ok.injEq, Prod.mk.injEq] at hd
        rw [hx3] at hd
        exact absurd hd.2.1 (by simp)
      · cases hd
    | some ct =>
      rcases C24.C24_content_type renv op _ _ hf ct _ fs hd with h | h | h
      · exact absurd hfile h.1
      · exact absurd hform h.2.1
      · rw [h.2.2.2.1]
  rw [hk n, if_neg (fun h => h2 h.1), hct, if_pos ⟨h1, by simp, by simpa using h3⟩]
  rfl

/-! ## A concrete case -/

def theObjs : Nat → Node
  | 0 => { type := some c!"string" }
  | 1 => { type := some c!"array", items := some 0, collectionFormat := some c!"multi" }
  | 2 => {}
  | _ => { type := some c!"string" }

def theParams : List Decl :=
  [⟨c!"id", c!"path", true, 0, none⟩, ⟨c!"tag", c!"query", false, 1, none⟩, ⟨c!"X", c!"header", false, 0, none⟩,
   ⟨c!"note", c!"body", false, 2, some 3⟩]

def theArgs : Dict Str Val :=
  [(c!"id", .str c!"a/b c"), (c!"tag", .list [.str c!"x", .str c!"y"]), (c!"X", .str c!"1"), (c!"note", .str c!"say \"é\"")]

def theOp : Op Unit := ⟨c!"//h/api/pets/{id}/notes", c!"/pets/{id}/notes", c!"post", [], [], [c!"http"], none,
  [⟨c!"id", c!"path", .ok ()⟩, ⟨c!"tag", c!"query", .ok ()⟩, ⟨c!"X", c!"header", .ok ()⟩, ⟨c!"note", c!"body", .ok ()⟩]⟩

def theEnv : Io.Env (Prim Nat) Unit Str := ⟨fun _ b _ => Prim.Json.marshal C70.enc b, List.map Char.toLower,
  fun _ _ => .ok [], fun s => .ok (utf8 s), fun _ => .ok [], c!"b"⟩

def theFiles : FileArg Nat → FileVal := fun _ => .many []

def theRoute : List Seg := [.lit c!"pets", .hole c!"id", .lit c!"notes"]

def theAsk : Except Exc (Req (Prim Nat) Str) := ask (C33.world theObjs) C31.leaf 9 theParams theFiles theOp theArgs

def thePrepared : Except Exc (Req (Prim Nat) Str) :=
  match theAsk with
  | .ok r => prepare theEnv theOp (.str c!"http") true r
  | .error e => .error e

/-! what a server sees of it -/
example : thePrepared.toOption.map (fun r => readPath true theRoute r.path) = some (some [(c!"id", c!"a/b c")]) := by
  decide +kernel
example : thePrepared.toOption.map (fun r => r.p.query) = some [(c!"tag", c!"x"), (c!"tag", c!"y")] := by
  decide +kernel
example : thePrepared.toOption.map (fun r => (CIDict.getitem theEnv.lower r.header c!"x").toOption) = some (some c!"1") := by
  decide +kernel
example : thePrepared.toOption.map (fun r => r.url) = some c!"http://h/api/pets/a%2Fb+c/notes" := by decide +kernel
example : thePrepared.toOption.map (fun r => match r.data with
    | .payload b => Spec.Json.readJson b
    | _ => none) = some (some (.str c!"say \"é\"")) := by decide +kernel

example : Plain theRoute ∧ theOp.path = written theRoute ∧ theOp.url = c!"//" ++ c!"h" ++ written (.lit c!"api" :: theRoute) := by
  refine ⟨fun g hg => ?_, by decide, by decide⟩
  simp only [theRoute, List.mem_cons, List.not_mem_nil, or_false] at hg
  rcases hg with rfl | rfl | rfl <;> decide

/-- every parameter of the example is supplied -/
example : Supplied (C33.world theObjs) theParams theArgs ⟨c!"tag", c!"query", false, 1, none⟩
    (.list [.str c!"x", .str c!"y"]) where
  distinct := by decide
  declared := by simp [theParams]
  noFile := by decide
  noFiles := by
    rintro ⟨it, h1, h2⟩
    have : it = 0 := by simpa [C33.world, theObjs] using h1.symm
    subst this; simp [C33.world, theObjs] at h2
  given := rfl

/-- **C72, refuted for servers that read paths by RFC 3986.** A `+` is no blank there, so an argument with a blank
arrives with a plus sign. -/
theorem C72_blank_false (v : Str) (h : ' ' ∈ v) : readText false (quote_plus v) ≠ some v := by
  intro he
  have key : ∀ l : Bytes, (32 : UInt8) ∈ l → percentDecode false (l.flatMap qpByte) ≠ some l := by
    intro l hl
    induction l with
    | nil => cases hl
    | cons b l ih =>
      intro h
      rw [List.flatMap_cons] at h
      by_cases hb : b.toNat = 32
      · have hq : qpByte b = ['+'] := by rw [qpByte, if_pos hb]
        rw [hq, List.singleton_append, percentDecode_cons _ (by decide) (by decide)] at h
        cases hd : percentDecode false (l.flatMap qpByte) with
        | none => rw [hd] at h; cases h
        | some x =>
          rw [hd] at h
          simp only [Bool.false_and, Bool.false_eq_true, if_false, Option.map_some, Option.some.injEq, List.cons.injEq] at h
          have := congrArg UInt8.toNat h.1
          rw [hb] at this
          exact absurd this (by decide)
      · rw [percentDecode_qpByte' (.inr hb)] at h
        have hl' : (32 : UInt8) ∈ l := by
          rcases List.mem_cons.1 hl with rfl | hl
          · exact absurd rfl hb
          · exact hl
        cases hd : percentDecode false (l.flatMap qpByte) with
        | none => rw [hd] at h; cases h
        | some x =>
          rw [hd] at h
          simp only [Option.map_some, Option.some.injEq, List.cons.injEq, true_and] at h
          exact ih hl' (by rw [hd, h])
  unfold readText at he
  rw [quote_plus_eq] at he
  cases hd : percentDecode false ((utf8 v).flatMap qpByte) with
  | none => rw [hd] at he; cases he
  | some x =>
    rw [hd] at he
    have := utf8_of_decode he
    exact key (utf8 v) ((mem_utf8_ascii (a := ' ') (by decide)).2 h) (by rw [hd, this])

end Props.C72
