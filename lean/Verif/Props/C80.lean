import Verif.Proofs.Reply
import Verif.Props.C79World
/-!
# C80: a reply that conforms to the documented schema is accepted, and its data is that value

`MeansAs W cResponse k i q` says that the Response object `i` is declared by the dict `q` of the document, after `k`
references. C29 says which declaration a reply is read by, C30 which codec, C70 what JSON texts stand for, C78 which
objects the schemas are, C79 what conversion does with values that conform.
-/

namespace Props.C80
open Py Tree _root_.Doc Prim Spec.Described Spec.SchemaDoc Spec.Conform Spec.Reply Io Props.C78 Props.C79
open Proofs.Reply

variable {ω : Type} {W : MergeRefs.World} {order : List Atom → List Atom} {env : Prim.Env ω} {ref : Nat → Option Nat}
  {B : Nat → Dict Str Tree → Prop}
  {fuel : Nat} {look : Str → Option (Dict Str Tree)} {S : Dict Str Tree → Prop} {form : Str → Str → Prop} {N : Prop}
  {toJson : AtomKind → ω → Except Exc Str} {ids : Dict Str Nat} {table : Dict Str (RespDecl Nat Nat)} {o : Reply.Outside}

/-- **C80, declarations.** The entry a reply is read by is the one the document has for its status, `default` if there is
none, whatever references it is behind: its schema belongs to the schema written there, its headers are declared as
written there, and nothing else is declared. -/
theorem C80_entry (ho : ∀ l, (order l).Perm l) (ht : Reply.Table env ref W order fuel ids table) (n : Int) :
    (entryFor ids n = none → C28.entry table (some n) = none) ∧
    ∀ i, entryFor ids n = some i → ∃ r, C28.entry table (some n) = some r ∧ ∀ k q, MeansAs W cResponse k i q →
      (∀ s, Dict.get? q c!"schema" = some (.dict s) → ∃ m, r.schema = some m ∧ Belongs env ref W m s) ∧
      ((∀ s, Dict.get? q c!"schema" ≠ some (.dict s)) → r.schema = none) ∧
      ∀ x, (headerAt q x = none → Dict.get? r.headers x = none) ∧
        ∀ d, headerAt q x = some (.dict d) → ∃ m, Dict.get? r.headers x = some m ∧ Described env m d := by
  obtain ⟨h1, h2⟩ := entry_get ht n
  refine ⟨h1, fun i hi => ?_⟩
  obtain ⟨r, t, h3, h4, h5⟩ := h2 i hi
  refine ⟨r, h3, fun k q hm => ⟨fun s hs => ?_, (schema_of ho hm h4 h5).2, header_of ho hm h4 h5⟩⟩
  obtain ⟨m, p, w, g1, g2, g3, g4⟩ := (schema_of ho hm h4 h5).1 s hs
  exact ⟨m, g1, p, w, g2, g3, .inr g4⟩

/-- the media type of the reply -/
theorem announced_json {stack : Nat} {r : RespDecl Nat Nat} {q : Dict Str Tree} {hd : List (Str × Str)}
    (hl : o.text.lower c!"content-type" = c!"content-type") (hj : JsonType o c!"application/json")
    (hh : ∀ x, headerAt q x = none → Dict.get? r.headers x = none)
    (hct : ∀ e ∈ hd, o.text.lower e.1 = c!"content-type" → headerAt q e.1 = none ∧ JsonType o (o.text.lower e.2)) :
    ∃ ct, C29.announced (Reply.renv o env stack) (C28.kept (Reply.renv o env stack) (some r) hd) = .ok ct ∧ JsonType o ct := by
  unfold C29.announced
  cases hu : C28.under (Reply.renv o env stack).lower c!"content-type" (C28.kept (Reply.renv o env stack) (some r) hd) with
  | nil => exact ⟨_, rfl, hj⟩
  | cons x l =>
    have hx : x ∈ C28.under (Reply.renv o env stack).lower c!"content-type"
        (C28.kept (Reply.renv o env stack) (some r) hd) := by rw [hu]; exact List.mem_cons_self ..
    obtain ⟨⟨k, y⟩, hk, rfl⟩ := List.mem_map.1 hx
    obtain ⟨hk, hlow⟩ := List.mem_filter.1 hk
    obtain ⟨v, hv, hval⟩ := kept_mem hk
    have hlow : o.text.lower k = c!"content-type" := by
      have : o.text.lower c!"content-type" = o.text.lower k := of_decide_eq_true hlow
      rw [← this, hl]
    obtain ⟨g1, g2⟩ := hct _ hv hlow
    unfold C28.value at hval
    rw [Option.bind_some, hh k g1] at hval
    cases hval
    exact ⟨_, rfl, g2⟩

/-- **C80.** A reply with a status the document declares, a JSON body (text or UTF-8 bytes) that conforms to the schema
declared for the status and, if any is sent, a JSON media type is accepted, given a stack deep enough for the value: the
data stands for the very JSON value that was sent. -/
theorem C80_reply (ho : ∀ l, (order l).Perm l) (hset : Setting env B look S) (hown : Own env)
    (hback : Back env toJson form) (hneu : ∀ q, S q → Neutral False q)
    (hloads : ∀ s v, Spec.Json.readJson s = some v → o.loads s = .ok v)
    (hl : o.text.lower c!"content-type" = c!"content-type") (hj : JsonType o c!"application/json")
    (ht : Reply.Table env ref W order fuel ids table) {n : Int} {k i : Nat} (hi : entryFor ids n = some i)
    {q s : Dict Str Tree} (hm : MeansAs W cResponse k i q) (hs : Dict.get? q c!"schema" = some (.dict s)) (hS : S s)
    (hB : ∀ m, Belongs env ref W m s → B m s)
    {txt : Str} {raw : Bytes ⊕ Str} (hraw : raw = .inr txt ∨ raw = .inl (utf8 txt)) {w : Val}
    (hw : Spec.Json.readJson txt = some w) (hc : Conforms look form N s w)
    (hn : w = .none → ∃ d, Leads look s d) {hd : List (Str × Str)}
    (hct : ∀ e ∈ hd, o.text.lower e.1 = c!"content-type" → headerAt q e.1 = none ∧ JsonType o (o.text.lower e.2)) :
    ∃ F, ∀ stack, F ≤ stack →
      (∀ e ∈ hd, (C28.value (Reply.renv o env stack) (C28.entry table (some n)) e.1 e.2).isOk) →
      ∃ x w', (applyWith (Reply.renv o env stack) table Resp.init ⟨some n, some raw, some hd⟩).2 = none ∧
        (applyWith (Reply.renv o env stack) table Resp.init ⟨some n, some raw, some hd⟩).1.data = some x ∧
        C70.jsonOf toJson x = .ok w' ∧ Same w w' := by
  obtain ⟨r, hr, hdecl⟩ := (C80_entry ho ht n).2 i hi
  obtain ⟨h1, -, h3⟩ := hdecl k q hm
  obtain ⟨m, hsm, hb⟩ := h1 s hs
  replace hb := hB m hb
  have hfor := readJson_foreign hw
  obtain ⟨F, hF⟩ := C79_accepted hset hown hback hneu hc hb hS hfor
  refine ⟨F, fun stack hst hok => ?_⟩
  obtain ⟨x, w', hx, hj', hsame⟩ := (hF.mono hst) true (.inl rfl)
  obtain ⟨ct, hann, hjt⟩ := announced_json (env := env) (stack := stack) hl hj (fun x => (h3 x).1) hct
  have hun : Prim.Json.unmarshal o.loads raw = .ok w := by
    obtain ⟨u1, u2⟩ := C70.C70_unmarshal o.loads hloads txt w hw
    rcases hraw with rfl | rfl
    · exact u1
    · exact u2
  obtain ⟨d, hder⟩ : ∃ d, env.deref m = .ok d := by
    by_cases hwn : w = .none
    · obtain ⟨d, hlead⟩ := hn hwn
      obtain ⟨i, h, -⟩ := (hset.leads hb).2 d hlead
      exact ⟨i, h⟩
    · obtain ⟨_, i, -, h⟩ := deref_ok (by unfold effective; rw [if_neg hwn]; exact hwn) hx
      exact ⟨i, h⟩
  have hint : C29.interpret (Reply.renv o env stack) ((C28.entry table (some n)).bind (·.schema)) false
      (C28.kept (Reply.renv o env stack) (C28.entry table (some n)) hd) raw = .ok (some x) := by
    rw [hr]
    simp only [Option.bind_some, hsm, C29.interpret, hann, bind, Except.bind]
    simp only [Reply.renv, hder, json_codec hjt, hun, hx]
    rfl
  obtain ⟨g1, g2⟩ := C29.C29_once (Reply.renv o env stack) table false n raw _ (some x) hl hok hint
  exact ⟨x, w', g2, g1, hj', hsame⟩

/-- **C80, soundness.** Whatever was received before and whatever is received now: if the call delivers a body under a
status the document declares a schema for and raises nothing, the data conforms to that schema. `N` decides if the body
and the defaults in the document may hold nulls. -/
theorem C80_data (ho : ∀ l, (order l).Perm l) (hset : Setting env B look S) (hdef : ∀ q, S q → Defaults N q)
    (hform : Forms env toJson form) (hl : o.text.lower c!"content-type" = c!"content-type")
    (ht : Reply.Table env ref W order fuel ids table) {stack : Nat} (cs : List (RespCall (Bytes ⊕ Str)))
    (c : RespCall (Bytes ⊕ Str)) {raw : Bytes ⊕ Str} (hraw : c.raw = some raw) {n : Int}
    (hn : C28.latest ((cs ++ [c]).map (·.status)) none = some n) {k i : Nat} (hi : entryFor ids n = some i)
    {q s : Dict Str Tree} (hm : MeansAs W cResponse k i q) (hs : Dict.get? q c!"schema" = some (.dict s)) (hS : S s)
    (hB : ∀ m, Belongs env ref W m s → B m s)
    (hval : ∀ ct v, Codec.withCodec o.text o.codecs ct (o.unmarshal raw) = .ok v → Proper N v)
    (hok : (applyWith (Reply.renv o env stack) table
      { applyAll (Reply.renv o env stack) table Resp.init cs with rawBodyOnly := false } c).2 = none) :
    ∃ x, (applyWith (Reply.renv o env stack) table
      { applyAll (Reply.renv o env stack) table Resp.init cs with rawBodyOnly := false } c).1.data = some x ∧
      ∀ w, C70.jsonOf toJson x = .ok w → Spec.Json.nonfinite w = false → Conforms look form N s w := by
  obtain ⟨r, hr, hdecl⟩ := (C80_entry ho ht n).2 i hi
  obtain ⟨h1, -, -⟩ := hdecl k q hm
  obtain ⟨m, hsm, hb⟩ := h1 s hs
  replace hb := hB m hb
  have hhd : ∀ e ∈ c.header.getD [], (C28.value (Reply.renv o env stack) (C28.entry table (some n)) e.1 e.2).isOk := by
    obtain ⟨hinv, -, -⟩ := C28.applyAll_spec (Reply.renv o env stack) table cs Resp.init (C28.inv_nil _)
    have hst : c.status.or (applyAll (Reply.renv o env stack) table Resp.init cs).status = some n := by
      rw [← hn, C28.C28_status]
      simp only [C28.latest, List.map_append, List.foldl_append, List.map_cons, List.map_nil, List.foldl_cons, List.foldl_nil]
      cases c.status <;> rfl
    refine (C28.addHeaders_spec (Reply.renv o env stack) _ _ _ hinv).2.2.1 ?_
    cases hadd : (addHeaders (Reply.renv o env stack) (C28.entry table (some n))
        (applyAll (Reply.renv o env stack) table Resp.init cs).header (c.header.getD [])) with
    | mk d e =>
      cases e with
      | none => rfl
      | some e =>
        unfold applyWith at hok
        simp only [hst, C28.respDecl_eq, hadd] at hok
        cases hok
  obtain ⟨g1, g2⟩ := C29.C29_body (Reply.renv o env stack) table cs false c raw n hl hraw hn hhd
  rw [g2, hr] at hok
  rw [g1, hr]
  simp only [Option.bind_some, hsm, C29.interpret] at hok ⊢
  cases ha : C29.announced (Reply.renv o env stack) (C28.received (Reply.renv o env stack) table none (cs ++ [c])) with
  | error e => simp only [ha, bind, Except.bind] at hok; cases hok
  | ok ct =>
  cases hd : (Reply.renv o env stack).deref m with
  | error e => simp only [ha, hd, bind, Except.bind] at hok; cases hok
  | ok t =>
  cases hu : (Reply.renv o env stack).unmarshal ct raw t with
  | error e => simp only [ha, hd, hu, bind, Except.bind] at hok; cases hok
  | ok u =>
  cases hp : (Reply.renv o env stack).prim m u with
  | error e => simp only [ha, hd, hu, hp, bind, Except.bind] at hok; cases hok
  | ok x =>
    simp only [hu, hp, bind, Except.bind, pure, Except.pure]
    exact ⟨x, rfl, fun w hw hfin => C79_conforms hset hdef hform hb hS (hval ct u hu) hp hw hfin⟩

/-! ## a concrete case: a linked list is sent back -/

/-- `#/responses/Many`: the list of C78, and how many there are -/
def manyQ : Dict Str Tree := [(c!"schema", .dict nextQ),
  (c!"headers", .dict [(c!"X-Count", .dict [(c!"type", txt c!"integer"), (c!"minimum", .atom (.int 1))])])]

def countFs : List (Str × Tree) := assemble headerCls [(c!"type", txt c!"integer"), (c!"minimum", .atom (.int 1))]
def manyFs : List (Str × Tree) := assemble responseCls
  [(c!"schema", .obj cSchema nextFs), (c!"headers", .dict [(c!"X-Count", .obj cHeader countFs)])]

/-- what is read of a reference to it -/
def finalFs : List (Str × Tree) := assemble responseCls [(c!"$ref", txt c!"u#/responses/Many"),
  (c!"schema", .obj cSchema nextFs), (c!"headers", .dict [(c!"X-Count", .obj cHeader countFs)])]

/-- the list, the response, a reference to it -/
def docs : MergeRefs.World where
  content
    | 0 => .obj cSchema listFs
    | 1 => .obj cResponse manyFs
    | _ => .obj cResponse (assemble responseCls [(c!"$ref", txt c!"u#/responses/Many")])
  resolve r := if r = c!"u#/definitions/List" then .ok 0 else if r = c!"u#/responses/Many" then .ok 1 else .error .KeyError

/-- the objects of C79, and the header -/
def objs : Nat → Node
  | 3 => _root_.Effective.nodeOf cHeader countFs none
  | n => C78.objs n

def manyEnv : Env World.Atom := envOf objs

theorem many_means : MeansAs docs cResponse 1 2 manyQ :=
  .ref (r := c!"u#/responses/Many") (by simp) rfl rfl (.inline (by rfl) (by rfl))

theorem list_shown : Schemas.Shows manyEnv refs docs 0 (.obj cSchema listFs) := by
  have hv : Schemas.Shows manyEnv refs docs 1 (.obj cSchema valueFs) :=
    .intro rfl (.none rfl) .nil .nil (.bool (b := true)) rfl
  have hn : Schemas.Shows manyEnv refs docs 2 (.obj cSchema nextFs) :=
    .intro rfl (.none rfl) .nil .nil (.bool (b := true)) rfl
  exact .intro rfl (.none rfl) .nil (.cons hv (.cons hn .nil)) (.bool (b := false)) rfl

def many : RespDecl Nat Nat := ⟨[(c!"X-Count", 3)], some 2⟩

theorem many_table : Reply.Table manyEnv refs docs id 2 [(c!"200", 2)] [(c!"200", many)] := by
  refine .cons (t := .obj cResponse finalFs) ?_ ⟨.cons ?_ .nil, .some ?_⟩ .nil
  · rfl
  · exact .plain rfl rfl
  · exact .intro rfl (.none rfl) .nil .nil (.bool (b := true)) rfl

theorem manySetting : Read manyEnv refs docs C78.look lists where
  derefs := listSetting.derefs
  known := by
    intro r j hr hc
    unfold docs at hr
    dsimp only at hr
    split at hr
    · next h =>
      cases hr
      exact ⟨list_shown, listQ, by unfold C78.look; rw [if_pos h], rfl⟩
    · split at hr
      · cases hr; cases hc
      · cases hr
  closed := lists_closed
  handlers := rfl
  order l := List.Perm.refl _
  distinct n := by
    show Dict.WF (objs n).properties
    match n with
    | 0 => decide
    | 1 => exact List.nodup_nil
    | 2 => exact List.nodup_nil
    | 3 => exact List.nodup_nil
    | n + 4 => exact List.nodup_nil
  values := listSetting.values
  names _ _ _ _ hq _ _ hm h := (lists_tags hq hm h).elim

/-- codecs and `json.loads` as they are -/
def outside (loads : Str → Except Exc Val) : Reply.Outside :=
  ⟨⟨fun s => s.map Char.toLower, fun c => c = ' '⟩, Codec.init ⟨fun s => s.map Char.toLower, fun c => c = ' '⟩ .plain .json,
    loads, fun _ => 0⟩

theorem json_types (loads : Str → Except Exc Val) (params : Str) (hp : params = [] ∨ ∃ q, params = ';' :: q) :
    JsonType (outside loads) (c!" application/json " ++ params) ∧ JsonType (outside loads) c!"application/json" := by
  have hb : ∀ x ∈ c!" ", (outside loads).text.blank x = true := by
    intro x hx; cases List.mem_singleton.1 hx; rfl
  refine ⟨⟨[], c!" ", c!"application/json", c!" ", params, rfl, hb, hb, ?_, ?_, by decide, hp, rfl, rfl⟩,
    ⟨[], [], c!"application/json", [], [], rfl, by simp, by simp, ?_, ?_, by decide, .inl rfl, rfl, rfl⟩⟩ <;>
  · intro x hx; cases hx; rfl

/-- a reply `{"v": 7, "next": {"v": 8}}` with headers -/
example (loads : Str → Except Exc Val) (hloads : ∀ s v, Spec.Json.readJson s = some v → loads s = .ok v) :
    ∃ F, ∀ stack, F ≤ stack → ∃ x w',
      (applyWith (Reply.renv (outside loads) manyEnv stack) [(c!"200", many)] Resp.init
        ⟨some 200, some (.inr c!"{\"v\": 7, \"next\": {\"v\": 8}}"),
          some [(c!"Content-TYPE", c!" Application/JSON ; charset=utf-8"), (c!"X-Other", c!"x")]⟩).1.data = some x ∧
      C70.jsonOf World.toJson x = .ok w' ∧ Same two w' := by
  obtain ⟨F, hF⟩ := C80_reply (o := outside loads) (raw := .inr c!"{\"v\": 7, \"next\": {\"v\": 8}}") (n := 200)
    (hd := [(c!"Content-TYPE", c!" Application/JSON ; charset=utf-8"), (c!"X-Other", c!"x")])
    (fun l => List.Perm.refl _) manySetting.setting (C79_own _ _) (C79_back _ _) (lists_neutral _) hloads (by rfl)
    (json_types loads [] (.inl rfl)).2 many_table (by rfl) many_means (by rfl) (.inr (.inr rfl)) (fun _ h => h) (.inl rfl)
    (w := two) (by decide +kernel) (two_conforms (.go (r := c!"u#/definitions/List") rfl rfl (.stop rfl)))
    (fun h => by cases h) (by
      intro e he hct
      rcases List.mem_cons.1 he with rfl | he
      · exact ⟨rfl, (json_types loads c!"; charset=utf-8" (.inr ⟨_, rfl⟩)).1⟩
      · cases List.mem_singleton.1 he
        have : c!"x-other" ≠ c!"content-type" := by decide
        exact absurd hct this)
  refine ⟨F, fun stack hs => ?_⟩
  obtain ⟨x, w', -, h2, h3, h4⟩ := hF stack hs (by
    intro e he
    rcases List.mem_cons.1 he with rfl | he
    · rfl
    · cases List.mem_singleton.1 he; rfl)
  exact ⟨x, w', h2, h3, h4⟩

/-- the data of such a reply conforms, and the header was converted -/
example : ∃ x, (applyWith (Reply.renv (outside fun _ => .ok two) manyEnv 9) [(c!"200", many)]
      { applyAll (Reply.renv (outside fun _ => .ok two) manyEnv 9) [(c!"200", many)] Resp.init
        [⟨some 200, none, some [(c!"X-Count", c!"2")]⟩] with rawBodyOnly := false }
      ⟨none, some (.inr c!"{\"v\": 7, \"next\": {\"v\": 8}}"), none⟩).1.data = some x ∧
    ∀ w, C70.jsonOf World.toJson x = .ok w → Spec.Json.nonfinite w = false →
      Conforms C78.look (Texts fun _ => true = true) False nextQ w := by
  refine C80_data (fun l => List.Perm.refl _) manySetting.setting
    (fun q hq t ht => by rcases hq with rfl | rfl | rfl <;> cases ht)
    (C79_formats (w := plainWorld) ⟨fun _ _ h => (by cases h), fun _ _ h => (by cases h), fun _ _ h => (by cases h),
      fun _ _ h => (by cases h), fun _ _ h => (by cases h)⟩ (fun _ _ h => by cases h) _)
    (by rfl) many_table _ _ rfl (n := 200) rfl (by rfl) many_means (by rfl) (.inr (.inr rfl)) (fun _ h => h) ?_ (by rfl)
  intro ct v hv
  have hp : Proper False two := by simp [two, Proper, ProperPairs]
  unfold Codec.withCodec at hv
  split at hv
  · cases hv
  · next k hk =>
    have hmem : (_, k) ∈ [(c!"text/plain", Reply.Kind.plain), (c!"application/json", .json), (c!"text/json", .json)] :=
      Dict.mem_of_get? hk
    simp only [List.mem_cons, Prod.mk.injEq, List.not_mem_nil, or_false] at hmem
    rcases hmem with ⟨-, rfl⟩ | ⟨-, rfl⟩ | ⟨-, rfl⟩
    · cases hv; simp [Proper, Reply.Outside.given]
    · cases hv; exact hp
    · cases hv; exact hp

end Props.C80
