import Verif.Model.Attempt
import Verif.Model.Clients
import Verif.Props.C20
/-!
# C101: a request can be sent again after a failure, by any client

A caller may send a request several times: after an exception, with another client, with other options, or with new credentials.
-/

namespace Props.C101
open Py Utils Io Core Clients

variable {β δ π : Type}

/-- The credentials of the first client go to the same places of a request for `op` as those of the second: the first has none, or both
have the same of the schemes named by the operation, and each of them is sent under one name in one place. -/
def SamePlaces (op : Op δ) (i j : Option (Dict Str Cred)) : Prop :=
  i = none ∨ ∃ a b, i = some a ∧ j = some b ∧ ∀ l, op.security = some l → ∀ s ∈ l, ∀ k ∈ Dict.keys s,
    (Dict.get? a k).map (fun c => (c.header, c.key)) = (Dict.get? b k).map (fun c => (c.header, c.key))

/-- what a caller sets -/
def Event.setting : Event β δ π → Bool
  | .request .. => false
  | _ => true

/-- no open stream among the files -/
def Named (p : Params β) : Prop := ∀ e ∈ p.file, ∀ f ∈ e.2.files, f.data = none

/-! ## replacing again -/

theorem replaceAll_again {α γ : Type} [DecidableEq α] (l vs ws : List (α × γ)) (h : vs.map Prod.fst = ws.map Prod.fst) :
    replaceAll (replaceAll l vs) ws = replaceAll l ws := by
  have hk : ∀ k ∈ ws.map Prod.fst, ∃ w, lastOf ws k = some w ∧ w.1 = k := by
    intro k hk
    cases hl : lastOf ws k with
    | none =>
      obtain ⟨w, hw, rfl⟩ := List.mem_map.1 hk
      exact absurd rfl (lastOf_none.1 hl w hw)
    | some w => exact ⟨w, rfl, (lastOf_some hl).2⟩
  have hfst : ∀ x : α × γ, ((lastOf ws x.1).getD x).1 = x.1 := by
    intro x
    cases hl : lastOf ws x.1 with
    | none => rfl
    | some w => exact (lastOf_some hl).2
  have hstep : ∀ (a b : List (α × γ)) (v w : α × γ), v.1 = w.1 → w.1 ∈ ws.map Prod.fst →
      a.map (fun x => (lastOf ws x.1).getD x) = b.map (fun x => (lastOf ws x.1).getD x) →
      (nv_tuple_list_replace a v).map (fun x => (lastOf ws x.1).getD x) = (nv_tuple_list_replace b w).map (fun x => (lastOf ws x.1).getD x) := by
    intro a b v w hvw hw hab
    obtain ⟨u, hu, -⟩ := hk _ hw
    have hnames : a.map Prod.fst = b.map Prod.fst := by
      have := congrArg (List.map Prod.fst) hab
      simpa only [List.map_map, Function.comp_def, hfst] using this
    have hex : (∃ x ∈ a, x.1 = v.1) ↔ (∃ x ∈ b, x.1 = w.1) := by
      have e1 : (∃ x ∈ a, x.1 = v.1) ↔ v.1 ∈ a.map Prod.fst := by simp
      have e2 : (∃ x ∈ b, x.1 = w.1) ↔ w.1 ∈ b.map Prod.fst := by simp
      rw [e1, e2, hnames, hvw]
    have hmap : ∀ (c : List (α × γ)) (z : α × γ), z.1 = w.1 → (c.map (fun x => if x.1 = z.1 then z else x)).map (fun x => (lastOf ws x.1).getD x) =
        c.map (fun x => (lastOf ws x.1).getD x) := by
      intro c z hz
      rw [List.map_map]
      refine List.map_congr_left fun x _ => ?_
      simp only [Function.comp]
      by_cases hx : x.1 = z.1
      · rw [if_pos hx, hx, hz, hu]; rfl
      · rw [if_neg hx]
    rw [C17.C17_result, C17.C17_result]
    by_cases he : ∃ x ∈ b, x.1 = w.1
    · rw [if_pos (hex.2 he), if_pos he, hmap _ _ hvw, hmap _ _ rfl, hab]
    · rw [if_neg fun h => he (hex.1 h), if_neg he, List.map_append, List.map_append, hab]
      simp [hvw, hu]
  have hall : ∀ (vs' ws' a b : List (α × γ)), vs'.map Prod.fst = ws'.map Prod.fst → (∀ w ∈ ws', w.1 ∈ ws.map Prod.fst) →
      a.map (fun x => (lastOf ws x.1).getD x) = b.map (fun x => (lastOf ws x.1).getD x) →
      (replaceAll a vs').map (fun x => (lastOf ws x.1).getD x) = (replaceAll b ws').map (fun x => (lastOf ws x.1).getD x) := by
    intro vs'
    induction vs' with
    | nil =>
      intro ws' a b h1 _ h3
      cases ws' with
      | nil => exact h3
      | cons w ws' => cases h1
    | cons v vs' ih =>
      intro ws' a b h1 h2 h3
      cases ws' with
      | nil => cases h1
      | cons w ws' =>
        simp only [List.map_cons, List.cons.injEq] at h1
        exact ih ws' _ _ h1.2 (fun x hx => h2 x (List.mem_cons_of_mem _ hx)) (hstep a b v w h1.1 (h2 w (by simp)) h3)
  have e1 : replaceAll (replaceAll l vs) ws = (replaceAll l vs).map (fun x => (lastOf ws x.1).getD x) := by
    refine replaceAll_of_present _ _ fun w hw => ?_
    rw [mem_names_replaceAll, h]
    exact .inr (List.mem_map.2 ⟨w, hw, rfl⟩)
  have e2 : replaceAll l ws = (replaceAll l ws).map (fun x => (lastOf ws x.1).getD x) := by
    conv => lhs; rw [← replaceAll_idem]
    refine replaceAll_of_present _ _ fun w hw => ?_
    rw [mem_names_replaceAll]
    exact .inr (List.mem_map.2 ⟨w, hw, rfl⟩)
  rw [e1, e2]
  exact hall vs ws l l h (fun w hw => List.mem_map.2 ⟨w, hw, rfl⟩) rfl

theorem pairs_names (names : List Str) (a b : Dict Str Cred)
    (h : ∀ k ∈ names, (Dict.get? a k).map (fun c => (c.header, c.key)) = (Dict.get? b k).map (fun c => (c.header, c.key))) :
    (C18.headerPairs (names.filterMap (Dict.get? a))).map Prod.fst = (C18.headerPairs (names.filterMap (Dict.get? b))).map Prod.fst ∧
    (C18.queryPairs (names.filterMap (Dict.get? a))).map Prod.fst = (C18.queryPairs (names.filterMap (Dict.get? b))).map Prod.fst := by
  induction names with
  | nil => exact ⟨rfl, rfl⟩
  | cons k ks ih =>
    have hk := h k (by simp)
    obtain ⟨h1, h2⟩ := ih fun x hx => h x (List.mem_cons_of_mem _ hx)
    unfold C18.headerPairs C18.queryPairs at *
    cases ha : Dict.get? a k with
    | none =>
      cases hb : Dict.get? b k with
      | none => simp only [List.filterMap_cons, ha, hb]; exact ⟨h1, h2⟩
      | some y => rw [ha, hb] at hk; cases hk
    | some x =>
      cases hb : Dict.get? b k with
      | none => rw [ha, hb] at hk; cases hk
      | some y =>
        rw [ha, hb] at hk
        simp only [Option.map_some, Option.some.injEq, Prod.mk.injEq] at hk
        simp only [List.filterMap_cons, ha, hb, hk.1]
        cases y.header with
        | true => simp only [if_true, List.map_cons, hk.2, h1, h2, and_self]
        | false => simp only [Bool.false_eq_true, if_false, List.map_cons, hk.2, h1, h2, and_self]

theorem WF_sets (vs : List (Str × Str)) : ∀ (d : Dict Str Str), Dict.WF d → Dict.WF (vs.foldl (fun d v => Dict.set d v.1 v.2) d) := by
  induction vs with
  | nil => intro d h; exact h
  | cons v vs ih => intro d h; exact ih _ (Dict.WF_set h _ _)

theorem apply_again (op : Op δ) (a b : Dict Str Cred) (p : HQ) (hp : Dict.WF p.header)
    (h : ∀ l, op.security = some l → ∀ s ∈ l, ∀ k ∈ Dict.keys s,
      (Dict.get? a k).map (fun c => (c.header, c.key)) = (Dict.get? b k).map (fun c => (c.header, c.key))) :
    applySecurity b op.security (applySecurity a op.security p) = applySecurity b op.security p := by
  cases hs : op.security with
  | none => rfl
  | some l =>
    obtain ⟨h1, h2⟩ := pairs_names (l.flatMap Dict.keys) a b fun k hk => by
      obtain ⟨s, hs', hk'⟩ := List.mem_flatMap.1 hk
      exact h l hs s hs' k hk'
    simp only [C18.apply_eq, C18.due]
    rw [replaceAll_again _ _ _ h2, foldl_set_eq_replaceAll hp, foldl_set_eq_replaceAll, replaceAll_again _ _ _ h1, foldl_set_eq_replaceAll hp]
    rw [← foldl_set_eq_replaceAll hp]
    exact WF_sets _ _ hp

theorem authorise_again (op : Op δ) {i j : Option (Dict Str Cred)} (r : Req β π) (hw : Dict.WF r.p.header) (h : SamePlaces op i j) :
    authorise j op (authorise i op r) = authorise j op r := by
  rcases h with rfl | ⟨a, b, rfl, rfl, h⟩
  · rfl
  · have := apply_again op a b ⟨r.p.header, r.p.query⟩ hw h
    simp only [authorise]
    rw [this]

theorem WF_authorise (op : Op δ) (i : Option (Dict Str Cred)) (r : Req β π) (hw : Dict.WF r.p.header) :
    Dict.WF (authorise i op r).p.header := by
  cases i with
  | none => exact hw
  | some a =>
    simp only [authorise, C18.apply_eq]
    exact WF_sets _ _ hw

theorem file_authorise (op : Op δ) (i : Option (Dict Str Cred)) (r : Req β π) : (authorise i op r).p.file = r.p.file := by
  cases i <;> rfl

/-! ## the request afterwards -/

theorem drain_named {f : File} (h : f.data = none) : drainFile f = f := by
  obtain ⟨a, b, d⟩ := f
  simp only at h
  subst h; rfl

theorem fileLeft_named (env : Env β δ π) (n : Str) {f : File} (h : f.data = none) : (fileLeft env n f).1 = f := by
  unfold fileLeft
  split
  · exact drain_named h
  · rfl

theorem filesLeft_named (env : Env β δ π) (n : Str) (l : List File) (h : ∀ f ∈ l, f.data = none) : (filesLeft env n l).1 = l := by
  induction l with
  | nil => rfl
  | cons f fs ih =>
    have h1 := fileLeft_named env n (h f (by simp))
    unfold filesLeft
    split
    · next g hg => rw [hg] at h1; simp only at h1; rw [h1]
    · next g hg => rw [hg] at h1; simp only at h1; rw [h1, ih fun x hx => h x (List.mem_cons_of_mem _ hx)]

theorem valueLeft_named (env : Env β δ π) (n : Str) (v : FileVal) (h : ∀ f ∈ v.files, f.data = none) : (valueLeft env n v).1 = v := by
  cases v with
  | one f => simp only [valueLeft, fileLeft_named env n (h f (by simp [FileVal.files]))]
  | many l => simp only [valueLeft, filesLeft_named env n l h]

theorem dictLeft_named (env : Env β δ π) (d : Dict Str FileVal) (h : ∀ e ∈ d, ∀ f ∈ e.2.files, f.data = none) : dictLeft env d = d := by
  induction d with
  | nil => rfl
  | cons e d ih =>
    obtain ⟨k, v⟩ := e
    have h1 := valueLeft_named env k v (h (k, v) (by simp))
    unfold dictLeft
    split
    · next g hg => rw [hg] at h1; simp only at h1; rw [h1]
    · next g hg => rw [hg] at h1; simp only at h1; rw [h1, ih fun x hx => h x (List.mem_cons_of_mem _ hx)]

theorem drainFiles_named {p : Params β} (h : Named p) : drainFiles p.file = p.file := by
  unfold drainFiles
  conv => rhs; rw [← List.map_id p.file]
  apply List.map_congr_left
  rintro ⟨k, v⟩ he
  have := h _ he
  cases v with
  | one f => simp only [id]; rw [drain_named (this f (by simp [FileVal.files]))]
  | many l =>
    simp only [id]
    congr 2
    conv => rhs; rw [← List.map_id l]
    exact List.map_congr_left (fun f hf => drain_named (this f hf))

theorem paramsLeft_named (env : Env β δ π) (op : Op δ) {p : Params β} {hf : Bool} (h : Named p ∨ hf = false) : paramsLeft env op p hf = p.file := by
  unfold paramsLeft
  split
  · next hc =>
    rcases h with h | h
    · split
      · rfl
      · split
        · rfl
        · exact dictLeft_named env _ h
    · rw [h] at hc; cases hc.2
  · rfl

/-- Preparing changes nothing that is not reset. -/
theorem reset_prepareLeft (env : Env β δ π) (op : Op δ) (s : SchemeArg) (hf : Bool) (r : Req β π) (h : Named r.p ∨ hf = false) :
    reset op (prepareLeft env op s hf r).2 = reset op r := by
  unfold prepareLeft
  dsimp only
  split
  · rfl
  · split
    · rfl
    · split
      · rfl
      · split
        · rw [paramsLeft_named env op h]; rfl
        · next ct data files hd =>
          have hfiles : files = r.p.file := by
            rw [C20.files_after hd]
            split
            · next hc =>
              rcases h with h | h
              · exact drainFiles_named h
              · rw [h] at hc; cases hc.2
            · rfl
          subst hfiles
          split <;> rfl

theorem reset_attempt (env : Env β δ π) (op : Op δ) (c : Client) (opt) (hs) (r : Req β π) (h : Named r.p ∨ c.handleFiles = false) :
    reset op (attempt env op c opt hs r).2 = authorise c.security op (reset op r) := by
  have h' : Named (authorise c.security op (reset op r)).p ∨ c.handleFiles = false := by
    rcases h with h | h
    · left
      unfold Named
      rw [file_authorise]
      exact h
    · exact .inr h
  have hre := C20.reset_authorise c.security op r
  unfold attempt
  dsimp only
  split
  · exact hre
  · next l hl =>
    have := reset_prepareLeft env op (.list l) c.handleFiles _ h'
    rw [hre] at this
    split
    · next e r2 he => rw [he] at this; exact this
    · next r2 he =>
      rw [he] at this
      simp only at this
      split
      · exact this
      · exact this

/-- `send` and `prepare` without the state -/
theorem prepare_left (env : Env β δ π) (op : Op δ) (s : SchemeArg) (hf : Bool) (r : Req β π) :
    prepare env op s hf r = match prepareLeft env op s hf r with
      | (some e, _) => .error e
      | (none, r) => .ok r := by
  unfold prepare prepareLeft
  dsimp only
  cases chooseScheme r.scheme s with
  | error e => rfl
  | ok sc =>
    cases format env.fmtExt (pathParams r.p) r.path with
    | error e => rfl
    | ok path =>
      cases format env.fmtExt (pathParams r.p) r.url with
      | error e => rfl
      | ok url =>
        simp only [bind, Except.bind]
        cases prepareData env op r.p r.consume hf with
        | error e => rfl
        | ok x =>
          obtain ⟨ct, data, files⟩ := x
          dsimp only
          cases chooseAccept op r.produce <;> rfl

/-- what a client sends depends on the request only as far as it is not reset -/
theorem send_reset (env : Env β δ π) (op : Op δ) (c : Client) (opt) (hs) (r r' : Req β π)
    (h : authorise c.security op (reset op r) = authorise c.security op (reset op r')) :
    send env op c opt hs r = send env op c opt hs r' := by
  unfold send
  dsimp only
  rw [h]

/-- **C101** (the same function). An attempt hands to the library, or raises, what C20 and C63 are about. -/
theorem C101_attempt (env : Env β δ π) (op : Op δ) (c : Client) (opt) (hs) (r : Req β π) :
    (attempt env op c opt hs r).1 = (send env op c opt hs r).map (·.sent) ∧
    ∀ res, send env op c opt hs r = .ok res → (attempt env op c opt hs r).2 = res.req := by
  unfold attempt send
  dsimp only
  cases prepareSchemes c.schemes op.schemes with
  | error e => exact ⟨rfl, fun res h => by cases h⟩
  | ok l =>
    simp only [bind, Except.bind]
    rw [prepare_left]
    cases hp : prepareLeft env op (.list l) c.handleFiles (authorise c.security op (reset op r)) with
    | mk e r2 =>
      cases e with
      | some e => exact ⟨rfl, fun res h => by cases h⟩
      | none =>
        dsimp only
        cases composeHeaders r2.header hs (patch opt r2.url).2 c.asDict with
        | error e => exact ⟨rfl, fun res h => by cases h⟩
        | ok h => exact ⟨rfl, fun res h => by cases h; rfl⟩

/-- **C101.** Whatever was tried with a request before, successfully or not, by whatever clients, options, headers, boundaries and files on
disk: it is sent like a request with which nothing was tried, if the earlier clients had no credentials or the same as the one sending
now (new values for them allowed) and no file is an open stream that was read. -/
theorem C101_no_trace (op : Op δ) (c : Client) (events : List (Event β δ π)) (r : Req β π) (hw : Dict.WF r.p.header)
    (hfiles : Named r.p ∨ ∀ env c' opt hs, Event.request env c' opt hs ∈ events → c'.handleFiles = false)
    (hsec : ∀ env c' opt hs, Event.request env c' opt hs ∈ events → SamePlaces op c'.security c.security)
    (env : Env β δ π) (opt : Dict Str (Option Str)) (hs : HeadersArg) :
    send env op c opt hs (events.foldl (happen op) r) = send env op c opt hs ((events.filter Event.setting).foldl (happen op) r) := by
  refine send_reset env op c opt hs _ _ ?_
  have key : ∀ (events : List (Event β δ π)) (r r0 : Req β π), Dict.WF r.p.header →
      (Named r.p ∨ ∀ env c' opt hs, Event.request env c' opt hs ∈ events → c'.handleFiles = false) →
      (∀ env c' opt hs, Event.request env c' opt hs ∈ events → SamePlaces op c'.security c.security) →
      authorise c.security op (reset op r) = authorise c.security op (reset op r0) →
      authorise c.security op (reset op (events.foldl (happen op) r)) =
        authorise c.security op (reset op ((events.filter Event.setting).foldl (happen op) r0)) := by
    intro events
    induction events with
    | nil => intro r r0 _ _ _ h; exact h
    | cons e es ih =>
      intro r r0 hw hfiles hsec h
      have hsec' : ∀ env c' opt hs, Event.request env c' opt hs ∈ es → SamePlaces op c'.security c.security :=
        fun env c' opt hs hm => hsec env c' opt hs (List.mem_cons_of_mem _ hm)
      have hfiles' : ∀ r' : Req β π, r'.p.file = r.p.file →
          (Named r'.p ∨ ∀ env c' opt hs, Event.request env c' opt hs ∈ es → c'.handleFiles = false) := by
        intro r' hr'
        rcases hfiles with hf | hf
        · left; unfold Named; rw [hr']; exact hf
        · exact .inr fun env c' opt hs hm => hf env c' opt hs (List.mem_cons_of_mem _ hm)
      cases e with
      | request env' c' opt' hs' =>
        have hr := reset_attempt env' op c' opt' hs' r (by
          rcases hfiles with hf | hf
          · exact .inl hf
          · exact .inr (hf env' c' opt' hs' (by simp)))
        have hp : (attempt env' op c' opt' hs' r).2.p = (authorise c'.security op (reset op r)).p :=
          (show (reset op (attempt env' op c' opt' hs' r).2).p = _ by rw [hr])
        refine ih _ r0 ?_ (hfiles' _ ?_) hsec' ?_
        · change Dict.WF (attempt env' op c' opt' hs' r).2.p.header
          rw [hp]
          exact WF_authorise op _ _ hw
        · change (attempt env' op c' opt' hs' r).2.p.file = _
          rw [hp, file_authorise]
          rfl
        · change authorise c.security op (reset op (attempt env' op c' opt' hs' r).2) = _
          rw [hr, authorise_again op (reset op r) hw (hsec env' c' opt' hs' (by simp)), h]
      | consume x =>
        refine ih _ (happen op r0 (.consume x)) hw (hfiles' _ rfl) hsec' ?_
        have : ∀ q : Req β π, authorise c.security op (reset op (happen op q (.consume x))) =
            { authorise c.security op (reset op q) with consume := x } := by intro q; unfold authorise; cases c.security <;> rfl
        rw [this, this, h]
      | produce x =>
        refine ih _ (happen op r0 (.produce x)) hw (hfiles' _ rfl) hsec' ?_
        have : ∀ q : Req β π, authorise c.security op (reset op (happen op q (.produce x))) =
            { authorise c.security op (reset op q) with produce := x } := by intro q; unfold authorise; cases c.security <;> rfl
        rw [this, this, h]
      | scheme x =>
        refine ih _ (happen op r0 (.scheme x)) hw (hfiles' _ rfl) hsec' ?_
        have : ∀ q : Req β π, authorise c.security op (reset op (happen op q (.scheme x))) =
            { authorise c.security op (reset op q) with scheme := x } := by intro q; unfold authorise; cases c.security <;> rfl
        rw [this, this, h]
  exact key events r r hw hfiles hsec rfl

/-- **C101** (new credentials). Registering a new value for a scheme that was registered before keeps the places: the next request carries
the new value only. -/
theorem C101_refresh (op : Op δ) (defs : Dict Str SecurityScheme) {info info' : Dict Str Cred} {name : Str} {old new : SecurityInfo}
    {s : SecurityScheme} {c : Cred} (hs : Dict.get? defs name = some s) (hc : credOf s old = .ok c) (hi : Dict.get? info name = some c)
    (h : update_with defs info name new = .ok info') : SamePlaces op (some info) (some info') := by
  refine .inr ⟨info, info', rfl, rfl, fun _ _ _ _ k _ => ?_⟩
  unfold update_with at h
  rw [hs] at h
  dsimp only at h
  cases hn : credOf s new with
  | error e => rw [hn] at h; cases h
  | ok c' =>
    rw [hn] at h
    cases h
    have hplace : (c.header, c.key) = (c'.header, c'.key) := by
      unfold credOf at hc hn
      split at hc
      · rw [if_pos (by assumption)] at hn
        split at hc
        · cases hc
        · split at hc
          · cases hc
          · cases hc
            split at hn
            · cases hn
            · split at hn
              · cases hn
              · cases hn; rfl
      · rw [if_neg (by assumption)] at hn
        split at hc
        · rw [if_pos (by assumption)] at hn
          cases h1 : asText old with
          | error e => rw [h1] at hc; cases hc
          | ok t =>
            cases h2 : asText new with
            | error e => rw [h2] at hn; cases hn
            | ok t' => rw [h1] at hc; rw [h2] at hn; cases hc; cases hn; rfl
        · rw [if_neg (by assumption)] at hn
          split at hc
          · rw [if_pos (by assumption)] at hn
            cases h1 : asText old with
            | error e => rw [h1] at hc; cases hc
            | ok t =>
              cases h2 : asText new with
              | error e => rw [h2] at hn; cases hn
              | ok t' => rw [h1] at hc; rw [h2] at hn; cases hc; cases hn; rfl
          · cases hc
    by_cases hk : k = name
    · subst hk
      rw [hi]
      simp only [Dict.update, List.foldl_cons, List.foldl_nil, Dict.get?_set_self, Option.map_some, hplace]
    · simp only [Dict.update, List.foldl_cons, List.foldl_nil]
      rw [Dict.get?_set_ne _ _ hk]

/-- **C101** (whole exchanges). The request and the response object may both have been used before: what is handed to the library, the
response afterwards and the exception are those of fresh objects with the same settings, whatever the library answers. -/
theorem C101_exchange {η h σ τ ρ υ D Q : Type} (w : World β δ π η h σ τ ρ υ D) (c : Client) (events : List (Event β δ π)) (r : Req β π)
    (hw : Dict.WF r.p.header) (hfiles : Named r.p ∨ ∀ env c' opt hs, Event.request env c' opt hs ∈ events → c'.handleFiles = false)
    (hsec : ∀ env c' opt hs, Event.request env c' opt hs ∈ events → SamePlaces w.op c'.security c.security)
    (opt : Dict Str (Option Str)) (hs : HeadersArg) (used fresh : Resp η ρ D) (hr : used.rawBodyOnly = fresh.rawBodyOnly)
    (build : Sent π → Req β π → Except Exc Q) (server : Q → Except Exc (Reply ρ)) (calls : Reply ρ → List (RespCall ρ)) :
    exchange w c opt hs (events.foldl (happen w.op) r) used build server calls =
      exchange w c opt hs ((events.filter Event.setting).foldl (happen w.op) r) fresh build server calls := by
  have h1 := C101_no_trace w.op c events r hw hfiles hsec w.env opt hs
  have h2 : used.reset = fresh.reset := by unfold Resp.reset; rw [hr]
  unfold exchange
  rw [h1, h2]

/-- **C101** (the four clients). -/
theorem C101_clients {η h σ τ ρ υ D : Type} (w : World β δ π η h σ τ ρ υ D) (security : Option (Dict Str Cred)) (events : List (Event β δ π))
    (r : Req β π) (hw : Dict.WF r.p.header) (hfiles : Named r.p)
    (hsec : ∀ env c' opt hs, Event.request env c' opt hs ∈ events → SamePlaces w.op c'.security security)
    (opt : Dict Str (Option Str)) (hs : HeadersArg) (used fresh : Resp η ρ D) (hr : used.rawBodyOnly = fresh.rawBodyOnly) :
    let tried := events.foldl (happen w.op) r
    let untried := (events.filter Event.setting).foldl (happen w.op) r
    (∀ server, requestsRequest w security opt hs tried used server = requestsRequest w security opt hs untried fresh server) ∧
    (∀ server, tornadoRequest w security opt hs tried used server = tornadoRequest w security opt hs untried fresh server) ∧
    (∀ server, flaskRequest w security opt hs tried used server = flaskRequest w security opt hs untried fresh server) ∧
    (∀ keep cookie server, webRequest w security keep cookie opt hs tried used server = webRequest w security keep cookie opt hs untried fresh server) := by
  refine ⟨fun server => ?_, fun server => ?_, fun server => ?_, fun keep cookie server => ?_⟩
  · exact C101_exchange w ⟨httpSchemes, false, true, security⟩ events r hw (.inl hfiles) hsec opt hs used fresh hr _ server _
  · exact C101_exchange w ⟨httpSchemes, true, false, security⟩ events r hw (.inl hfiles) hsec opt hs used fresh hr _ server _
  · exact C101_exchange w ⟨httpSchemes, false, false, security⟩ events r hw (.inl hfiles) hsec opt hs used fresh hr _ server _
  · unfold webRequest
    rw [C101_exchange w ⟨httpSchemes, true, false, security⟩ events r hw (.inl hfiles) hsec opt hs used fresh hr]

/-! ## streams -/

/-- the files in the order in which they are written -/
def listLeft (env : Env β δ π) : List (Str × File) → List (Str × File) × Bool
  | [] => ([], true)
  | (n, f) :: fs =>
    if (fileLeft env n f).2 then ((n, (fileLeft env n f).1) :: (listLeft env fs).1, (listLeft env fs).2)
    else ((n, (fileLeft env n f).1) :: fs, false)

theorem listLeft_append (env : Env β δ π) (a b : List (Str × File)) : listLeft env (a ++ b) =
    if (listLeft env a).2 then ((listLeft env a).1 ++ (listLeft env b).1, (listLeft env b).2) else ((listLeft env a).1 ++ b, false) := by
  induction a with
  | nil => simp [listLeft]
  | cons x a ih =>
    obtain ⟨n, f⟩ := x
    simp only [List.cons_append, listLeft, ih]
    by_cases h : (fileLeft env n f).2 = true
    · by_cases h2 : (listLeft env a).2 = true <;> simp [h, h2]
    · simp [h]

theorem filesLeft_list (env : Env β δ π) (n : Str) (l : List File) :
    listLeft env (l.map fun f => (n, f)) = ((filesLeft env n l).1.map fun f => (n, f), (filesLeft env n l).2) := by
  induction l with
  | nil => rfl
  | cons f fs ih =>
    simp only [List.map_cons, listLeft, ih]
    rw [filesLeft]
    cases h : fileLeft env n f with
    | mk g b => cases b <;> simp

theorem valueLeft_list (env : Env β δ π) (n : Str) (v : FileVal) :
    listLeft env (v.files.map fun f => (n, f)) = ((valueLeft env n v).1.files.map fun f => (n, f), (valueLeft env n v).2) := by
  cases v with
  | one f =>
    simp only [FileVal.files, List.map_cons, List.map_nil, listLeft, valueLeft]
    cases (fileLeft env n f).2 <;> rfl
  | many l => exact filesLeft_list env n l

theorem dictLeft_list (env : Env β δ π) (d : Dict Str FileVal) : fileList (dictLeft env d) = (listLeft env (fileList d)).1 := by
  induction d with
  | nil => rfl
  | cons e d ih =>
    obtain ⟨k, v⟩ := e
    have h1 : fileList ((k, v) :: d) = (v.files.map fun f => (k, f)) ++ fileList d := by simp [fileList]
    rw [h1, listLeft_append, valueLeft_list]
    unfold dictLeft
    cases h : valueLeft env k v with
    | mk w b =>
      cases b with
      | false => simp [fileList]
      | true =>
        simp only [if_true]
        rw [← ih]
        simp [fileList]

theorem fileLeft_ok (env : Env β δ π) {n : Str} {f : File} {b : Bytes} (h : filePart env n f = .ok b) : fileLeft env n f = (drainFile f, true) := by
  unfold filePart at h
  unfold fileLeft
  obtain ⟨x1, h1, h⟩ := bind_ok.1 h
  obtain ⟨x2, h2, h⟩ := bind_ok.1 h
  obtain ⟨x3, h3, h⟩ := bind_ok.1 h
  obtain ⟨x4, h4, h⟩ := bind_ok.1 h
  rw [h1, h2, h3, h4]
  rfl

theorem fileLeft_error (env : Env β δ π) {n : Str} {f : File} {e : Exc} (h : filePart env n f = .error e) :
    (fileLeft env n f).2 = false ∧ ((fileLeft env n f).1 = f ∨ fileContent env f = .error e ∧ (fileLeft env n f).1 = drainFile f) := by
  unfold filePart at h
  unfold fileLeft
  cases h1 : env.encode (c!"Content-Disposition: form-data; name=\"" ++ n ++ c!"\"; filename=\"" ++ f.filename ++ c!"\"") with
  | error _ => exact ⟨rfl, .inl rfl⟩
  | ok x1 =>
    cases h2 : fileHeaderLine env c!"Content-Type" f with
    | error _ => exact ⟨rfl, .inl rfl⟩
    | ok x2 =>
      cases h3 : fileHeaderLine env c!"Content-Transfer-Encoding" f with
      | error _ => exact ⟨rfl, .inl rfl⟩
      | ok x3 =>
        rw [h1, h2, h3] at h
        simp only [bind, Except.bind] at h
        cases h4 : fileContent env f with
        | ok x4 => rw [h4] at h; cases h
        | error e' =>
          rw [h4] at h
          cases h
          exact ⟨rfl, .inr ⟨rfl, rfl⟩⟩

/-- **C101** (streams read). When a file cannot be written, the streams of the files before it are read, those of the files behind it are
not, and its own is read at most if it is its content that cannot be written. -/
theorem C101_read (env : Env β δ π) (op : Op δ) (p : Params β) (hc : op.consumes = [] ∨ multipartType ∈ op.consumes) {fields : Bytes}
    (hf : writeAll (fieldPart env) p.formData = .ok fields) {before after : List (Str × File)} {n : Str} {f : File} {e : Exc}
    (hl : fileList p.file = before ++ (n, f) :: after) (hb : ∀ x ∈ before, ∃ b, filePart env x.1 x.2 = .ok b) (he : filePart env n f = .error e) :
    prepareFiles env op p = .error e ∧
    ∃ f', fileList (paramsLeft env op p true) = (before.map fun x => (x.1, drainFile x.2)) ++ (n, f') :: after ∧
      (f' = f ∨ fileContent env f = .error e ∧ f' = drainFile f) := by
  have hc' : ¬ (op.consumes ≠ [] ∧ multipartType ∉ op.consumes) := by
    rintro ⟨h1, h2⟩
    rcases hc with h | h
    · exact h1 h
    · exact h2 h
  have hne : p.file ≠ [] := by
    intro h
    rw [h] at hl
    have := congrArg List.length hl
    simp [fileList] at this
  refine ⟨?_, ?_⟩
  · unfold prepareFiles
    rw [if_neg hc', hf]
    have : ∀ l : List (Str × File), (∀ x ∈ l, ∃ b, filePart env x.1 x.2 = .ok b) →
        writeAll (fun nf => filePart env nf.1 nf.2) (l ++ (n, f) :: after) = .error e := by
      intro l
      induction l with
      | nil => intro _; simp only [List.nil_append, writeAll, he, bind, Except.bind]
      | cons x l ih =>
        intro h
        obtain ⟨b, hb⟩ := h x (by simp)
        simp only [List.cons_append, writeAll, hb, ih fun y hy => h y (List.mem_cons_of_mem _ hy), bind, Except.bind]
    rw [hl, this before hb]
    rfl
  · obtain ⟨h1, h2⟩ := fileLeft_error env he
    refine ⟨(fileLeft env n f).1, ?_, h2⟩
    unfold paramsLeft
    rw [if_pos ⟨hne, rfl⟩, if_neg hc', hf]
    dsimp only
    rw [dictLeft_list, hl]
    have : ∀ l : List (Str × File), (∀ x ∈ l, ∃ b, filePart env x.1 x.2 = .ok b) →
        (listLeft env (l ++ (n, f) :: after)).1 = (l.map fun x => (x.1, drainFile x.2)) ++ (n, (fileLeft env n f).1) :: after := by
      intro l
      induction l with
      | nil => intro _; simp only [List.nil_append, listLeft, h1]; rfl
      | cons x l ih =>
        intro h
        obtain ⟨b, hb⟩ := h x (by simp)
        simp only [List.cons_append, listLeft, fileLeft_ok env hb, if_true, ih fun y hy => h y (List.mem_cons_of_mem _ hy), List.map_cons]
    exact this before hb

/-- **C101** (streams not read). When the operation does not take multipart bodies, or a form field cannot be written, no stream is read. -/
theorem C101_unread (env : Env β δ π) (op : Op δ) (p : Params β) (hne : p.file ≠ [])
    (h : (op.consumes ≠ [] ∧ c!"multipart/form-data" ∉ op.consumes) ∨ ∃ e, writeAll (fieldPart env) p.formData = .error e) :
    (∃ e, prepareData env op p none true = .error e) ∧ paramsLeft env op p true = p.file := by
  by_cases hc : op.consumes ≠ [] ∧ multipartType ∉ op.consumes
  · simp [prepareData, prepareFiles, paramsLeft, hne, hc]
  · rcases h with h | ⟨e, h⟩
    · exact absurd h hc
    · refine ⟨⟨e, ?_⟩, ?_⟩
      · simp only [prepareData, if_pos hne, if_true, prepareFiles, if_neg hc, h, bind, Except.bind]
      · rw [paramsLeft, if_pos ⟨hne, rfl⟩, if_neg hc, h]

/-- an operation for JSON only -/
example (env : Env Nat Unit Nat) : paramsLeft env (⟨c!"//h/x", c!"/x", c!"post", [c!"application/json"], [], [c!"http"], none, []⟩ : Op Unit)
      (⟨[], [], [], [], [], [(c!"f", .one ⟨[], c!"a", some (.bytes [1, 2])⟩)]⟩ : Params Nat) true =
    [(c!"f", .one ⟨[], c!"a", some (.bytes [1, 2])⟩)] :=
  (C101_unread _ _ _ (by decide) (.inl (by decide))).2

/-! ## where it goes wrong, and examples -/

def env : Env Nat Unit Nat := ⟨fun _ b _ => .ok (b + 1), List.map Char.toLower, fun _ _ => .ok [],
  fun s => .ok (utf8 s), fun _ => .ok [65], c!"b"⟩
/-- an operation with a path parameter, protected by a key in the header and one in the query -/
def op : Op Unit := ⟨c!"//h/x/{id}", c!"/x/{id}", c!"get", [], [c!"application/json"], [c!"http"], some [[(c!"key", [])], [(c!"token", [])]], []⟩
def info : Dict Str Cred := [(c!"key", ⟨true, c!"X-Key", c!"secret"⟩), (c!"token", ⟨false, c!"t", c!"old"⟩)]
def request : Req Nat Nat := init op ⟨[(c!"A", c!"1")], [(c!"q", c!"2")], [(c!"id", c!"7")], [], [], []⟩

/-- **C101**, refuted for clients with other credentials: a client without any sends those of the client that was used before. -/
theorem C101_credentials_false :
    let plain : Client := ⟨[c!"http"], true, false, none⟩
    let used := (attempt env op ⟨[c!"http"], true, false, some info⟩ [] .none request).2
    ∃ a b, (attempt env op plain [] .none used).1 = .ok a ∧ (attempt env op plain [] .none request).1 = .ok b ∧
      (c!"X-Key", c!"secret") ∈ a.headers ∧ (c!"t", c!"old") ∈ a.query ∧
      (c!"X-Key", c!"secret") ∉ b.headers ∧ (c!"t", c!"old") ∉ b.query := by
  dsimp only
  have h : ∀ (x y : Except Exc (Sent Nat)), (match x, y with
      | .ok a, .ok b => decide ((c!"X-Key", c!"secret") ∈ a.headers ∧ (c!"t", c!"old") ∈ a.query ∧
          (c!"X-Key", c!"secret") ∉ b.headers ∧ (c!"t", c!"old") ∉ b.query)
      | _, _ => false) = true →
      ∃ a b, x = .ok a ∧ y = .ok b ∧ (c!"X-Key", c!"secret") ∈ a.headers ∧ (c!"t", c!"old") ∈ a.query ∧
        (c!"X-Key", c!"secret") ∉ b.headers ∧ (c!"t", c!"old") ∉ b.query := by
    intro x y h
    cases x with
    | error e => cases h
    | ok a =>
      cases y with
      | error e => cases h
      | ok b => exact ⟨a, b, rfl, rfl, of_decide_eq_true h⟩
  exact h _ _ (by decide +kernel)

/-- **C101**, refuted for streams: a failure after the stream was read, here because of the wanted media type, leaves it empty, and the file
is sent without its content. -/
theorem C101_stream_false :
    let op : Op Unit := ⟨c!"//h/x", c!"/x", c!"post", [], [c!"application/json"], [c!"http"], none, []⟩
    let c : Client := ⟨[c!"http"], true, false, none⟩
    let r : Req Nat Nat := init op ⟨[], [], [], [], [], [(c!"f", .one ⟨[], c!"a", some (.bytes [1, 2])⟩)]⟩
    let bad := happen op r (.produce (some c!"text/html"))
    let again := happen op (happen op bad (.request env c [] .none)) (.produce none)
    (attempt env op c [] .none bad).1 = .error .SchemaError ∧
    ∃ a b, (attempt env op c [] .none r).1 = .ok a ∧ (attempt env op c [] .none again).1 = .ok b ∧ a.data ≠ b.data := by
  dsimp only
  refine ⟨by decide +kernel, ?_⟩
  have h : ∀ (x y : Except Exc (Sent Nat)), (match x, y with | .ok a, .ok b => decide (a.data ≠ b.data) | _, _ => false) = true →
      ∃ a b, x = .ok a ∧ y = .ok b ∧ a.data ≠ b.data := by
    intro x y h
    cases x with
    | error e => cases h
    | ok a =>
      cases y with
      | error e => cases h
      | ok b => exact ⟨a, b, rfl, rfl, by simpa using h⟩
  exact h _ _ (by decide +kernel)

/-- three streams, of which the second holds a text that cannot be encoded: the first two are read, the third is not -/
example : ∃ f', fileList (paramsLeft { env with encode := fun s => if '\u00e9' ∈ s then .error .ValueError else .ok (utf8 s) }
      { op with consumes := [] } (⟨[], [], [], [], [], [(c!"a", .many [⟨[], c!"x", some (.bytes [1])⟩, ⟨[], c!"y", some (.text c!"\u00e9")⟩]),
        (c!"b", .one ⟨[], c!"z", some (.bytes [2])⟩)]⟩ : Params Nat) true) =
    [(c!"a", drainFile ⟨[], c!"x", some (.bytes [1])⟩), (c!"a", f'), (c!"b", ⟨[], c!"z", some (.bytes [2])⟩)] := by
  refine (C101_read _ _ _ (.inl rfl) (fields := []) rfl (before := [(c!"a", ⟨[], c!"x", some (.bytes [1])⟩)]) (n := c!"a")
    (f := ⟨[], c!"y", some (.text c!"\u00e9")⟩) (e := .ValueError) rfl ?_ (by decide +kernel)).2.imp fun _ h => h.1
  intro x hx
  rw [List.mem_singleton] at hx
  subst hx
  exact ⟨_, rfl⟩

/-- a new token -/
example : SamePlaces op (some info) (some [(c!"key", ⟨true, c!"X-Key", c!"secret"⟩), (c!"token", ⟨false, c!"t", c!"new"⟩)]) :=
  C101_refresh op [(c!"token", ⟨some c!"apiKey", c!"t", some c!"query"⟩)] (name := c!"token") (old := .str c!"old") (new := .str c!"new")
    (s := ⟨some c!"apiKey", c!"t", some c!"query"⟩) (c := ⟨false, c!"t", c!"old"⟩) rfl (by decide +kernel) rfl (by decide +kernel)

/-- a retry after a failure (a media type that the operation does not produce), with a new token and another host -/
example : send env op ⟨[c!"http"], true, false, some [(c!"key", ⟨true, c!"X-Key", c!"secret"⟩), (c!"token", ⟨false, c!"t", c!"new"⟩)]⟩ [] .none
      ([Event.produce (some c!"text/html"), .request env ⟨[c!"http"], true, false, some info⟩ [(c!"url_netloc", some c!"other")] .none,
        .produce none, .request env ⟨[c!"http"], true, false, some info⟩ [(c!"url_netloc", some c!"other")] .none].foldl (happen op) request) =
    send env op ⟨[c!"http"], true, false, some [(c!"key", ⟨true, c!"X-Key", c!"secret"⟩), (c!"token", ⟨false, c!"t", c!"new"⟩)]⟩ [] .none
      { request with produce := none } := by
  refine C101_no_trace op _ _ request (by decide) (.inl (by intro e he; cases he)) ?_ env [] .none
  intro env' c' opt hs hm
  have hc : c'.security = some info := by
    simp only [List.mem_cons, reduceCtorEq, false_or, List.not_mem_nil, or_false, Event.request.injEq] at hm
    rcases hm with ⟨-, rfl, -⟩ | ⟨-, rfl, -⟩ <;> rfl
  refine .inr ⟨info, _, hc, rfl, ?_⟩
  rintro l ⟨⟩
  decide

end Props.C101
