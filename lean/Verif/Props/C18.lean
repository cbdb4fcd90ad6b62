import Verif.Model.Security
import Verif.Proofs.Replace
import Verif.Proofs.Base64
/-!
# C18: authorisation adds exactly the credentials that are required and registered

Spec side: the history of registrations, `inForce` (the credential of the latest successful
registration of a scheme), and `due`, the credentials of the scheme names listed by the security
requirements that have one in force, in the order listed.
-/

namespace Props.C18
open Py Utils Core

/-- The registry after a history of `update_with` calls, oldest first; a call that raises leaves
it as it was. -/
def after (defs : Dict Str SecurityScheme) (regs : List (Str × SecurityInfo)) : Dict Str Cred :=
  regs.foldl (fun info r => match update_with defs info r.1 r.2 with
    | .ok info' => info'
    | .error _ => info) []

/-- The credential in force for a scheme name, reading the history backwards: that of the first
registration of the name that its scheme accepts. -/
def inForce (defs : Dict Str SecurityScheme) (name : Str) : List (Str × SecurityInfo) → Option Cred
  | [] => none
  | (n, i) :: earlier =>
    if n = name then
      match (Dict.get? defs n).map (credOf · i) with
      | some (.ok c) => some c
      | _ => inForce defs name earlier
    else inForce defs name earlier

theorem after_snoc (defs regs r) : after defs (regs ++ [r]) =
    match update_with defs (after defs regs) r.1 r.2 with
    | .ok info' => info'
    | .error _ => after defs regs := by simp [after]

theorem get?_after (defs : Dict Str SecurityScheme) (regs : List (Str × SecurityInfo)) (name : Str) :
    Dict.get? (after defs regs) name = inForce defs name regs.reverse := by
  have key : ∀ m : List (Str × SecurityInfo),
      Dict.get? (after defs m.reverse) name = inForce defs name m := by
    intro m
    induction m with
    | nil => rfl
    | cons r m ih =>
      obtain ⟨n, i⟩ := r
      rw [List.reverse_cons, after_snoc]
      simp only [update_with, inForce]
      cases hs : Dict.get? defs n with
      | none => simp [ih]
      | some s =>
        simp only [Option.map_some]
        cases hc : credOf s i with
        | error e => simp [ih]
        | ok c =>
          simp only [Dict.update, List.foldl_cons, List.foldl_nil, Dict.get?_set, ih]
          by_cases h : n = name
          · simp [h]
          · have h' : ¬ name = n := fun e => h e.symm
            simp [h, h']
  have := key regs.reverse
  rwa [List.reverse_reverse] at this

/-- The credentials due: for every scheme name of every requirement, in order, the one in force. -/
def due (reg : Str → Option Cred) : Option (List (Dict Str (List Str))) → List Cred
  | none => []
  | some l => (l.flatMap Dict.keys).filterMap reg

def headerPairs (l : List Cred) : List (Str × Str) :=
  l.filterMap (fun c => if c.header then some (c.key, c.cred) else none)
def queryPairs (l : List Cred) : List (Str × Str) :=
  l.filterMap (fun c => if c.header then none else some (c.key, c.cred))

theorem apply_eq (info : Dict Str Cred) (sec : Option (List (Dict Str (List Str)))) (p : HQ) :
    applySecurity info sec p =
      ⟨(headerPairs (due (Dict.get? info) sec)).foldl (fun d v => Dict.set d v.1 v.2) p.header,
       replaceAll p.query (queryPairs (due (Dict.get? info) sec))⟩ := by
  have key : ∀ (names : List Str) (p : HQ), names.foldl (applyOne info) p =
      ⟨(headerPairs (names.filterMap (Dict.get? info))).foldl (fun d v => Dict.set d v.1 v.2) p.header,
       replaceAll p.query (queryPairs (names.filterMap (Dict.get? info)))⟩ := by
    intro names
    induction names with
    | nil => intro p; rfl
    | cons n ns ih =>
      intro p
      rw [List.foldl_cons, ih]
      simp only [applyOne]
      cases h : Dict.get? info n with
      | none => simp [h]
      | some c =>
        cases hc : c.header with
        | true => simp [h, hc, headerPairs, queryPairs, Dict.update]
        | false => simp [h, hc, headerPairs, queryPairs, replaceAll]
  cases sec with
  | none => rfl
  | some l =>
    simp only [applySecurity, due]
    rw [← key]
    induction l generalizing p with
    | nil => rfl
    | cons s l ih =>
      rw [List.foldl_cons, List.flatMap_cons, List.foldl_append, ih]
      congr 1
      simp [Dict.keys, List.foldl_map]

/-- **C18** (registration). `update_with` raises `ValueError` for a name the document does not
define and for a scheme of unknown type; otherwise it succeeds exactly if the scheme yields a
credential. -/
theorem C18_register (defs : Dict Str SecurityScheme) (info : Dict Str Cred) (name : Str)
    (i : SecurityInfo) :
    (Dict.get? defs name = none → update_with defs info name i = .error .ValueError) ∧
    (∀ s, Dict.get? defs name = some s →
      s.type ≠ some c!"basic" → s.type ≠ some c!"apiKey" → s.type ≠ some c!"oauth2" →
      update_with defs info name i = .error .ValueError) ∧
    (∀ s t, Dict.get? defs name = some s →
      s.type = some c!"apiKey" ∨ s.type = some c!"oauth2" → i = .str t →
      ∃ info', update_with defs info name i = .ok info') ∧
    (∀ s u p b, Dict.get? defs name = some s → s.type = some c!"basic" → i = .tuple [u, p] →
      latin1 (u ++ c!":" ++ p) = .ok b → ∃ info', update_with defs info name i = .ok info') := by
  refine ⟨?_, ?_, ?_, ?_⟩
  · intro h; simp [update_with, h]
  · intro s h h1 h2 h3; simp [update_with, h, credOf, h1, h2, h3]
  · rintro s t h (ht | ht) rfl
    · exact ⟨Dict.update info [(name, ⟨s.in_ = some c!"header", s.name, t⟩)], by
        simp [update_with, h, credOf, ht, asText, Except.map]⟩
    · exact ⟨Dict.update info [(name, ⟨true, c!"access_token", t⟩)], by
        simp [update_with, h, credOf, ht, asText, Except.map]⟩
  · rintro s u p b h ht rfl hb
    refine ⟨Dict.update info [(name, ⟨true, c!"Authorization", c!"Basic " ++ b64encode false b⟩)], ?_⟩
    simp only [update_with, h, credOf, ht, userPass, hb, if_true]

/-- **C18** (what a credential is). An `apiKey` goes under the declared name to the header if
declared there, to the query otherwise; an OAuth2 token to the header `access_token`; basic
authentication to the header `Authorization`, and the text after `Basic ` is base64 for
`user:password`. -/
theorem C18_credential (s : SecurityScheme) (c : Cred) :
    (∀ t, s.type = some c!"apiKey" →
      (credOf s (.str t) = .ok c ↔ c = ⟨s.in_ = some c!"header", s.name, t⟩)) ∧
    (∀ t, s.type = some c!"oauth2" → (credOf s (.str t) = .ok c ↔ c = ⟨true, c!"access_token", t⟩)) ∧
    (∀ u p, s.type = some c!"basic" →
      (credOf s (.tuple [u, p]) = .ok c ↔ c.header = true ∧ c.key = c!"Authorization" ∧
        ∃ b text, latin1 (u ++ c!":" ++ p) = .ok b ∧ c.cred = c!"Basic " ++ text ∧
          text = b64encode false b ∧ Spec.b64decode false text = some b)) := by
  refine ⟨?_, ?_, ?_⟩
  · intro t h
    simp only [credOf, h, if_true, asText, Except.map]
    rw [if_neg (by decide)]
    simp only [Except.ok.injEq]
    exact ⟨fun e => e.symm, fun e => e.symm⟩
  · intro t h
    simp only [credOf, h, asText, Except.map]
    rw [if_neg (by decide), if_neg (by decide), if_pos trivial]
    simp only [Except.ok.injEq]
    exact ⟨fun e => e.symm, fun e => e.symm⟩
  · intro u p h
    simp only [credOf, h, if_true, userPass]
    cases hb : latin1 (u ++ c!":" ++ p) with
    | error e =>
      simp only [reduceCtorEq, false_iff]
      rintro ⟨_, _, b, t, hb', _⟩
      exact hb'
    | ok b =>
      simp only [Except.ok.injEq]
      constructor
      · rintro rfl
        exact ⟨rfl, rfl, b, _, rfl, rfl, rfl, b64decode_b64encode false b⟩
      · rintro ⟨h1, h2, b', t, hb', h3, rfl, _⟩
        subst hb'
        cases c; simp only at h1 h2 h3; subst h1 h2 h3; rfl

/-- **C18** (headers). After applying security, a header carries the last credential due for it,
and is as before if none is due. -/
theorem C18_header (defs regs sec) (p : HQ) (k : Str) :
    Dict.get? (applySecurity (after defs regs) sec p).header k =
      match lastOf (headerPairs (due (fun n => inForce defs n regs.reverse) sec)) k with
      | some w => some w.2
      | none => Dict.get? p.header k := by
  rw [apply_eq, get?_foldl_set]
  have : Dict.get? (after defs regs) = fun n => inForce defs n regs.reverse := by
    funext n; exact get?_after defs regs n
  rw [this]
  cases lastOf (headerPairs (due (fun n => inForce defs n regs.reverse) sec)) k <;> rfl

/-- **C18** (query). The query parameters whose name is not the key of a due query credential are
untouched and in order; every due key is present; every parameter of that name is the last
credential due for it. -/
theorem C18_query (defs regs sec) (p : HQ) :
    let vs := queryPairs (due (fun n => inForce defs n regs.reverse) sec)
    let q := (applySecurity (after defs regs) sec p).query
    q.filter (fun x => decide (x.1 ∉ vs.map Prod.fst)) =
      p.query.filter (fun x => decide (x.1 ∉ vs.map Prod.fst)) ∧
    (∀ v ∈ vs, ∃ x ∈ q, x.1 = v.1) ∧
    (∀ x ∈ q, ∀ w, lastOf vs x.1 = some w → x = w) ∧
    (∀ x ∈ q, x.1 ∈ p.query.map Prod.fst ∨ x.1 ∈ vs.map Prod.fst) := by
  intro vs q
  have hq : q = replaceAll p.query vs := by
    have : Dict.get? (after defs regs) = fun n => inForce defs n regs.reverse := by
      funext n; exact get?_after defs regs n
    simp only [q, vs, apply_eq, this]
  rw [hq]
  refine ⟨by simpa using replaceAll_others p.query vs, ?_, replaceAll_effect _ _, ?_⟩
  · intro v hv
    have := (mem_names_replaceAll p.query vs v.1).2 (Or.inr (List.mem_map.2 ⟨v, hv, rfl⟩))
    simpa using this
  · intro x hx
    exact (mem_names_replaceAll p.query vs x.1).1 (List.mem_map.2 ⟨x, hx, rfl⟩)

/-- **C18** (nothing required). Without requirements, or when none of the required schemes is
registered, the request is unchanged. -/
theorem C18_unchanged (info : Dict Str Cred) (sec) (p : HQ)
    (h : ∀ l, sec = some l → ∀ s ∈ l, ∀ n ∈ Dict.keys s, Dict.get? info n = none) :
    applySecurity info sec p = p := by
  have : due (Dict.get? info) sec = [] := by
    cases sec with
    | none => rfl
    | some l =>
      simp only [due, List.filterMap_eq_nil_iff, List.mem_flatMap]
      rintro n ⟨s, hs, hn⟩
      exact h l rfl s hs n hn
  rw [apply_eq, this]; rfl

/-- **C18** (resending). Applying security to the same request again changes nothing. -/
theorem C18_idempotent (info : Dict Str Cred) (sec) (p : HQ) (hp : Dict.WF p.header) :
    applySecurity info sec (applySecurity info sec p) = applySecurity info sec p := by
  have hwf : ∀ (vs : List (Str × Str)) (d : Dict Str Str), Dict.WF d →
      Dict.WF (vs.foldl (fun d v => Dict.set d v.1 v.2) d) := by
    intro vs
    induction vs with
    | nil => intro d h; exact h
    | cons v vs ih => intro d h; exact ih _ (Dict.WF_set h _ _)
  simp only [apply_eq]
  rw [replaceAll_idem, foldl_set_eq_replaceAll hp, foldl_set_eq_replaceAll]
  · rw [replaceAll_idem]
  · rw [← foldl_set_eq_replaceAll hp]; exact hwf _ _ hp

/-- **C18** (all alternatives). The alternatives of the requirements are not chosen between: the
credentials of every listed requirement are applied, one after the other. -/
theorem C18_all_alternatives (info : Dict Str Cred) (l1 l2 : List (Dict Str (List Str))) (p : HQ) :
    applySecurity info (some (l1 ++ l2)) p =
      applySecurity info (some l2) (applySecurity info (some l1) p) := by
  simp [applySecurity]

/-- **C18** (OAuth2). A token of an OAuth2 scheme is not sent as RFC 6750 says. It is in a header `access_token`, and neither in the
header `Authorization` (section 2.1) nor in the query (section 2.3), so that a server following that standard does not see it. -/
theorem C18_no_bearer (defs : Dict Str SecurityScheme) (name t : Str) (s : SecurityScheme) (hs : Dict.get? defs name = some s)
    (ht : s.type = some c!"oauth2") : ∃ info, update_with defs [] name (.str t) = .ok info ∧
      ∀ sec (p : HQ), Dict.get? p.header c!"Authorization" = none →
        Dict.get? (applySecurity info sec p).header c!"Authorization" = none ∧ (applySecurity info sec p).query = p.query := by
  have hc : credOf s (.str t) = .ok ⟨true, c!"access_token", t⟩ := by
    unfold credOf
    rw [if_neg (by rw [ht]; decide), if_neg (by rw [ht]; decide), if_pos ht]
    rfl
  refine ⟨Dict.update [] [(name, ⟨true, c!"access_token", t⟩)], by unfold update_with; rw [hs]; dsimp only; rw [hc], ?_⟩
  intro sec p hp
  have hdue : ∀ c ∈ due (Dict.get? (Dict.update [] [(name, (⟨true, c!"access_token", t⟩ : Cred))])) sec, c = ⟨true, c!"access_token", t⟩ := by
    intro c hc
    cases sec with
    | none => cases hc
    | some l =>
      obtain ⟨k, -, hk⟩ := List.mem_filterMap.1 hc
      simp only [Dict.update, List.foldl_cons, List.foldl_nil, Dict.get?_set] at hk
      split at hk
      · exact (Option.some.inj hk).symm
      · cases hk
  rw [apply_eq]
  generalize due (Dict.get? (Dict.update [] [(name, (⟨true, c!"access_token", t⟩ : Cred))])) sec = l at hdue
  have hq : queryPairs l = [] := by
    unfold queryPairs
    rw [List.filterMap_eq_nil_iff]
    intro c hc
    rw [hdue c hc]
    rfl
  have hh : lastOf (headerPairs l) c!"Authorization" = none := by
    rw [lastOf_none]
    intro v hv
    obtain ⟨c, hc, hcv⟩ := List.mem_filterMap.1 hv
    rw [hdue c hc] at hcv
    cases hcv
    dsimp only
    decide
  refine ⟨?_, ?_⟩
  · dsimp only
    rw [get?_foldl_set, hh]
    exact hp
  · dsimp only
    rw [hq]
    rfl

/-- a token in a request without other headers -/
example : applySecurity [(c!"o", ⟨true, c!"access_token", c!"abc"⟩)] (some [[(c!"o", [c!"read"])]]) ⟨[], []⟩ = ⟨[(c!"access_token", c!"abc")], []⟩ := by
  decide

/-! Non-vacuity: a basic and a query apiKey scheme, registered twice, one of two required schemes
registered. -/
def defs : Dict Str SecurityScheme :=
  [(c!"b", ⟨some c!"basic", [], none⟩), (c!"q", ⟨some c!"apiKey", c!"key", some c!"query"⟩)]
def regs : List (Str × SecurityInfo) :=
  [(c!"q", .str c!"old"), (c!"b", .tuple [c!"u", c!"p"]), (c!"x", .str c!"no"), (c!"q", .str c!"new")]
example : applySecurity (after defs regs) (some [[(c!"q", [])], [(c!"z", []), (c!"b", [])]])
    ⟨[(c!"h", c!"1")], [(c!"key", c!"old"), (c!"a", c!"2")]⟩ =
    ⟨[(c!"h", c!"1"), (c!"Authorization", c!"Basic dTpw")], [(c!"key", c!"new"), (c!"a", c!"2")]⟩ := by
  decide
example : update_with defs [] c!"x" (.str c!"no") = .error .ValueError := by decide
example : inForce defs c!"q" regs.reverse = some ⟨false, c!"key", c!"new"⟩ := by decide
example : latin1 (c!"u" ++ c!":" ++ c!"p") = .ok [117, 58, 112] := by decide
example : Dict.WF (HQ.header ⟨[(c!"h", c!"1")], []⟩) := by decide

end Props.C18
