import Verif.Model.Upgrade
import Verif.Proofs.Dict
import Verif.Proofs.Url
import Verif.Proofs.JsonPointer
import Mathlib.Data.List.Forall2
/-! # Lemmas about the converter from Swagger 1.2 -/

namespace Upgrade
open Py Utils

/-! ## common prefixes -/

theorem leStr_refl (a : Str) : leStr a a = true := by
  induction a with
  | nil => rfl
  | cons x a ih => simp [leStr, ih]

theorem leStr_total (a b : Str) : leStr a b = true ∨ leStr b a = true := by
  induction a generalizing b with
  | nil => simp [leStr]
  | cons x a ih =>
    cases b with
    | nil => simp [leStr]
    | cons y b =>
      by_cases h : x = y
      · subst h; simpa [leStr] using ih b
      · have h' : ¬ y = x := fun e => h e.symm
        have hn : x.toNat ≠ y.toNat := fun e => h (Char.toNat_inj.1 e)
        simp only [leStr, h, h', if_false, decide_eq_true_eq]
        omega

theorem leStr_trans {a b c : Str} (h1 : leStr a b = true) (h2 : leStr b c = true) : leStr a c = true := by
  induction a generalizing b c with
  | nil => simp [leStr]
  | cons x a ih =>
    cases b with
    | nil => simp [leStr] at h1
    | cons y b =>
      cases c with
      | nil => simp [leStr] at h2
      | cons z c =>
        by_cases hxy : x = y
        · subst hxy
          by_cases hxz : x = z
          · subst hxz
            simp only [leStr, if_true] at *
            exact ih h1 h2
          · simpa [leStr, hxz] using h2
        · by_cases hyz : y = z
          · subst hyz
            simpa [leStr, hxy] using h1
          · simp only [leStr, hxy, hyz, if_false, decide_eq_true_eq] at h1 h2
            have hxz : x ≠ z := by rintro rfl; omega
            simp only [leStr, hxz, if_false, decide_eq_true_eq]
            omega

theorem minStr_le (a : Str) (m : List Str) : ∀ k ∈ a :: m, leStr (minStr a m) k = true := by
  induction m generalizing a with
  | nil => intro k hk; simp at hk; subst hk; exact leStr_refl _
  | cons b m ih =>
    intro k hk
    have ih := ih (if leStr a b then a else b)
    have e : minStr a (b :: m) = minStr (if leStr a b then a else b) m := rfl
    rw [e]
    rcases List.mem_cons.1 hk with rfl | hk
    · refine leStr_trans (ih _ List.mem_cons_self) ?_
      by_cases h : leStr k b = true
      · simp [h, leStr_refl]
      · simpa [h] using (leStr_total k b).resolve_left h
    · rcases List.mem_cons.1 hk with rfl | hk
      · refine leStr_trans (ih _ List.mem_cons_self) ?_
        by_cases h : leStr a k = true
        · simp [h]
        · simp [h, leStr_refl]
      · exact ih k (by simp [hk])

theorem le_maxStr (a : Str) (m : List Str) : ∀ k ∈ a :: m, leStr k (maxStr a m) = true := by
  induction m generalizing a with
  | nil => intro k hk; simp at hk; subst hk; exact leStr_refl _
  | cons b m ih =>
    intro k hk
    have ih := ih (if leStr b a then a else b)
    have e : maxStr a (b :: m) = maxStr (if leStr b a then a else b) m := rfl
    rw [e]
    rcases List.mem_cons.1 hk with rfl | hk
    · refine leStr_trans ?_ (ih _ List.mem_cons_self)
      by_cases h : leStr b k = true
      · simp [h, leStr_refl]
      · simpa [h] using (leStr_total k b).resolve_right h
    · rcases List.mem_cons.1 hk with rfl | hk
      · refine leStr_trans ?_ (ih _ List.mem_cons_self)
        by_cases h : leStr k a = true
        · simp [h]
        · simp [h, leStr_refl]
      · exact ih k (by simp [hk])

theorem minStr_mem (a : Str) (m : List Str) : minStr a m ∈ a :: m := by
  induction m generalizing a with
  | nil => simp [minStr]
  | cons b m ih =>
    have e : minStr a (b :: m) = minStr (if leStr a b then a else b) m := rfl
    rw [e]
    have := ih (if leStr a b then a else b)
    by_cases h : leStr a b = true
    · simp only [h, if_true] at this ⊢
      rcases List.mem_cons.1 this with h | h <;> simp [h]
    · simp only [h, if_neg (show ¬ (false = true) by simp)] at this ⊢
      rcases List.mem_cons.1 this with h | h <;> simp [h]

theorem maxStr_mem (a : Str) (m : List Str) : maxStr a m ∈ a :: m := by
  induction m generalizing a with
  | nil => simp [maxStr]
  | cons b m ih =>
    have e : maxStr a (b :: m) = maxStr (if leStr b a then a else b) m := rfl
    rw [e]
    have := ih (if leStr b a then a else b)
    by_cases h : leStr b a = true
    · simp only [h, if_true] at this ⊢
      rcases List.mem_cons.1 this with h | h <;> simp [h]
    · simp only [h, if_neg (show ¬ (false = true) by simp)] at this ⊢
      rcases List.mem_cons.1 this with h | h <;> simp [h]

theorem common_between {a k b : Str} (h1 : leStr a k = true) (h2 : leStr k b = true) : common a b <+: k := by
  induction a generalizing k b with
  | nil => simp [common]
  | cons x a ih =>
    cases b with
    | nil => simp [common]
    | cons y b =>
      by_cases hxy : x = y
      · subst hxy
        cases k with
        | nil => simp [leStr] at h1
        | cons z k =>
          by_cases hxz : x = z
          · subst hxz
            simp only [leStr, if_true] at h1 h2
            simp only [common, if_true]
            exact List.cons_prefix_cons.2 ⟨rfl, ih h1 h2⟩
          · have hzx : ¬ z = x := fun e => hxz e.symm
            simp only [leStr, hxz, hzx, if_false, decide_eq_true_eq] at h1 h2
            omega
      · simp [common, hxy]

theorem prefix_common {p a b : Str} (h1 : p <+: a) (h2 : p <+: b) : p <+: common a b := by
  induction p generalizing a b with
  | nil => simp
  | cons x p ih =>
    obtain ⟨a', rfl⟩ := h1
    obtain ⟨b', rfl⟩ := h2
    simp only [List.cons_append, common, if_true]
    exact List.cons_prefix_cons.2 ⟨rfl, ih (List.prefix_append _ _) (List.prefix_append _ _)⟩

/-- `commonprefix` is a prefix of every element. -/
theorem commonprefix_prefix {l : List Str} {k : Str} (h : k ∈ l) : commonprefix l <+: k := by
  cases l with
  | nil => simp at h
  | cons a m => exact common_between (minStr_le a m k h) (le_maxStr a m k h)

/-- Every common prefix is a prefix of `commonprefix`. -/
theorem prefix_commonprefix {l : List Str} {p : Str} (hne : l ≠ []) (h : ∀ k ∈ l, p <+: k) :
    p <+: commonprefix l := by
  cases l with
  | nil => exact absurd rfl hne
  | cons a m => exact prefix_common (h _ (minStr_mem a m)) (h _ (maxStr_mem a m))

/-! ## cutting keys -/

theorem cutPaths_foldl (n : Nat) (d acc : Dict Str (Dict Str Op20)) :
    (d.foldl (fun d kv => Dict.set d (kv.1.drop n) kv.2) acc) =
      Dict.update acc (d.map fun kv => (kv.1.drop n, kv.2)) := by
  induction d generalizing acc with
  | nil => rfl
  | cons e d ih =>
    rw [List.foldl_cons, ih]
    rfl

theorem keys_map_drop (n : Nat) (d : Dict Str (Dict Str Op20)) :
    Dict.keys (d.map fun kv => (kv.1.drop n, kv.2)) = (Dict.keys d).map (List.drop n) := by
  simp [Dict.keys, List.map_map, Function.comp_def]

theorem drop_inj {pre a b : Str} (ha : pre <+: a) (hb : pre <+: b) (h : a.drop pre.length = b.drop pre.length) :
    a = b := by
  obtain ⟨a', rfl⟩ := ha
  obtain ⟨b', rfl⟩ := hb
  simpa using h

theorem wf_map_drop {pre : Str} {d : Dict Str (Dict Str Op20)} (hd : Dict.WF d) (h : ∀ k ∈ Dict.keys d, pre <+: k) :
    Dict.WF (d.map fun kv => (kv.1.drop pre.length, kv.2)) := by
  unfold Dict.WF
  rw [keys_map_drop]
  rw [List.nodup_iff_pairwise_ne] at *
  rw [List.pairwise_map]
  have hd' : (Dict.keys d).Pairwise (· ≠ ·) := List.nodup_iff_pairwise_ne.1 hd
  exact List.Pairwise.imp_of_mem (fun ha hb hne e => hne (drop_inj (h _ ha) (h _ hb) e)) hd'

/-- Cutting off a common prefix of the keys keeps all entries. -/
theorem get?_cutPaths {pre : Str} {d : Dict Str (Dict Str Op20)} (hd : Dict.WF d)
    (h : ∀ k ∈ Dict.keys d, pre <+: k) (rest : Str) :
    Dict.get? (cutPaths pre.length d) rest = Dict.get? d (pre ++ rest) := by
  unfold cutPaths
  rw [cutPaths_foldl, Dict.get?_update (wf_map_drop hd h)]
  have hw := wf_map_drop hd h
  cases hg : Dict.get? d (pre ++ rest) with
  | some v =>
    have hm : (rest, v) ∈ d.map fun kv => (kv.1.drop pre.length, kv.2) :=
      List.mem_map.2 ⟨(pre ++ rest, v), Dict.mem_of_get? hg, by simp⟩
    rw [Dict.get?_of_mem hw hm]
    rfl
  | none =>
    have : Dict.get? (d.map fun kv => (kv.1.drop pre.length, kv.2)) rest = none := by
      rw [Dict.get?_eq_none_iff, keys_map_drop]
      intro hm
      obtain ⟨k, hk, e⟩ := List.mem_map.1 hm
      obtain ⟨k', rfl⟩ := h k hk
      rw [Dict.get?_eq_none_iff] at hg
      simp at e
      subst e
      exact hg hk
    rw [this]
    rfl

/-! ## `finish` -/

/-- empty, or a slash first -/
def Rooted (s : Str) : Prop := s = [] ∨ ∃ t, s = '/' :: t

theorem rooted_prefix {p s : Str} (hs : Rooted s) (h : p <+: s) : Rooted p := by
  obtain ⟨t, rfl⟩ := h
  cases p with
  | nil => exact Or.inl rfl
  | cons c p =>
    rcases hs with hs | ⟨u, hs⟩
    · simp at hs
    · simp only [List.cons_append, List.cons.injEq] at hs
      exact Or.inr ⟨p, by rw [hs.1]⟩

theorem dropLast_prefix (s : Str) : s.dropLast <+: s := List.dropLast_prefix s

theorem urlparse_scheme (u : Str) : (urlparse u).scheme = (splitScheme u).1 := rfl
theorem urlparse_netloc (u : Str) : (urlparse u).netloc = (splitNetloc (splitScheme u).2).1 := rfl

/-- what the parts of an absolute base URL look like -/
structure Site (sch host : Str) : Prop where
  scheme_ne : sch ≠ []
  scheme_chars : sch.all isSchemeChar = true
  scheme_lower : sch.map Char.toLower = sch
  host_ne : host ≠ []
  host_ok : ∀ c ∈ host, endsNetloc c = false

theorem urlparse_site {sch host q : Str} (h : Site sch host) (hq : Rooted q) :
    (urlparse (sch ++ c!"://" ++ host ++ q)).scheme = sch ∧
    (urlparse (sch ++ c!"://" ++ host ++ q)).netloc = host := by
  have e : sch ++ c!"://" ++ host ++ q = sch ++ ':' :: ('/' :: '/' :: (host ++ q)) := by simp
  rw [e, urlparse_scheme, urlparse_netloc, splitScheme_of h.scheme_ne h.scheme_chars h.scheme_lower]
  refine ⟨rfl, ?_⟩
  simp only [splitNetloc]
  refine (takeWhile_netloc h.host_ok q ?_).1
  intro c t e
  rcases hq with rfl | ⟨u, rfl⟩
  · simp at e
  · simp at e
    rw [← e.1]
    rfl

theorem urlunparse_site {sch host : Str} (h : Site sch host) :
    urlunparse ⟨sch, host, [], [], [], []⟩ = sch ++ c!"://" ++ host := by
  have := h.scheme_ne
  have := h.host_ne
  simp [urlunparse, unparseHead, *]

theorem stripSlash_site {sch host q : Str} (h : Site sch host) (hq : Rooted q) :
    ∃ q', Rooted q' ∧ q' <+: q ∧
      stripSlash (sch ++ c!"://" ++ host ++ q) = .ok (sch ++ c!"://" ++ host ++ q') := by
  rcases List.eq_nil_or_concat q with rfl | ⟨q0, c, rfl⟩
  · refine ⟨[], Or.inl rfl, List.prefix_rfl, ?_⟩
    obtain hh | ⟨h0, c, hh⟩ := List.eq_nil_or_concat host
    · exact absurd hh h.host_ne
    · have hc : endsNetloc c = false := h.host_ok c (by rw [hh]; simp)
      have hc' : c ≠ '/' := by rintro rfl; simp [endsNetloc] at hc
      have e : (sch ++ c!"://" ++ host ++ []).getLast? = some c := by
        rw [hh, List.concat_eq_append, List.append_nil, ← List.append_assoc, List.getLast?_concat]
      simp only [stripSlash, e, hc', if_false]
  · rw [List.concat_eq_append] at *
    have e : (sch ++ c!"://" ++ host ++ (q0 ++ [c])).getLast? = some c := by
      rw [← List.append_assoc, List.getLast?_concat]
    have e2 : (sch ++ c!"://" ++ host ++ (q0 ++ [c])).dropLast = sch ++ c!"://" ++ host ++ q0 := by
      rw [← List.append_assoc, List.dropLast_concat]
    by_cases hc : c = '/'
    · exact ⟨q0, rooted_prefix hq (List.prefix_append _ _), List.prefix_append _ _,
        by simp only [stripSlash]; rw [e, e2]; simp [hc]⟩
    · refine ⟨q0 ++ [c], hq, List.prefix_rfl, ?_⟩
      simp only [stripSlash]
      rw [e]
      simp [hc]

/-- All paths on one site: the host is that of the site, and the site is cut off the paths. -/
theorem finish_site {sch host : Str} (h : Site sch host) (s : Swagger) (hne : s.paths ≠ [])
    (hk : ∀ k ∈ Dict.keys s.paths, ∃ q, k = sch ++ c!"://" ++ host ++ q ∧ Rooted q) :
    finish s = .ok { s with host := host, paths := cutPaths (sch ++ c!"://" ++ host).length s.paths } := by
  have hkeys : Dict.keys s.paths ≠ [] := by simpa [Dict.keys] using hne
  obtain ⟨q, hq⟩ := prefix_commonprefix (p := sch ++ c!"://" ++ host) hkeys (by
    intro k hm
    obtain ⟨q, rfl, _⟩ := hk k hm
    exact List.prefix_append _ _)
  have hrq : Rooted q := by
    obtain ⟨k, hm⟩ := List.exists_mem_of_ne_nil _ hkeys
    obtain ⟨r, hr, hroot⟩ := hk k hm
    have hp := commonprefix_prefix hm
    rw [← hq, hr] at hp
    exact rooted_prefix hroot ((List.prefix_append_right_inj _).1 hp)
  obtain ⟨q', hrq', -, hstrip⟩ := stripSlash_site h hrq
  obtain ⟨e1, e2⟩ := urlparse_site h hrq'
  unfold finish
  rw [← hq, hstrip]
  simp only [bind, Except.bind]
  rw [if_pos (by simp; omega), e1, e2, urlunparse_site h]

/-- starting with a slash, but not with two -/
def Relative (k : Str) : Prop := ∃ t, k = '/' :: t ∧ ∀ u, t ≠ '/' :: u

theorem urlparse_relative {k : Str} (h : Relative k) :
    (urlparse k).scheme = [] ∧ (urlparse k).netloc = [] := by
  obtain ⟨t, rfl, ht⟩ := h
  have e : splitScheme ('/' :: t) = ([], '/' :: t) := by
    unfold splitScheme
    cases hb : breakAt ':' ('/' :: t) with
    | none => rfl
    | some ab =>
      obtain ⟨a, b⟩ := ab
      simp only
      have := (breakAt_some_iff.1 hb).1
      refine if_neg ?_
      rintro ⟨hne, hall⟩
      cases a with
      | nil => exact hne rfl
      | cons c a =>
        simp at this
        rw [← this.1] at hall
        simp [isSchemeChar] at hall
  rw [urlparse_scheme, urlparse_netloc, e]
  refine ⟨rfl, ?_⟩
  unfold splitNetloc
  split
  · rename_i u hu
    simp at hu
    exact absurd hu (ht u)
  · rfl

theorem cutPaths_zero {d : Dict Str (Dict Str Op20)} (hd : Dict.WF d) (k : Str) :
    Dict.get? (cutPaths 0 d) k = Dict.get? d k :=
  get?_cutPaths (pre := []) hd (fun _ _ => List.nil_prefix) k

/-- All paths relative to the place of the document: no host, same paths. -/
theorem finish_relative (s : Swagger) (hne : s.paths ≠ []) (hwf : Dict.WF s.paths) (hh : s.host = [])
    (hk : ∀ k ∈ Dict.keys s.paths, Relative k) :
    ∃ s', finish s = .ok s' ∧ s'.host = [] ∧ (∀ k, Dict.get? s'.paths k = Dict.get? s.paths k) ∧
      s' = { s with paths := s'.paths } := by
  have hkeys : Dict.keys s.paths ≠ [] := by simpa [Dict.keys] using hne
  obtain ⟨q, hq⟩ := prefix_commonprefix (p := ['/']) hkeys (by
    intro k hm
    obtain ⟨q, rfl, _⟩ := hk k hm
    exact List.prefix_append ['/'] _)
  obtain ⟨k0, hm0⟩ := List.exists_mem_of_ne_nil _ hkeys
  have hp0 := commonprefix_prefix hm0
  have hrel0 := hk k0 hm0
  unfold finish
  rw [← hq] at hp0 ⊢
  obtain ⟨c, hc, hpc⟩ : ∃ c, stripSlash (['/'] ++ q) = .ok c ∧ c <+: ['/'] ++ q := by
    unfold stripSlash
    cases hl : (['/'] ++ q).getLast? with
    | none => simp at hl
    | some x =>
      by_cases hx : x = '/'
      · exact ⟨_, by simp [hx], List.dropLast_prefix _⟩
      · exact ⟨_, by simp [hx], List.prefix_rfl⟩
  rw [hc]
  simp only [bind, Except.bind]
  by_cases hlen : c.length > 0
  · rw [if_pos hlen]
    have hrel : Relative c := by
      obtain ⟨t, rfl, ht⟩ := hrel0
      have hpre := hpc.trans hp0
      cases c with
      | nil => simp at hlen
      | cons x c =>
        obtain ⟨z, hz⟩ := hpre
        simp at hz
        refine ⟨c, by rw [hz.1], ?_⟩
        rintro u rfl
        exact ht (u ++ z) (by rw [← hz.2]; rfl)
    obtain ⟨e1, e2⟩ := urlparse_relative hrel
    rw [e1, e2]
    have e3 : (urlunparse ⟨[], [], [], [], [], []⟩) = [] := by decide
    rw [e3]
    exact ⟨_, rfl, rfl, fun k => cutPaths_zero hwf k, by simp [hh]⟩
  · rw [if_neg hlen]
    exact ⟨s, rfl, hh, fun k => rfl, rfl⟩

/-- The conversion of the paths fails exactly when they have no common prefix. -/
theorem finish_error (s : Swagger) (e : Exc) :
    finish s = .error e ↔ e = .IndexError ∧ commonprefix (Dict.keys s.paths) = [] := by
  unfold finish stripSlash
  cases h : (commonprefix (Dict.keys s.paths)).getLast? with
  | none =>
    have := List.getLast?_eq_none_iff.1 h
    simp [bind, Except.bind, this, eq_comm]
  | some c =>
    have : commonprefix (Dict.keys s.paths) ≠ [] := by
      intro e; rw [e] at h; simp at h
    simp only [bind, Except.bind, this, and_false, iff_false]
    intro hc
    split at hc <;> split at hc <;> cases hc

/-! ## names in paths -/

theorem slash_not_mem (n : Str) : '/' ∉ jp_escape n := by
  rw [Proofs.JsonPointer.jp_escape_eq]
  exact Proofs.JsonPointer.slash_not_mem_escape n

theorem getName_token (a n : Str) (ha : '/' ∉ a) :
    getName (c!"#/" ++ a ++ '/' :: jp_escape n) = .ok (jp_escape n) := by
  have e : c!"#/" ++ a ++ '/' :: jp_escape n = ['#'] ++ '/' :: (a ++ '/' :: jp_escape n) := by simp
  have h1 : splitChar '/' ['#'] = [['#']] := by decide
  unfold getName
  rw [e, splitChar_append_sep, splitChar_append_sep, splitChar_of_not_mem ha,
    splitChar_of_not_mem (slash_not_mem n), h1]
  rfl

theorem getName_below (a n rest : Str) (ha : '/' ∉ a) :
    getName (c!"#/" ++ a ++ '/' :: (jp_escape n ++ '/' :: rest)) = .ok (jp_escape n) := by
  have e : c!"#/" ++ a ++ '/' :: (jp_escape n ++ '/' :: rest) =
      ['#'] ++ '/' :: (a ++ '/' :: (jp_escape n ++ '/' :: rest)) := by simp
  have h1 : splitChar '/' ['#'] = [['#']] := by decide
  unfold getName
  rw [e, splitChar_append_sep, splitChar_append_sep, splitChar_append_sep, splitChar_of_not_mem ha,
    splitChar_of_not_mem (slash_not_mem n), h1]
  rfl

theorem getName_resource (n : Str) : getName (c!"#/apis/" ++ jp_escape n) = .ok (jp_escape n) := by
  simpa using getName_token c!"apis" n (by decide)

theorem getName_in_resource (n rest : Str) :
    getName (c!"#/apis/" ++ jp_escape n ++ '/' :: rest) = .ok (jp_escape n) := by
  simpa using getName_below c!"apis" n rest (by decide)

theorem getName_auth (n : Str) : getName (c!"#/authorizations/" ++ jp_escape n) = .ok (jp_escape n) := by
  simpa using getName_token c!"authorizations" n (by decide)

/-! ## the scan -/

variable {env : Env}

theorem visitAll_append (s : Swagger) (a b : List Visit) :
    visitAll env s (a ++ b) = (match visitAll env s a with
      | .error e => .error e
      | .ok s => visitAll env s b) := by
  induction a generalizing s with
  | nil => rfl
  | cons v a ih =>
    simp only [List.cons_append, visitAll]
    cases visit env s v with
    | error e => rfl
    | ok s => exact ih s

theorem visitAll_append_ok {s s2 : Swagger} {a b : List Visit} (h : visitAll env s (a ++ b) = .ok s2) :
    ∃ s1, visitAll env s a = .ok s1 ∧ visitAll env s1 b = .ok s2 := by
  rw [visitAll_append] at h
  cases ha : visitAll env s a with
  | error e => rw [ha] at h; cases h
  | ok s1 => rw [ha] at h; exact ⟨s1, rfl, h⟩

theorem set_set {κ ν : Type} [DecidableEq κ] (d : Dict κ ν) (k : κ) (v w : ν) :
    Dict.set (Dict.set d k v) k w = Dict.set d k w := by
  induction d with
  | nil => simp [Dict.set]
  | cons e d ih =>
    obtain ⟨k2, v2⟩ := e
    by_cases h : k2 = k
    · simp [Dict.set, h]
    · simp [Dict.set, h, ih]

theorem bind_ok {α β : Type} {x : Except Exc α} {f : α → Except Exc β} {b : β} (h : x.bind f = .ok b) :
    ∃ a, x = .ok a ∧ f a = .ok b := by
  cases x with
  | error e => cases h
  | ok a => exact ⟨a, rfl, h⟩

/-- what a declared operation becomes: its key, its method, and the Operation object -/
structure Made (env : Env) (scope : Str) (r : Resource) (opPath : Option Str) (op : Operation)
    (key m : Str) (o : Op20) : Prop where
  key_eq : ∃ b p, r.basePath = some b ∧ opPath = some p ∧ key = b ++ p
  method_eq : ∃ x, op.method = some x ∧ m = env.lower x
  method_ok : m ∈ pathItemFields
  op_eq : ∃ o0 ps, op20 env scope r op = .ok o0 ∧
    List.Forall₂ (fun p q => param20 env scope p = .ok q) op.parameters.reverse ps ∧
    o = { o0 with parameters := ps }

/-- put an operation below its key and method -/
def put (paths : Dict Str (Dict Str Op20)) (e : Str × Str × Op20) : Dict Str (Dict Str Op20) :=
  Dict.set paths e.1 (Dict.set ((Dict.get? paths e.1).getD []) e.2.1 e.2.2)

theorem concat_ok {a b : Option Str} {c : Str} (h : concat a b = .ok c) :
    ∃ x y, a = some x ∧ b = some y ∧ c = x ++ y := by
  cases a <;> cases b <;> simp [concat] at h
  exact ⟨_, _, rfl, rfl, h.symm⟩

theorem lowerOf_ok {a : Option Str} {c : Str} (h : lowerOf env a = .ok c) : ∃ x, a = some x ∧ c = env.lower x := by
  cases a <;> simp [lowerOf] at h
  exact ⟨_, rfl, h.symm⟩

/-- the parameters of an operation just placed -/
theorem visit_params {n : Str} {r : Resource} {opPath : Option Str} {op : Operation} {key m : Str}
    (hkey : concat r.basePath opPath = .ok key) (hm : lowerOf env op.method = .ok m)
    (vs : List (Str × Param)) (hvs : ∀ v ∈ vs, getName v.1 = .ok n)
    {s s' : Swagger} {item : Dict Str Op20} {o : Op20}
    (hs : s.paths = Dict.set s.paths key (Dict.set item m o))
    (h : visitAll env s (vs.map fun v => .parameter v.1 r opPath op v.2) = .ok s') :
    ∃ ps, List.Forall₂ (fun p q => param20 env n p = .ok q) (vs.map Prod.snd) ps ∧
      s' = { s with paths := Dict.set s.paths key (Dict.set item m { o with parameters := o.parameters ++ ps }) } := by
  induction vs generalizing s o with
  | nil =>
    refine ⟨[], .nil, ?_⟩
    simp only [List.map_nil, visitAll, Except.ok.injEq] at h
    subst h
    rw [List.append_nil, ← hs]
  | cons v vs ih =>
    simp only [List.map_cons, visitAll] at h
    cases hv : visit env s (.parameter v.1 r opPath op v.2) with
    | error e => rw [hv] at h; cases h
    | ok s1 =>
      rw [hv] at h
      simp only at h
      simp only [visit, parameter] at hv
      obtain ⟨sc, h1, hv⟩ := bind_ok hv
      rw [hvs v (by simp)] at h1
      cases h1
      obtain ⟨q, hq, hv⟩ := bind_ok hv
      obtain ⟨k', hk', hv⟩ := bind_ok hv
      rw [hkey] at hk'
      cases hk'
      obtain ⟨m', hm', hv⟩ := bind_ok hv
      rw [hm] at hm'
      cases hm'
      have g1 : Dict.get? s.paths key = some (Dict.set item m o) := by
        rw [hs]; exact Dict.get?_set_self _ _ _
      simp only [append, g1, Dict.get?_set_self, Except.ok.injEq] at hv
      have hp1 : s1.paths = Dict.set s.paths key (Dict.set item m { o with parameters := o.parameters ++ [q] }) := by
        rw [← hv]; simp only [set_set]
      obtain ⟨ps, hps, hs'⟩ := ih (fun w hw => hvs w (by simp [hw])) (s := s1)
        (o := { o with parameters := o.parameters ++ [q] }) (by rw [hp1, set_set]) h
      refine ⟨q :: ps, .cons hq hps, ?_⟩
      rw [hs', ← hv]
      simp only [set_set, List.append_assoc, List.singleton_append]

/-- an operation and its parameters -/
theorem visit_op {str : Nat → Str} {n : Str} {r : Resource} {e : Str × (Option Str × Operation)} {s s' : Swagger}
    (h : visitAll env s (visitOp (c!"#/apis/" ++ jp_escape n) r str e) = .ok s') :
    ∃ key m o, Made env (jp_escape n) r e.2.1 e.2.2 key m o ∧ s' = { s with paths := put s.paths (key, m, o) } := by
  obtain ⟨nick, opPath, op⟩ := e
  simp only [visitOp, visitAll] at h
  have hpath : ∀ rest, c!"#/apis/" ++ jp_escape n ++ c!"/apis/" ++ jp_escape nick ++ rest =
      c!"#/apis/" ++ jp_escape n ++ '/' :: (c!"apis/" ++ jp_escape nick ++ rest) := by intro rest; simp
  cases hv : visit env s (.operation (c!"#/apis/" ++ jp_escape n ++ c!"/apis/" ++ jp_escape nick) r opPath op) with
  | error e => rw [hv] at h; cases h
  | ok s1 =>
    rw [hv] at h
    simp only at h
    simp only [visit, operation] at hv
    obtain ⟨sc, h1, hv⟩ := bind_ok hv
    have h2 := hpath []
    rw [List.append_nil] at h2
    rw [h2, getName_in_resource] at h1
    cases h1
    obtain ⟨o0, ho0, hv⟩ := bind_ok hv
    simp only [place] at hv
    obtain ⟨key, hkey, hv⟩ := bind_ok hv
    obtain ⟨m, hm, hv⟩ := bind_ok hv
    by_cases hmem : m ∈ pathItemFields
    · rw [if_pos hmem] at hv
      simp only [Except.ok.injEq] at hv
      have hv1 : s1.paths = Dict.set s.paths key (Dict.set ((Dict.get? s.paths key).getD []) m o0) := by rw [← hv]
      have e1 : visitParams (c!"#/apis/" ++ jp_escape n ++ c!"/apis/" ++ jp_escape nick) r opPath op str =
          ((op.parameters.zipIdx.map fun pi =>
            (c!"#/apis/" ++ jp_escape n ++ c!"/apis/" ++ jp_escape nick ++ c!"/parameters/" ++ str pi.2, pi.1)).reverse).map
            fun v => Visit.parameter v.1 r opPath op v.2 := by
        simp [visitParams, List.map_reverse, Function.comp_def]
      rw [e1] at h
      obtain ⟨ps, hps, hs'⟩ := visit_params hkey hm _ (n := jp_escape n) (by
        intro v hv
        rw [List.mem_reverse, List.mem_map] at hv
        obtain ⟨pi, -, rfl⟩ := hv
        simp only
        rw [List.append_assoc (c!"#/apis/" ++ jp_escape n ++ c!"/apis/" ++ jp_escape nick), hpath]
        exact getName_in_resource _ _) (s := s1) (o := o0) (item := (Dict.get? s.paths key).getD [])
        (by rw [hv1, set_set]) h
      have e2 : (((op.parameters.zipIdx.map fun pi =>
            (c!"#/apis/" ++ jp_escape n ++ c!"/apis/" ++ jp_escape nick ++ c!"/parameters/" ++ str pi.2, pi.1)).reverse).map
            Prod.snd) = op.parameters.reverse := by
        rw [List.map_reverse, List.map_map]
        congr 1
        conv => rhs; rw [← List.zipIdx_map_fst 0 op.parameters]
        rfl
      rw [e2] at hps
      have ho0p : o0.parameters = [] := by
        simp only [op20] at ho0
        obtain ⟨sec, -, ho0⟩ := bind_ok ho0
        obtain ⟨resp, -, ho0⟩ := bind_ok ho0
        simp only [Except.ok.injEq] at ho0
        rw [← ho0]
      refine ⟨key, m, { o0 with parameters := ps }, ⟨concat_ok hkey, lowerOf_ok hm, hmem, o0, ps, ho0, hps, rfl⟩, ?_⟩
      rw [hs', ← hv]
      simp only [put, set_set, ho0p, List.nil_append]
    · rw [if_neg hmem] at hv
      cases hv

/-- the operations of a resource, one after the other -/
theorem visit_ops {str : Nat → Str} {n : Str} {r : Resource} (es : List (Str × (Option Str × Operation)))
    {s s' : Swagger} (h : visitAll env s (es.flatMap (visitOp (c!"#/apis/" ++ jp_escape n) r str)) = .ok s') :
    ∃ made : List (Str × Str × Op20),
      List.Forall₂ (fun e x => Made env (jp_escape n) r e.2.1 e.2.2 x.1 x.2.1 x.2.2) es made ∧
      s' = { s with paths := made.foldl put s.paths } := by
  induction es generalizing s with
  | nil =>
    simp only [List.flatMap_nil, visitAll, Except.ok.injEq] at h
    exact ⟨[], .nil, by rw [← h]; rfl⟩
  | cons e es ih =>
    rw [List.flatMap_cons] at h
    obtain ⟨s1, h1, h2⟩ := visitAll_append_ok h
    obtain ⟨key, m, o, hmade, hs1⟩ := visit_op h1
    obtain ⟨made, hmade2, hs'⟩ := ih h2
    exact ⟨(key, m, o) :: made, .cons hmade hmade2, by rw [hs', hs1]; rfl⟩

/-- file a model below its name -/
def defStep (env : Env) (defs : Dict Str Definition) (scope : Str) (m : Model) (props : Dict Str Schema) :
    Dict Str Definition :=
  let key := (scope_compose (some scope) m.id env.sep).getD []
  subTypes env scope key m.subTypes (Dict.set defs key
    { (Dict.get? defs key).getD {} with
      properties := props, required := m.required, discriminator := m.discriminator, description := m.description })

/-- models filed one after the other -/
inductive DefSteps (env : Env) : Dict Str Definition → List (Str × Model) → Dict Str Definition → Prop where
  | nil (d) : DefSteps env d [] d
  | cons (d sc m props rest d') : properties env sc m.properties = .ok props →
      DefSteps env (defStep env d sc m props) rest d' → DefSteps env d ((sc, m) :: rest) d'

theorem DefSteps.append {d1 d2 d3 : Dict Str Definition} {a b : List (Str × Model)} (h1 : DefSteps env d1 a d2)
    (h2 : DefSteps env d2 b d3) : DefSteps env d1 (a ++ b) d3 := by
  induction h1 with
  | nil d => exact h2
  | cons d sc m props rest d' hp hs ih => exact .cons _ _ _ _ _ _ hp (ih h2)

theorem visit_models {n : Str} (vs : List (Str × Model)) {s s' : Swagger}
    (h : visitAll env s (vs.map fun km => .model (c!"#/apis/" ++ jp_escape n ++ c!"/models/" ++ jp_escape km.1) km.2) = .ok s') :
    ∃ defs, DefSteps env s.definitions (vs.map fun km => (jp_escape n, km.2)) defs ∧
      s' = { s with definitions := defs } := by
  induction vs generalizing s with
  | nil =>
    simp only [List.map_nil, visitAll, Except.ok.injEq] at h
    exact ⟨_, .nil _, by rw [← h]⟩
  | cons km vs ih =>
    simp only [List.map_cons, visitAll] at h
    cases hv : visit env s (.model (c!"#/apis/" ++ jp_escape n ++ c!"/models/" ++ jp_escape km.1) km.2) with
    | error e => rw [hv] at h; cases h
    | ok s1 =>
      rw [hv] at h
      simp only at h
      simp only [visit, model] at hv
      obtain ⟨sc, h1, hv⟩ := bind_ok hv
      have e : c!"#/apis/" ++ jp_escape n ++ c!"/models/" ++ jp_escape km.1 =
        c!"#/apis/" ++ jp_escape n ++ '/' :: (c!"models/" ++ jp_escape km.1) := by simp
      rw [e, getName_in_resource] at h1
      cases h1
      obtain ⟨props, hp, hv⟩ := bind_ok hv
      simp only [Except.ok.injEq] at hv
      obtain ⟨defs, hd, hs'⟩ := ih h
      rw [← hv] at hd
      exact ⟨defs, .cons _ _ _ _ _ _ hp hd, by rw [hs', ← hv]⟩

/-- a resource -/
theorem visit_resource {str : Nat → Str} (e : Str × Resource) {s s' : Swagger}
    (h : visitAll env s (visitResource str e) = .ok s') :
    ∃ (made : List (Str × Str × Op20)) (defs : Dict Str Definition),
      List.Forall₂ (fun x y => Made env (jp_escape e.1) e.2 x.2.1 x.2.2 y.1 y.2.1 y.2.2) e.2.apis.reverse made ∧
      DefSteps env s.definitions (e.2.models.reverse.map fun km => (jp_escape e.1, km.2)) defs ∧
      s' = { s with
        tags := if jp_escape e.1 ∈ s.tags then s.tags else s.tags ++ [jp_escape e.1]
        definitions := defs, paths := made.foldl put s.paths } := by
  simp only [visitResource, visitAll, visit, resource] at h
  rw [getName_resource] at h
  simp only [bind, Except.bind] at h
  obtain ⟨s1, h1, h2⟩ := visitAll_append_ok h
  rw [← List.map_reverse] at h1
  obtain ⟨defs, hd, hs1⟩ := visit_models _ h1
  obtain ⟨made, hm, hs'⟩ := visit_ops _ h2
  refine ⟨made, defs, hm, ?_, ?_⟩
  · split at hd <;> exact hd
  · rw [hs', hs1]
    split <;> rfl

/-- the operations of a document in the order of the scan: name of the resource, resource, path,
operation -/
def opsOf (apis : List (Str × Resource)) : List (Str × Resource × Option Str × Operation) :=
  apis.flatMap fun e => e.2.apis.reverse.map fun x => (e.1, e.2, x.2.1, x.2.2)

/-- the models of a document in the order of the scan, each with the name of its resource -/
def modelsOf (apis : List (Str × Resource)) : List (Str × Model) :=
  apis.flatMap fun e => e.2.models.reverse.map fun km => (e.1, km.2)

theorem visit_resources {str : Nat → Str} (es : List (Str × Resource)) {s s' : Swagger}
    (h : visitAll env s (es.flatMap (visitResource str)) = .ok s') :
    ∃ (made : List (Str × Str × Op20)) (defs : Dict Str Definition),
      List.Forall₂ (fun x y => Made env (jp_escape x.1) x.2.1 x.2.2.1 x.2.2.2 y.1 y.2.1 y.2.2) (opsOf es) made ∧
      DefSteps env s.definitions ((modelsOf es).map fun km => (jp_escape km.1, km.2)) defs ∧
      s' = { s with tags := s'.tags, definitions := defs, paths := made.foldl put s.paths } ∧
      (∀ t, t ∈ s'.tags ↔ t ∈ s.tags ∨ ∃ e ∈ es, t = jp_escape e.1) := by
  induction es generalizing s with
  | nil =>
    simp only [List.flatMap_nil, visitAll, Except.ok.injEq] at h
    subst h
    exact ⟨[], _, .nil, .nil _, rfl, by simp⟩
  | cons e es ih =>
    rw [List.flatMap_cons] at h
    obtain ⟨s1, h1, h2⟩ := visitAll_append_ok h
    obtain ⟨made1, defs1, hm1, hd1, hs1⟩ := visit_resource e h1
    obtain ⟨made2, defs2, hm2, hd2, hs2, ht2⟩ := ih h2
    refine ⟨made1 ++ made2, defs2, ?_, ?_, ?_, ?_⟩
    · simp only [opsOf, List.flatMap_cons]
      refine List.rel_append ?_ hm2
      rw [List.forall₂_map_left_iff]
      exact hm1
    · simp only [modelsOf, List.flatMap_cons, List.map_append, List.map_map]
      have hd2' := hd2
      rw [hs1] at hd2'
      refine DefSteps.append (d2 := defs1) ?_ hd2'
      simpa [Function.comp_def] using hd1
    · rw [hs2, hs1, List.foldl_append]
    · intro t
      rw [ht2, hs1]
      simp only
      by_cases hmem : jp_escape e.1 ∈ s.tags
      · simp only [hmem, if_true, List.mem_cons, exists_eq_or_imp]
        constructor
        · rintro (h | h)
          · exact Or.inl h
          · exact Or.inr (Or.inr h)
        · rintro (h | rfl | h)
          · exact Or.inl h
          · exact Or.inl hmem
          · exact Or.inr h
      · simp only [hmem, if_false, List.mem_append, List.mem_cons, exists_eq_or_imp, List.not_mem_nil, or_false]
        exact or_assoc

theorem visit_auths (vs : List (Str × Auth)) {s s' : Swagger}
    (h : visitAll env s (vs.map fun ka => .authorization (c!"#/authorizations/" ++ jp_escape ka.1) ka.2) = .ok s') :
    s' = { s with
      securityDefinitions := vs.foldl (fun d ka => Dict.set d (jp_escape ka.1) (scheme20 ka.2)) s.securityDefinitions } := by
  induction vs generalizing s with
  | nil =>
    simp only [List.map_nil, visitAll, Except.ok.injEq] at h
    exact h.symm
  | cons ka vs ih =>
    simp only [List.map_cons, visitAll, visit, authorization] at h
    rw [getName_auth] at h
    rw [ih h]
    rfl

/-- The whole scan. -/
theorem visit_document {str : Nat → Str} {l : ResourceList} {s s' : Swagger}
    (h : visitAll env s (visits l str) = .ok s') :
    ∃ (made : List (Str × Str × Op20)) (defs : Dict Str Definition),
      List.Forall₂ (fun x y => Made env (jp_escape x.1) x.2.1 x.2.2.1 x.2.2.2 y.1 y.2.1 y.2.2)
        (opsOf l.apis.reverse) made ∧
      DefSteps env s.definitions ((modelsOf l.apis.reverse).map fun km => (jp_escape km.1, km.2)) defs ∧
      s' = { s with
        tags := s'.tags, definitions := defs, paths := made.foldl put s.paths,
        securityDefinitions := (l.authorizations.reverse.foldl
          (fun d ka => Dict.set d (jp_escape ka.1) (scheme20 ka.2)) s.securityDefinitions) } ∧
      (∀ t, t ∈ s'.tags ↔ t ∈ s.tags ∨ ∃ e ∈ l.apis, t = jp_escape e.1) := by
  obtain ⟨s1, h1, h2⟩ := visitAll_append_ok h
  have hs1 := visit_auths _ h1
  obtain ⟨made, defs, hm, hd, hs2, ht⟩ := visit_resources _ h2
  refine ⟨made, defs, hm, ?_, ?_, ?_⟩
  · rw [hs1] at hd; exact hd
  · rw [hs2, hs1]
  · intro t
    rw [ht, hs1]
    simp only [List.mem_reverse]

/-! ## the operations put together -/

/-- the operation below a key and a method -/
def lookup (paths : Dict Str (Dict Str Op20)) (key m : Str) : Option Op20 :=
  (Dict.get? paths key).bind fun item => Dict.get? item m

theorem lookup_put (paths : Dict Str (Dict Str Op20)) (e : Str × Str × Op20) (key m : Str) :
    lookup (put paths e) key m = if key = e.1 ∧ m = e.2.1 then some e.2.2 else lookup paths key m := by
  obtain ⟨k, n, o⟩ := e
  unfold lookup put
  by_cases hk : key = k
  · subst hk
    simp only [Dict.get?_set_self, Option.bind_some]
    by_cases hm : m = n
    · subst hm; simp [Dict.get?_set_self]
    · rw [Dict.get?_set_ne _ _ hm]
      simp only [hm, and_false, if_false]
      cases Dict.get? paths key <;> simp [Dict.get?]
  · rw [Dict.get?_set_ne _ _ hk]
    simp [hk]

theorem lookup_foldl (made : List (Str × Str × Op20)) (paths : Dict Str (Dict Str Op20)) (key m : Str) (o : Op20)
    (h : lookup (made.foldl put paths) key m = some o) : (key, m, o) ∈ made ∨ lookup paths key m = some o := by
  induction made generalizing paths with
  | nil => exact Or.inr h
  | cons e made ih =>
    rcases ih _ h with h | h
    · exact Or.inl (by simp [h])
    · rw [lookup_put] at h
      split at h
      · rename_i hc
        cases h
        exact Or.inl (by rw [hc.1, hc.2]; simp)
      · exact Or.inr h

theorem lookup_isSome (made : List (Str × Str × Op20)) (paths : Dict Str (Dict Str Op20)) (key m : Str)
    (h : (∃ o, (key, m, o) ∈ made) ∨ (lookup paths key m).isSome) : (lookup (made.foldl put paths) key m).isSome := by
  induction made generalizing paths with
  | nil => simpa using h
  | cons e made ih =>
    refine ih _ ?_
    rw [lookup_put]
    by_cases hc : key = e.1 ∧ m = e.2.1
    · exact Or.inr (by simp [hc])
    · rw [if_neg hc]
      rcases h with ⟨o, h⟩ | h
      · rcases List.mem_cons.1 h with rfl | h
        · exact absurd ⟨rfl, rfl⟩ hc
        · exact Or.inl ⟨o, h⟩
      · exact Or.inr h

theorem wf_foldl_put (made : List (Str × Str × Op20)) {paths : Dict Str (Dict Str Op20)} (h : Dict.WF paths) :
    Dict.WF (made.foldl put paths) := by
  induction made generalizing paths with
  | nil => exact h
  | cons e made ih => exact ih (Dict.WF_set h _ _)

theorem keys_foldl_put (made : List (Str × Str × Op20)) (paths : Dict Str (Dict Str Op20)) (k : Str) :
    k ∈ Dict.keys (made.foldl put paths) ↔ k ∈ Dict.keys paths ∨ ∃ e ∈ made, e.1 = k := by
  induction made generalizing paths with
  | nil => simp
  | cons e made ih =>
    rw [List.foldl_cons, ih]
    simp only [put, Dict.mem_keys_set, List.mem_cons, exists_eq_or_imp]
    constructor
    · rintro ((h | h) | h)
      · exact Or.inr (Or.inl h.symm)
      · exact Or.inl h
      · exact Or.inr (Or.inr h)
    · rintro (h | h | h)
      · exact Or.inl (Or.inr h)
      · exact Or.inl (Or.inl h.symm)
      · exact Or.inr h

end Upgrade
