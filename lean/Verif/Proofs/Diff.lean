import Verif.Model.Diff
import Verif.Spec.Diff
import Verif.Proofs.Scan
/-! # Helper lemmas for `_diff_` (C45) -/

namespace Proofs.Diff
open Py Utils _root_.Diff Spec.Diff Proofs.ScanTree

theorem name_ty (v : Val) : (ty v).name = typeName v := by cases v <;> rfl
theorem text_ty (v : Val) : (ty v).text = typeText v := by simp [Ty.text, typeText, name_ty]

theorem ty_eq {v w : Val} : ty v = ty w ↔ typeName v = typeName w := by
  rw [← name_ty, ← name_ty]
  cases ty v <;> cases ty w <;> decide

theorem ty_dict {v : Val} : ty v = .dict ↔ typeName v = c!"dict" := by
  cases v <;> simp [ty, typeName]

theorem kin_iff {v w : Val} : kin (ty v) (ty w) = true ↔ Alike v w := by
  unfold Alike Integral
  rw [← name_ty, ← name_ty]
  cases ty v <;> cases ty w <;> decide

theorem not_mixed_iff {x : Val} {l : List Val} : ¬ Mixed (x :: l) ↔ ∀ y ∈ l, ty y = ty x := by
  constructor
  · intro h y hy
    apply Classical.byContradiction
    intro hn
    exact h ⟨y, by simp [hy], x, by simp, fun e => hn (ty_eq.2 e)⟩
  · rintro h ⟨a, ha, b, hb, hn⟩
    have : ∀ y ∈ x :: l, ty y = ty x := by
      intro y hy
      rcases List.mem_cons.1 hy with rfl | hy
      · rfl
      · exact h y hy
    exact hn (ty_eq.1 (by rw [this a ha, this b hb]))

theorem reduce_eq (x : Val) (l : List Val) :
    (reduce x l = .ok (ty x) ∧ ¬ Mixed (x :: l)) ∨ (reduce x l = .error .ValueError ∧ Mixed (x :: l)) := by
  have : (reduce x l = .ok (ty x) ∧ ∀ y ∈ l, ty y = ty x) ∨
      (reduce x l = .error .ValueError ∧ ¬ ∀ y ∈ l, ty y = ty x) := by
    induction l with
    | nil => left; simp [reduce]
    | cons y l ih =>
      by_cases h : ty y = ty x
      · rcases ih with ih | ih
        · left; simp [reduce, h]; exact ih
        · right; simp [reduce, h]; simpa using ih
      · right; simp [reduce, h]
  rcases this with h | h
  · exact Or.inl ⟨h.1, not_mixed_iff.2 h.2⟩
  · exact Or.inr ⟨h.1, Classical.byContradiction fun hm => h.2 (not_mixed_iff.1 hm)⟩

theorem not_mixed_same {l : List Val} (h : ¬ Mixed l) {x y : Val} (hx : x ∈ l) (hy : y ∈ l) :
    typeName x = typeName y :=
  Classical.byContradiction fun hn => h ⟨x, hx, y, hy, hn⟩

theorem alike_all {l m : List Val} (h1 : ¬ Mixed l) (h2 : ¬ Mixed m) {x y : Val} (hx : x ∈ l) (hy : y ∈ m)
    (h : Alike x y) : ∀ a ∈ l, ∀ b ∈ m, Alike a b := by
  intro a ha b hb
  have e1 := not_mixed_same h1 ha hx
  have e2 := not_mixed_same h2 hb hy
  unfold Alike Integral at *
  rw [e1, e2]
  exact h

theorem worth_iff {v : Val} {x : PyFloat} : Worth v x ↔ num v = some x := by
  constructor
  · rintro ⟨⟩ <;> simp [num]
  · intro h
    cases v <;> simp [num] at h <;> subst h
    next b => cases b <;> constructor
    all_goals constructor

theorem ne_iff {v w : Val} (hs : Scalar v) : ne v w = true ↔ ¬ Eqv v w := by
  have key : Eqv v w ↔ ne v w = false := by
    constructor
    · rintro (⟨_, _, x, h1, h2, hn⟩ | _ | _ | _)
      · rw [worth_iff] at h1 h2
        simp [ne, h1, h2, hn]
      all_goals simp [ne, num]
    · intro h
      unfold ne at h
      cases hv : num v with
      | some x =>
        cases hw : num w with
        | some y =>
          simp [hv, hw] at h
          obtain ⟨rfl, hn⟩ := h
          exact .num v w x (worth_iff.2 hv) (worth_iff.2 hw) hn
        | none => simp [hv, hw] at h
      | none =>
        cases hw : num w with
        | some y => simp [hv, hw] at h
        | none =>
          simp only [hv, hw] at h
          cases v <;> cases w <;> simp [num] at h hv hw <;> first | exact .none | (subst h; first | exact .str _ | exact .other _)
  rw [key]
  simp

theorem mem_kept {incl excl : List Str} {d : Dict Str Val} {k : Str} :
    k ∈ kept incl excl d ↔ k ∈ Dict.keys d ∧ Kept incl excl k := by
  unfold kept Kept
  cases incl <;> cases excl <;> simp [and_assoc]
  intro _
  exact ⟨fun h => ⟨h.2.2, h.1, h.2.1⟩, fun h => ⟨h.2.1, h.2.2, h.1⟩⟩

theorem kept_nodup {incl excl : List Str} {d : Dict Str Val} (h : (Dict.keys d).Nodup) :
    (kept incl excl d).Nodup := by
  unfold kept
  have : (if incl.isEmpty then Dict.keys d else (Dict.keys d).filter (· ∈ incl)).Nodup := by
    split
    · exact h
    · exact List.Pairwise.filter _ h
  dsimp only
  split
  · exact this
  · exact List.Pairwise.filter _ this

theorem at_eq {pre : List Str} (h : [] ∉ pre) (k : Str) : at_ (enc pre) k = enc (pre ++ [k]) := by
  cases pre with
  | nil => simp [at_, enc, jp_compose, jp_compose.go, join, Proofs.JsonPointer.jp_escape_eq]
  | cons t ts =>
    exact compose_some ts (by rintro rfl; exact h (by simp)) k

/-- what the differ says about two values below the tokens `pre` -/
def Verdict (S : List Val → Bool) (incl excl : List Str) (pre : List Str) (v w : Val) :
    Except Exc (List Entry) → Prop
  | .ok r => (∀ e, ¬ Trouble S incl excl e v w) ∧
      (∀ n x, (n, x) ∈ r ↔ ∃ ts, Reports incl excl v w ts x ∧ n = enc (pre ++ ts)) ∧
      (r.map Prod.fst).Nodup
  | .error e => Trouble S incl excl e v w

theorem proper_get {d : Dict Str Val} (h : ProperD d) {k : Str} {v : Val} (hk : Dict.get? d k = some v) :
    Proper v := by
  have := Dict.mem_of_get? hk
  clear hk
  induction d with
  | nil => cases this
  | cons e d ih =>
    obtain ⟨k', v'⟩ := e
    rw [ProperD] at h
    rcases List.mem_cons.1 this with e | hm
    · cases e; exact h.1
    · exact ih h.2 hm

/-- one scalar-like entry at the place itself -/
theorem verdict_one {S : List Val → Bool} {incl excl pre : List Str} {v w : Val} {x : Val × Val}
    (h0 : ∀ e, ¬ Trouble S incl excl e v w)
    (h : ∀ ts y, Reports incl excl v w ts y ↔ ts = [] ∧ y = x) :
    Verdict S incl excl pre v w (.ok [(enc pre, x)]) := by
  refine ⟨h0, ?_, by simp⟩
  intro n y
  simp only [List.mem_singleton, Prod.mk.injEq]
  constructor
  · rintro ⟨rfl, rfl⟩; exact ⟨[], (h _ _).2 ⟨rfl, rfl⟩, by simp⟩
  · rintro ⟨ts, hr, rfl⟩
    obtain ⟨rfl, rfl⟩ := (h _ _).1 hr
    simp

theorem verdict_none {S : List Val → Bool} {incl excl pre : List Str} {v w : Val}
    (h0 : ∀ e, ¬ Trouble S incl excl e v w) (h : ∀ ts y, ¬ Reports incl excl v w ts y) :
    Verdict S incl excl pre v w (.ok []) :=
  ⟨h0, by intro n y; simp; intro ts hr; exact (h _ _ hr).elim, by simp⟩

/-- entries below distinct tokens, put together -/
theorem nodup_below {pre : List Str} {k : Str} {r r' : List Entry}
    (h1 : ∀ x ∈ r, ∃ ts, x.1 = enc (pre ++ k :: ts)) (h2 : ∀ x ∈ r', ∃ k' ts, k' ≠ k ∧ x.1 = enc (pre ++ k' :: ts))
    (n1 : (r.map Prod.fst).Nodup) (n2 : (r'.map Prod.fst).Nodup) : ((r ++ r').map Prod.fst).Nodup := by
  rw [List.map_append, List.nodup_append]
  refine ⟨n1, n2, ?_⟩
  intro a ha b hb e
  obtain ⟨x, hx, rfl⟩ := List.mem_map.1 ha
  obtain ⟨y, hy, rfl⟩ := List.mem_map.1 hb
  obtain ⟨ts, hts⟩ := h1 x hx
  obtain ⟨k', us, hk, hus⟩ := h2 y hy
  rw [hts, hus] at e
  have : pre ++ k :: ts = pre ++ k' :: us := by
    cases pre with
    | nil => exact enc_inj e
    | cons t pre => exact enc_inj e
  have := List.append_cancel_left this
  simp only [List.cons.injEq] at this
  exact hk this.1.symm

theorem enc_key {pre ts us : List Str} {k k' : Str} (e : enc (pre ++ k :: ts) = enc (pre ++ k' :: us)) :
    k = k' ∧ ts = us := by
  have : pre ++ k :: ts = pre ++ k' :: us := by
    cases pre with
    | nil => exact enc_inj e
    | cons t pre => exact enc_inj e
  have := List.append_cancel_left this
  simpa using this

section
variable {order : Str → List Str → List Str} (ho : ∀ n l, (order n l).Perm l) (S : List Val → Bool)
  (incl excl : List Str)

/-- the verdicts about common keys -/
theorem visit_verdict {pre : List Str} {d e : Dict Str Val} {rs : Dict Str (Except Exc (List Entry))}
    (hrs : ∀ k v w, Dict.get? d k = some v → Dict.get? e k = some w →
      ∃ r, Dict.get? rs k = some r ∧ Verdict S incl excl (pre ++ [k]) v w r) :
    ∀ ks : List Str, ks.Nodup → (∀ k ∈ ks, (∃ v, Dict.get? d k = some v) ∧ ∃ w, Dict.get? e k = some w) →
    match visit rs ks with
    | .error x => ∃ k ∈ ks, ∃ v w, Dict.get? d k = some v ∧ Dict.get? e k = some w ∧
        Trouble S incl excl x v w
    | .ok r => (∀ k ∈ ks, ∀ v w, Dict.get? d k = some v → Dict.get? e k = some w →
          ∀ x, ¬ Trouble S incl excl x v w) ∧
        (∀ n x, (n, x) ∈ r ↔ ∃ k ∈ ks, ∃ v w ts, Dict.get? d k = some v ∧ Dict.get? e k = some w ∧
          Reports incl excl v w ts x ∧ n = enc (pre ++ k :: ts)) ∧
        (r.map Prod.fst).Nodup := by
  intro ks
  induction ks with
  | nil => intro _ _; simp [visit]
  | cons k ks ih =>
    intro hn hk
    obtain ⟨⟨v, hv⟩, w, hw⟩ := hk k (by simp)
    obtain ⟨r, hr, hver⟩ := hrs k v w hv hw
    have ih := ih (List.nodup_cons.1 hn).2 fun k' hk' => hk k' (by simp [hk'])
    rw [visit, hr]
    cases r with
    | error x => exact ⟨k, by simp, v, w, hv, hw, hver⟩
    | ok r =>
      cases hvis : visit rs ks with
      | error x =>
        rw [hvis] at ih
        obtain ⟨k', hk', h⟩ := ih
        exact ⟨k', by simp [hk'], h⟩
      | ok r' =>
        rw [hvis] at ih
        obtain ⟨h1, h2, h3⟩ := ih
        obtain ⟨g1, g2, g3⟩ := hver
        refine ⟨?_, ?_, ?_⟩
        · intro k' hk' v' w' hv' hw'
          rcases List.mem_cons.1 hk' with rfl | hk'
          · rw [hv] at hv'; rw [hw] at hw'; cases hv'; cases hw'; exact g1
          · exact h1 k' hk' v' w' hv' hw'
        · intro n x
          simp only [List.mem_append, g2, h2, List.mem_cons]
          constructor
          · rintro (⟨ts, h, rfl⟩ | ⟨k', hk', v', w', ts, h⟩)
            · exact ⟨k, Or.inl rfl, v, w, ts, hv, hw, h, by simp⟩
            · exact ⟨k', Or.inr hk', v', w', ts, h⟩
          · rintro ⟨k', rfl | hk', v', w', ts, hv', hw', h, rfl⟩
            · rw [hv] at hv'; rw [hw] at hw'; cases hv'; cases hw'
              exact Or.inl ⟨ts, h, by simp⟩
            · exact Or.inr ⟨k', hk', v', w', ts, hv', hw', h, rfl⟩
        · refine nodup_below (pre := pre) (k := k) ?_ ?_ g3 h3
          · rintro ⟨n, x⟩ hx
            obtain ⟨ts, _, rfl⟩ := (g2 n x).1 hx
            exact ⟨ts, by simp⟩
          · rintro ⟨n, x⟩ hx
            obtain ⟨k', hk', _, _, ts, _, _, _, rfl⟩ := (h2 n x).1 hx
            exact ⟨k', ts, by rintro rfl; exact (List.nodup_cons.1 hn).1 hk', rfl⟩

theorem scalar_verdict {v w : Val} (pre : List Str) (hs : Scalar v) :
    Verdict S incl excl pre v w (if ne v w then .ok [(enc pre, v, w)] else .ok []) := by
  have ht : ∀ e, ¬ Trouble S incl excl e v w := by
    rintro e (_ | _ | _ | _) <;> simp [Scalar, typeName] at hs
  by_cases h : ne v w = true
  · rw [if_pos h]
    apply verdict_one ht
    intro ts y
    constructor
    · rintro (_ | _ | _ | _ | _ | _ | _ | _ | _) <;> first | exact ⟨rfl, rfl⟩ | simp [Scalar, typeName] at hs
    · rintro ⟨rfl, rfl⟩
      exact .scalar v w hs ((ne_iff hs).1 h)
  · rw [if_neg h]
    apply verdict_none ht
    rintro ts y (_ | _ | _ | _ | _ | _ | _ | _ | _) <;> try simp [Scalar, typeName] at hs
    next h1 h2 => exact h ((ne_iff hs).2 h2)

/-- a dict against something else, or a list against something else -/
theorem kind_verdict {v w : Val} (pre : List Str) {s : Str} (h : typeName v = s)
    (hs : s = c!"dict" ∨ s = c!"list") (hw : typeName w ≠ s) :
    Verdict S incl excl pre v w (.ok [(enc pre, .str s, .str (typeName w))]) := by
  subst h
  apply verdict_one
  · rintro e (_ | _ | _ | _) <;> exact hw rfl
  · intro ts y
    constructor
    · rintro (⟨_, _, h, _⟩ | _ | _ | _ | _ | _ | _ | _ | _) <;> first | exact ⟨rfl, rfl⟩ | (exact absurd rfl hw) | skip
      rcases hs with hs | hs
      · exact absurd hs h.1
      · exact absurd hs h.2
    · rintro ⟨rfl, rfl⟩
      cases v <;> simp [typeName] at hs
      · exact .notList _ _ hw
      · exact .notDict _ _ hw

theorem get?_diffDict (pre k : Str) : ∀ d e : Dict Str Val,
    Dict.get? (diffDict order S incl excl pre d e) k =
      match Dict.get? d k, Dict.get? e k with
      | some v, some w => some (diff order S incl excl (at_ pre k) v w)
      | _, _ => none
  | [], e => by simp [diffDict]
  | (k', v) :: d, e => by
    have ih := get?_diffDict pre k d e
    rw [diffDict]
    by_cases hk : k' = k
    · subst hk
      cases he : Dict.get? e k' with
      | none =>
        rw [he] at ih
        simp only [ih, Dict.get?, if_true]
        cases Dict.get? d k' <;> rfl
      | some w => simp [Dict.get?, he]
    · cases he : Dict.get? e k' with
      | none => simp only [ih, Dict.get?, if_neg hk]
      | some w => simp only [ih, Dict.get?, if_neg hk]

include ho in
/-- two dicts, given the verdicts under common keys -/
theorem dict_verdict (pre : List Str) (hp : [] ∉ pre) (d e : Dict Str Val) (hd : (Dict.keys d).Nodup)
    (he : (Dict.keys e).Nodup)
    (h : ∀ k v w, Dict.get? d k = some v → Dict.get? e k = some w →
      Verdict S incl excl (pre ++ [k]) v w (diff order S incl excl (enc (pre ++ [k])) v w)) :
    Verdict S incl excl pre (.dict d) (.dict e) (diff order S incl excl (enc pre) (.dict d) (.dict e)) := by
  rw [diff]
  have hk : ∀ k ∈ order (enc pre) ((kept incl excl d).filter (· ∈ kept incl excl e)),
      Kept incl excl k ∧ (∃ v, Dict.get? d k = some v) ∧ ∃ w, Dict.get? e k = some w := by
    intro k hk
    have := (ho _ _).mem_iff.1 hk
    simp only [List.mem_filter, decide_eq_true_eq, mem_kept] at this
    obtain ⟨⟨h1, h2⟩, h3, _⟩ := this
    exact ⟨h2, Option.isSome_iff_exists.1 ((Dict.get?_isSome_iff _ _).2 h1),
      Option.isSome_iff_exists.1 ((Dict.get?_isSome_iff _ _).2 h3)⟩
  have hk' : ∀ k v w, Kept incl excl k → Dict.get? d k = some v → Dict.get? e k = some w →
      k ∈ order (enc pre) ((kept incl excl d).filter (· ∈ kept incl excl e)) := by
    intro k v w h1 h2 h3
    apply (ho _ _).mem_iff.2
    simp only [List.mem_filter, decide_eq_true_eq, mem_kept]
    exact ⟨⟨(Dict.get?_isSome_iff _ _).1 (by simp [h2]), h1⟩, (Dict.get?_isSome_iff _ _).1 (by simp [h3]), h1⟩
  have hv := visit_verdict S incl excl (pre := pre) (d := d) (e := e)
    (rs := diffDict order S incl excl (enc pre) d e)
    (fun k v w h1 h2 => ⟨_, by rw [get?_diffDict, h1, h2], by rw [at_eq hp]; exact h k v w h1 h2⟩)
    (order (enc pre) ((kept incl excl d).filter (· ∈ kept incl excl e)))
    ((ho _ _).nodup_iff.2 (List.Pairwise.filter _ (kept_nodup hd)))
    (fun k hm => (hk k hm).2)
  cases hr : visit (diffDict order S incl excl (enc pre) d e)
      (order (enc pre) ((kept incl excl d).filter (· ∈ kept incl excl e))) with
  | error x =>
    rw [hr] at hv
    obtain ⟨k, hm, v, w, h1, h2, ht⟩ := hv
    exact .key d e k v w x (hk k hm).1 h1 h2 ht
  | ok r =>
    rw [hr] at hv
    obtain ⟨h1, h2, h3⟩ := hv
    have hadd : ∀ k, k ∈ order (enc pre) ((kept incl excl e).filter (· ∉ kept incl excl d)) ↔
        Kept incl excl k ∧ k ∉ Dict.keys d ∧ k ∈ Dict.keys e := by
      intro k
      rw [(ho _ _).mem_iff]
      simp only [List.mem_filter, decide_eq_true_eq, mem_kept]
      exact ⟨fun h => ⟨h.1.2, fun hx => h.2 ⟨hx, h.1.2⟩, h.1.1⟩, fun h => ⟨⟨h.2.2, h.1⟩, fun hx => h.2.1 hx.1⟩⟩
    have hrem : ∀ k, k ∈ order (enc pre) ((kept incl excl d).filter (· ∉ kept incl excl e)) ↔
        Kept incl excl k ∧ k ∈ Dict.keys d ∧ k ∉ Dict.keys e := by
      intro k
      rw [(ho _ _).mem_iff]
      simp only [List.mem_filter, decide_eq_true_eq, mem_kept]
      exact ⟨fun h => ⟨h.1.2, h.1.1, fun hx => h.2 ⟨hx, h.1.2⟩⟩, fun h => ⟨⟨h.2.1, h.1⟩, fun hx => h.2.2 hx.1⟩⟩
    have hmiss : ∀ k, missing (enc pre) k = (enc (pre ++ [k]), .none, .none) := by
      intro k; rw [missing, at_eq hp]
    refine ⟨?_, ?_, ?_⟩
    · rintro x (_ | _ | _ | ⟨_, _, k, v, w, _, g1, g2, g3, g4⟩)
      exact h1 k (hk' k v w g1 g2 g3) v w g2 g3 _ g4
    · intro n x
      simp only [List.mem_append, List.mem_map, hadd, hrem, hmiss, h2]
      constructor
      · rintro ((⟨k, hx, e⟩ | ⟨k, hx, e⟩) | ⟨k, hm, v, w, ts, g1, g2, g3, rfl⟩)
        · cases e; exact ⟨[k], .added d _ k hx.1 hx.2.1 hx.2.2, rfl⟩
        · cases e; exact ⟨[k], .removed d _ k hx.1 hx.2.1 hx.2.2, rfl⟩
        · exact ⟨k :: ts, .key d e k v w ts x (hk k hm).1 g1 g2 g3, rfl⟩
      · rintro ⟨ts, hx, rfl⟩
        cases hx with
        | scalar _ _ h => simp [Scalar, typeName] at h
        | notDict _ _ h => exact absurd rfl h
        | added _ _ k a b c => exact Or.inl (Or.inl ⟨k, ⟨a, b, c⟩, rfl⟩)
        | removed _ _ k a b c => exact Or.inl (Or.inr ⟨k, ⟨a, b, c⟩, rfl⟩)
        | key _ _ k v w ts _ a b c g => exact Or.inr ⟨k, hk' k v w a b c, v, w, ts, b, c, g, rfl⟩
    · have hA : ((order (enc pre) ((kept incl excl e).filter (· ∉ kept incl excl d))).map (missing (enc pre))
          ++ (order (enc pre) ((kept incl excl d).filter (· ∉ kept incl excl e))).map (missing (enc pre))) =
          (order (enc pre) ((kept incl excl e).filter (· ∉ kept incl excl d)) ++
            order (enc pre) ((kept incl excl d).filter (· ∉ kept incl excl e))).map (missing (enc pre)) := by
        simp
      have hnd : (order (enc pre) ((kept incl excl e).filter (· ∉ kept incl excl d)) ++
            order (enc pre) ((kept incl excl d).filter (· ∉ kept incl excl e))).Nodup := by
        rw [List.nodup_append]
        refine ⟨(ho _ _).nodup_iff.2 (List.Pairwise.filter _ (kept_nodup he)),
          (ho _ _).nodup_iff.2 (List.Pairwise.filter _ (kept_nodup hd)), ?_⟩
        rintro a ha b hb rfl
        exact ((hadd a).1 ha).2.1 ((hrem a).1 hb).2.1
      rw [List.map_append, hA, List.map_map, List.nodup_append]
      refine ⟨?_, h3, ?_⟩
      · rw [List.Nodup, List.pairwise_map]
        refine List.Pairwise.imp ?_ hnd
        intro a b hab hx
        simp only [Function.comp, hmiss] at hx
        exact hab (enc_key hx).1
      · intro a ha b hb hx
        obtain ⟨k, hm, rfl⟩ := List.mem_map.1 ha
        obtain ⟨⟨n, x⟩, hm2, rfl⟩ := List.mem_map.1 hb
        obtain ⟨k2, hm2, v, w, ts, g1, g2, _, rfl⟩ := (h2 n x).1 hm2
        simp only [Function.comp, hmiss] at hx
        obtain ⟨rfl, _⟩ := enc_key hx
        have m1 : k ∈ Dict.keys d := (Dict.get?_isSome_iff _ _).1 (by simp [g1])
        have m2 : k ∈ Dict.keys e := (Dict.get?_isSome_iff _ _).1 (by simp [g2])
        rcases List.mem_append.1 hm with hm | hm
        · exact ((hadd k).1 hm).2.1 m1
        · exact ((hrem k).1 hm).2.2 m2

/-- what the differ says about two lists of the same length, from the index `i` on -/
def VerdictL (i : Nat) (pre : List Str) (l m : List Val) : Except Exc (List Entry) → Prop
  | .ok r => (∀ (j : Nat) v w, l[j]? = some v → m[j]? = some w → ∀ e, ¬ Trouble S incl excl e v w) ∧
      (∀ n x, (n, x) ∈ r ↔ ∃ (j : Nat) (v w : Val) (ts : List Str), l[j]? = some v ∧ m[j]? = some w ∧ Reports incl excl v w ts x ∧
        n = enc (pre ++ natStr (i + j) :: ts)) ∧
      (r.map Prod.fst).Nodup
  | .error e => ∃ (j : Nat) (v w : Val), l[j]? = some v ∧ m[j]? = some w ∧ Trouble S incl excl e v w

/-- two lists, given the verdicts of their elements -/
theorem list_verdict (pre : List Str) (l m : List Val)
    (h : l.length = m.length → VerdictL S incl excl 0 pre l m (diffList order S incl excl (enc pre) 0 l m)) :
    Verdict S incl excl pre (.list l) (.list m) (diff order S incl excl (enc pre) (.list l) (.list m)) := by
  rw [diff]
  rcases Classical.em (l.length = m.length) with hl | hl
  rotate_left
  · have : Verdict S incl excl pre (.list l) (.list m) (.ok [(enc pre, .int l.length, .int m.length)]) := by
      apply verdict_one
      · intro e ht
        cases ht <;> exact hl ‹_›
      · intro ts y
        constructor
        · intro hr
          cases hr with
          | scalar _ _ h => simp [Scalar, typeName] at h
          | notList _ _ h => exact absurd rfl h
          | length => exact ⟨rfl, rfl⟩
          | types => simp at hl; contradiction
          | item => contradiction
        · rintro ⟨rfl, rfl⟩
          exact .length l m hl
    by_cases hlt : l.length < m.length
    · rw [if_pos hlt]; exact this
    · rw [if_neg hlt, if_pos (by omega)]; exact this
  rw [if_neg (by omega), if_neg (by omega)]
  cases l with
  | nil =>
    cases m with
    | cons _ _ => simp at hl
    | nil =>
      apply verdict_none
      · intro e ht
        cases ht with
        | mixed _ _ _ h => simp [Mixed] at h
        | unsorted _ _ _ h => exact h rfl
        | item _ _ i v w _ _ _ h => simp at h
      · intro ts y hr
        cases hr with
        | scalar _ _ h => simp [Scalar, typeName] at h
        | notList _ _ h => exact absurd rfl h
        | length _ _ h => exact h rfl
        | item _ _ i v w _ _ _ _ h => simp at h
  | cons x l =>
    cases m with
    | nil => simp at hl
    | cons y m =>
      have h := h hl
      simp only [List.head?_cons, List.tail_cons]
      rcases (reduce_eq x l).symm with ⟨r1, n1⟩ | ⟨r1, n1⟩
      · rw [r1]; exact .mixed _ _ hl (Or.inl n1)
      rcases (reduce_eq y m).symm with ⟨r2, n2⟩ | ⟨r2, n2⟩
      · rw [r1, r2]; exact .mixed _ _ hl (Or.inr n2)
      rw [r1, r2]
      dsimp only
      rcases Classical.em (kin (ty x) (ty y) = true) with hkin | hkin
      rotate_left
      · rw [if_neg hkin]
        have hna : ¬ Alike x y := fun ha => hkin (kin_iff.2 ha)
        rw [text_ty, text_ty]
        apply verdict_one
        · intro e ht
          cases ht with
          | mixed _ _ _ h => exact h.elim n1 n2
          | unsorted _ _ _ _ _ _ h => exact hna (h x (by simp) y (by simp))
          | item _ _ _ _ _ _ _ h => exact hna (h x (by simp) y (by simp))
        · intro ts z
          constructor
          · intro hr
            cases hr with
            | scalar _ _ h => simp [Scalar, typeName] at h
            | notList _ _ h => exact absurd rfl h
            | length _ _ h => exact absurd hl h
            | types => exact ⟨rfl, rfl⟩
            | item _ _ _ _ _ _ _ _ h => exact absurd (h x (by simp) y (by simp)) hna
          · rintro ⟨rfl, rfl⟩
            exact .types x y l m (by simpa using hl) hna
      rw [if_pos hkin]
      have hal := alike_all n1 n2 (x := x) (y := y) (by simp) (by simp) (kin_iff.1 hkin)
      by_cases hs : (ty x ≠ Ty.dict && !(S (x :: l) && S (y :: m))) = true
      · rw [if_pos hs]
        simp only [ne_eq, Bool.and_eq_true, Bool.not_eq_true', Bool.and_eq_false_iff,
          decide_not] at hs
        refine .unsorted _ _ hl (by simp) n1 n2 hal ?_ hs.2
        intro a ha e
        have := not_mixed_same n1 ha (List.mem_cons_self (a := x) (l := l))
        rw [this] at e
        have hx : ty x ≠ Ty.dict := by simpa using hs.1
        exact hx (ty_dict.2 e)
      · rw [if_neg hs]
        cases hr : diffList order S incl excl (enc pre) 0 (x :: l) (y :: m) with
        | error e =>
          rw [hr] at h
          obtain ⟨j, v, w, g1, g2, g3⟩ := h
          exact .item _ _ j v w e hl hal g1 g2 g3
        | ok r =>
          rw [hr] at h
          obtain ⟨g1, g2, g3⟩ := h
          refine ⟨?_, ?_, g3⟩
          · intro e ht
            cases ht with
            | mixed _ _ _ h => exact h.elim n1 n2
            | unsorted _ _ _ _ _ _ _ hd hx =>
              apply hs
              have : ty x ≠ .dict := fun e => hd x (by simp) (ty_dict.1 e)
              rcases hx with hx | hx <;> simp [hx, this]
            | item _ _ j v w _ _ _ h1 h2 h3 => exact g1 j v w h1 h2 e h3
          · intro n z
            rw [g2]
            constructor
            · rintro ⟨j, v, w, ts, h1, h2, h3, rfl⟩
              exact ⟨natStr j :: ts, .item _ _ j v w ts z hl hal h1 h2 h3, by simp⟩
            · rintro ⟨ts, hr, rfl⟩
              cases hr with
              | scalar _ _ h => simp [Scalar, typeName] at h
              | notList _ _ h => exact absurd rfl h
              | length _ _ h => exact absurd hl h
              | types _ _ _ _ _ h => exact absurd (kin_iff.1 hkin) h
              | item _ _ j v w ts _ _ _ h1 h2 h3 => exact ⟨j, v, w, ts, h1, h2, h3, by simp⟩

theorem natStr_ne_nil (n : Nat) : natStr n ≠ [] := by
  obtain ⟨c, s, h, _⟩ := natStr_cons n
  simp [h]

include ho in
mutual
theorem diff_verdict : ∀ (v w : Val) (pre : List Str), [] ∉ pre → Proper v → Proper w →
    Verdict S incl excl pre v w (diff order S incl excl (enc pre) v w)
  | .dict d, w, pre, hp, hv, hw => by
    cases w
    case dict e =>
      rw [Proper] at hv hw
      exact dict_verdict ho S incl excl pre hp d e hv.1 hw.1 (diffDict_verdict d e pre hp hv.2.1 hv.2.2 hw.2.2)
    all_goals
      rw [diff]
      · exact kind_verdict S incl excl pre (s := c!"dict") rfl (Or.inl rfl) (by simp [typeName])
      · nofun
  | .list l, w, pre, hp, hv, hw => by
    cases w
    case list m =>
      rw [Proper] at hv hw
      refine list_verdict S incl excl pre l m fun hl => ?_
      exact diffList_verdict l m 0 pre hp hl hv hw
    all_goals
      rw [diff]
      · exact kind_verdict S incl excl pre (s := c!"list") rfl (Or.inr rfl) (by simp [typeName])
      · nofun
  | .none, w, pre, _, _, _ => by
    rw [diff] <;> first | exact scalar_verdict S incl excl pre (by simp [Scalar, typeName]) | nofun
  | .bool b, w, pre, _, _, _ => by
    rw [diff] <;> first | exact scalar_verdict S incl excl pre (by simp [Scalar, typeName]) | nofun
  | .int b, w, pre, _, _, _ => by
    rw [diff] <;> first | exact scalar_verdict S incl excl pre (by simp [Scalar, typeName]) | nofun
  | .float b, w, pre, _, _, _ => by
    rw [diff] <;> first | exact scalar_verdict S incl excl pre (by simp [Scalar, typeName]) | nofun
  | .str b, w, pre, _, _, _ => by
    rw [diff] <;> first | exact scalar_verdict S incl excl pre (by simp [Scalar, typeName]) | nofun
  | .other b, w, pre, _, _, _ => by
    rw [diff] <;> first | exact scalar_verdict S incl excl pre (by simp [Scalar, typeName]) | nofun
theorem diffList_verdict : ∀ (l m : List Val) (i : Nat) (pre : List Str), [] ∉ pre → l.length = m.length →
    ProperL l → ProperL m →
    VerdictL S incl excl i pre l m (diffList order S incl excl (enc pre) i l m)
  | [], m, i, pre, _, _, _, _ => by
    rw [diffList] <;> simp [VerdictL]
  | s :: l, [], i, pre, _, hl, _, _ => by simp at hl
  | s :: l, d :: m, i, pre, hp, hl, hs, hd => by
    rw [ProperL] at hs hd
    have h1 := diff_verdict s d (pre ++ [natStr i]) (by simp [hp, (natStr_ne_nil i).symm]) hs.1 hd.1
    have h2 := diffList_verdict l m (i + 1) pre hp (by simpa using hl) hs.2 hd.2
    rw [diffList, at_eq hp]
    cases hr : diff order S incl excl (enc (pre ++ [natStr i])) s d with
    | error e => rw [hr] at h1; exact ⟨0, s, d, rfl, rfl, h1⟩
    | ok r =>
      rw [hr] at h1
      cases hr2 : diffList order S incl excl (enc pre) (i + 1) l m with
      | error e =>
        rw [hr2] at h2
        obtain ⟨j, v, w, h⟩ := h2
        exact ⟨j + 1, v, w, by simpa using h⟩
      | ok r' =>
        rw [hr2] at h2
        obtain ⟨a1, a2, a3⟩ := h1
        obtain ⟨b1, b2, b3⟩ := h2
        refine ⟨?_, ?_, ?_⟩
        · rintro (_ | j) v w hv hw
          · cases hv; cases hw; exact a1
          · exact b1 j v w (by simpa using hv) (by simpa using hw)
        · intro n x
          simp only [List.mem_append, a2, b2]
          constructor
          · rintro (⟨ts, h, rfl⟩ | ⟨j, v, w, ts, h1, h2, h3, rfl⟩)
            · exact ⟨0, s, d, ts, rfl, rfl, h, by simp⟩
            · exact ⟨j + 1, v, w, ts, by simpa using h1, by simpa using h2, h3, by
                rw [show i + 1 + j = i + (j + 1) by omega]⟩
          · rintro ⟨_ | j, v, w, ts, h1, h2, h3, rfl⟩
            · cases h1; cases h2; exact Or.inl ⟨ts, h3, by simp⟩
            · exact Or.inr ⟨j, v, w, ts, by simpa using h1, by simpa using h2, h3, by
                rw [show i + 1 + j = i + (j + 1) by omega]⟩
        · refine nodup_below (pre := pre) (k := natStr i) ?_ ?_ a3 b3
          · rintro ⟨n, x⟩ hx
            obtain ⟨ts, _, rfl⟩ := (a2 n x).1 hx
            exact ⟨ts, by simp⟩
          · rintro ⟨n, x⟩ hx
            obtain ⟨j, _, _, ts, _, _, _, rfl⟩ := (b2 n x).1 hx
            exact ⟨natStr (i + 1 + j), ts, fun e => by have := natStr_inj e; omega, rfl⟩
theorem diffDict_verdict : ∀ (d e : List (Str × Val)) (pre : List Str), [] ∉ pre →
    [] ∉ Dict.keys d → ProperD d → ProperD e → ∀ k v w, Dict.get? d k = some v → Dict.get? e k = some w →
      Verdict S incl excl (pre ++ [k]) v w (diff order S incl excl (enc (pre ++ [k])) v w)
  | [], e, pre, _, _, _, _, k, v, w, h, _ => by simp at h
  | (k', v') :: d, e, pre, hp, hd, hv, hw, k, v, w, h1, h2 => by
    rw [ProperD] at hv
    simp only [Dict.keys, List.map_cons, List.mem_cons, not_or] at hd
    rw [Dict.get?] at h1
    by_cases hk : k' = k
    · rw [if_pos hk] at h1
      cases h1
      exact diff_verdict v' w (pre ++ [k]) (by simp [hp]; rw [← hk]; exact fun e => hd.1 e.symm) hv.1 (proper_get hw h2)
    · rw [if_neg hk] at h1
      exact diffDict_verdict d e pre hp hd.2 hv.2 hw k v w h1 h2
end

end

end Proofs.Diff
