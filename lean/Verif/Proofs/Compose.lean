import Verif.Proofs.Aggregate
/-! # Helper lemmas for `allOf` composition (C53): references, the loop, recursion -/

namespace Proofs.Aggregate
open Py _root_.Aggregate Spec.Aggregate

variable {h0 h h' : Heap}

/-! ## references -/

theorem ends_fun {x t t' : Nat} (a : Ends h x t) (b : Ends h x t') : t = t' := by
  induction a with
  | here hr => cases b with
    | here => rfl
    | step hr' => rw [hr] at hr'; cases hr'
  | step hr _ ih => cases b with
    | here hr' => rw [hr] at hr'; cases hr'
    | step hr' b => rw [hr] at hr'; cases hr'; exact ih b

/-- a chain with its length -/
inductive EndsN (h : Heap) : Nat → Nat → Nat → Prop
  | here {x} : (look h x).ref = none → EndsN h x x 0
  | step {x r z k} : (look h x).ref = some r → EndsN h r z k → EndsN h x z (k + 1)

theorem EndsN.ends {x t k : Nat} (a : EndsN h x t k) : Ends h x t := by
  induction a with
  | here hr => exact .here hr
  | step hr _ ih => exact .step hr ih

theorem ends_n {x t : Nat} (a : Ends h x t) : ∃ k, EndsN h x t k := by
  induction a with
  | here hr => exact ⟨0, .here hr⟩
  | step hr _ ih => obtain ⟨k, hk⟩ := ih; exact ⟨k + 1, .step hr hk⟩

theorem endsN_fun {x t t' k k' : Nat} (a : EndsN h x t k) (b : EndsN h x t' k') : k = k' := by
  induction a generalizing k' with
  | here hr => cases b with
    | here => rfl
    | step hr' => rw [hr] at hr'; cases hr'
  | step hr _ ih => cases b with
    | here hr' => rw [hr] at hr'; cases hr'
    | step hr' b => rw [hr] at hr'; cases hr'; rw [ih b]

theorem deref_cycle : ∀ (k x t : Nat) (g g' : List Nat), EndsN h x t k →
    deref h x g = some (none, g') → ∃ v ∈ g, ∃ k' ≤ k, EndsN h v t k' := by
  intro k
  induction k with
  | zero =>
    intro x t g g' a hd
    cases a with
    | here hr =>
      rw [deref, hr] at hd
      by_cases hx : x ∈ g
      · exact ⟨x, hx, 0, Nat.le_refl _, .here hr⟩
      · simp [hx] at hd
  | succ k ih =>
    intro x t g g' a hd
    have ha := a
    cases a with
    | step hr a =>
      rw [deref, hr] at hd
      by_cases hx : x ∈ g
      · exact ⟨x, hx, k + 1, Nat.le_refl _, ha⟩
      · simp only [hx, if_false] at hd
        obtain ⟨v, hv, k', hk, b⟩ := ih _ _ _ _ a hd
        rcases List.mem_append.1 hv with hv | hv
        · exact ⟨v, hv, k', by omega, b⟩
        · rw [List.mem_singleton.1 hv] at b
          have := endsN_fun ha b
          omega

/-- how many of the first `K` objects are not in the list -/
def room (K : Nat) (g : List Nat) : Nat := ((List.range K).filter fun x => decide (x ∉ g)).length

theorem room_le {K : Nat} {g g' : List Nat} (hs : ∀ x ∈ g, x ∈ g') : room K g' ≤ room K g := by
  unfold room
  rw [← List.countP_eq_length_filter, ← List.countP_eq_length_filter]
  refine List.countP_mono_left fun x _ hx => ?_
  simp only [decide_eq_true_eq] at hx ⊢
  exact fun h => hx (hs x h)

theorem countP_lt {p q : Nat → Bool} {x : Nat} : ∀ {l : List Nat}, x ∈ l → p x = false → q x = true →
    (∀ y, p y = true → q y = true) → l.countP p < l.countP q := by
  intro l
  induction l with
  | nil => intro hx; cases hx
  | cons a l ih =>
    intro hx hp hq hpq
    have hmono : l.countP p ≤ l.countP q := List.countP_mono_left fun y _ => hpq y
    rw [List.countP_cons, List.countP_cons]
    rcases List.mem_cons.1 hx with rfl | hx
    · simp [hp, hq]; omega
    · have := ih hx hp hq hpq
      have : (if p a = true then 1 else 0) ≤ (if q a = true then 1 else 0) := by
        by_cases h : p a = true
        · simp [h, hpq a h]
        · simp [h]
      omega

theorem room_lt {K : Nat} {g g' : List Nat} {x : Nat} (hs : ∀ x ∈ g, x ∈ g') (hx : x < K) (hg : x ∉ g)
    (hg' : x ∈ g') : room K g' < room K g := by
  unfold room
  rw [← List.countP_eq_length_filter, ← List.countP_eq_length_filter]
  refine countP_lt (x := x) (List.mem_range.2 hx) (by simp [hg']) (by simp [hg]) ?_
  intro y hy
  simp only [decide_eq_true_eq] at hy ⊢
  exact fun h => hy (hs y h)

theorem Valid.ref_lt (ld : Loaded h0) (v : Valid h0 h) {x r : Nat} (hx : x < h.length)
    (hr : (look h x).ref = some r) : r < h0.length := by
  have ok := v.ok x hx
  rw [ok.ref] at hr
  exact ld.ref _ ok.org r hr

theorem Valid.orig' (v : Valid h0 h) (ld : Loaded h0) {x : Nat} (hx : x < h0.length) :
    (look h x).ref = (look h0 x).ref ∧ (look h x).origin = x ∧ (look h x).composed = false ∧
    (look h x).allOf = (look h0 x).allOf ∧ (look h x).props = (look h0 x).props ∧
    (look h x).items = (look h0 x).items := by
  have := v.orig x hx
  have p := ld.pure x hx
  refine ⟨by rw [this], by rw [this]; exact p.1, by rw [this]; exact p.2.1, by rw [this], by rw [this],
    by rw [this]⟩

theorem ends_orig (ld : Loaded h0) (v : Valid h0 h) {x t : Nat} (hx : x < h0.length) :
    Ends h x t ↔ Ends h0 x t := by
  constructor
  · intro a
    induction a with
    | here hr => exact .here (by rw [← (v.orig' ld hx).1]; exact hr)
    | step hr _ ih =>
      have hr' := hr
      rw [(v.orig' ld hx).1] at hr'
      exact .step hr' (ih (ld.ref _ hx _ hr'))
  · intro a
    induction a with
    | here hr => exact .here (by rw [(v.orig' ld hx).1]; exact hr)
    | step hr _ ih =>
      exact .step (by rw [(v.orig' ld hx).1]; exact hr) (ih (ld.ref _ hx _ hr))

theorem ends_lt (ld : Loaded h0) {x t : Nat} (a : Ends h0 x t) (hx : x < h0.length) : t < h0.length := by
  induction a with
  | here => exact hx
  | step hr _ ih => exact ih (ld.ref _ hx _ hr)

/-- references of an object, in terms of the document -/
theorem ends_iff (ld : Loaded h0) (v : Valid h0 h) {x t : Nat} (hx : x < h.length) :
    Ends h x t ↔ ((look h0 (look h x).origin).ref = none ∧ t = x) ∨
      ∃ r, (look h0 (look h x).origin).ref = some r ∧ Ends h0 r t := by
  have ok := v.ok x hx
  rw [← ok.ref]
  constructor
  · intro a
    cases a with
    | here hr => exact Or.inl ⟨hr, rfl⟩
    | step hr a =>
      exact Or.inr ⟨_, hr, (ends_orig ld v (v.ref_lt ld hx hr)).1 a⟩
  · rintro (⟨hr, rfl⟩ | ⟨r, hr, a⟩)
    · exact .here hr
    · exact .step hr ((ends_orig ld v (v.ref_lt ld hx hr)).2 a)

theorem ends_keep (ld : Loaded h0) (v : Valid h0 h) (v' : Valid h0 h') (k : Keep h h') {x t : Nat}
    (hx : x < h.length) : Ends h' x t ↔ Ends h x t := by
  rw [ends_iff ld v hx, ends_iff ld v' (Nat.lt_of_lt_of_le hx k.len), k.org x hx]

/-- what `deref` does -/
structure Derefd (h : Heap) (K x : Nat) (g : List Nat) (z : Option Nat) (g' : List Nat) : Prop where
  sub : ∀ c ∈ g, c ∈ g'
  start : x ∈ g'
  chain : ∀ c ∈ g', c ∈ g ∨ (c < K ∧ ∀ t, Ends h c t → Ends h x t)
  some : ∀ t, z = some t → Ends h x t ∧ t ∉ g ∧ t ∈ g' ∧ t < K ∧
    ((look h x).composed = false → (look h t).composed = false)
  none : z = none → ∀ t, Ends h x t → ∃ v ∈ g, Ends h v t

theorem deref_ok (ld : Loaded h0) (v : Valid h0 h) {K : Nat} (hK : h0.length ≤ K) (hKl : K ≤ h.length) :
    ∀ (n : Nat) (x : Nat) (g : List Nat), room K g = n → x < K →
      ∃ z g', deref h x g = some (z, g') ∧ Derefd h K x g z g' := by
  intro n
  induction n using Nat.strongRecOn with
  | ind n ih =>
    intro x g hn hx
    have hsub : ∀ c ∈ g, c ∈ g ++ [x] := fun c hc => List.mem_append_left _ hc
    by_cases hg : x ∈ g
    · refine ⟨none, g, by rw [deref]; simp [hg], fun _ h => h, hg, fun c hc => Or.inl hc, nofun, ?_⟩
      intro _ t ht
      exact ⟨x, hg, ht⟩
    · cases hr : (look h x).ref with
      | none =>
        refine ⟨some x, g ++ [x], by rw [deref]; simp [hg, hr], hsub, by simp, ?_, ?_, nofun⟩
        · intro c hc
          rcases List.mem_append.1 hc with hc | hc
          · exact Or.inl hc
          · rw [List.mem_singleton.1 hc]; exact Or.inr ⟨hx, fun _ h => h⟩
        · rintro t ⟨⟩
          exact ⟨.here hr, hg, by simp, hx, fun h => h⟩
      | some r =>
        have hrlt := v.ref_lt ld (Nat.lt_of_lt_of_le hx hKl) hr
        obtain ⟨z, g', he, d⟩ := ih _ (hn ▸ room_lt hsub hx hg (by simp)) r (g ++ [x]) rfl
          (Nat.lt_of_lt_of_le hrlt hK)
        have hde : deref h x g = some (z, g') := by rw [deref]; simp [hg, hr, he]
        refine ⟨z, g', hde, fun c hc => d.sub c (hsub c hc), d.sub x (by simp), ?_, ?_, ?_⟩
        · intro c hc
          rcases d.chain c hc with hc | ⟨hc, he⟩
          · rcases List.mem_append.1 hc with hc | hc
            · exact Or.inl hc
            · rw [List.mem_singleton.1 hc]; exact Or.inr ⟨hx, fun _ h => h⟩
          · exact Or.inr ⟨hc, fun t ht => .step hr (he t ht)⟩
        · intro t ht
          obtain ⟨q1, q2, q3, q4, q5⟩ := d.some t ht
          refine ⟨.step hr q1, fun hc => q2 (hsub t hc), q3, q4, fun _ => q5 ?_⟩
          exact (v.orig' ld hrlt).2.2.1
        · rintro rfl t ht
          obtain ⟨k, hk⟩ := ends_n ht
          obtain ⟨w, hw, _, _, b⟩ := deref_cycle k x t g g' hk hde
          exact ⟨w, hw, b.ends⟩

/-! ## one part -/

theorem part_trans {y w z : Nat} (a : Part h0 y w) (b : Part h0 w z) : Part h0 y z := by
  induction b with
  | direct ha he => exact .next a ha he
  | next _ ha he ih => exact .next ih ha he

theorem get?_addProps {own : Dict Str Nat} {n : Str} : ∀ {ps : List (Str × Nat)} {d : Dict Str Nat},
    Dict.WF ps → Dict.get? (addProps own d ps) n =
      if n ∈ Dict.keys own then Dict.get? d n else (Dict.get? ps n).or (Dict.get? d n) := by
  intro ps
  induction ps with
  | nil => intro d _; simp [addProps, Dict.get?]
  | cons q ps ih =>
    obtain ⟨m, p⟩ := q
    intro d hwf
    rw [addProps, ih (List.nodup_cons.1 hwf).2]
    by_cases hn : n ∈ Dict.keys own
    · simp only [hn, if_true]
      by_cases hm : m ∈ Dict.keys own
      · simp [hm]
      · simp only [hm, if_false]
        rw [Dict.get?_set_ne]
        rintro rfl; exact hm hn
    · simp only [hn, if_false]
      by_cases hmn : m = n
      · subst hmn
        have : Dict.get? ps m = none :=
          (Dict.get?_eq_none_iff _ _).2 (List.nodup_cons.1 hwf).1
        simp [hn, Dict.get?, this, Dict.get?_set_self]
      · have hq : Dict.get? (if m ∈ Dict.keys own then d else Dict.set d m p) n = Dict.get? d n := by
          by_cases hm : m ∈ Dict.keys own
          · simp [hm]
          · simp only [hm, if_false]; exact Dict.get?_set_ne _ _ fun e => hmn e.symm
        simp [hq, Dict.get?, hmn]

theorem wf_addProps {own : Dict Str Nat} : ∀ {ps : List (Str × Nat)} {d : Dict Str Nat},
    Dict.WF d → Dict.WF (addProps own d ps) := by
  intro ps
  induction ps with
  | nil => intro d h; exact h
  | cons q ps ih =>
    obtain ⟨m, p⟩ := q
    intro d h
    rw [addProps]
    apply ih
    by_cases hm : m ∈ Dict.keys own
    · simpa [hm] using h
    · simp only [hm, if_false]; exact Dict.WF_set h _ _

/-- the object `f` changes, but for its own parts and references; the others do not -/
structure OnlyAt (f : Nat) (h h' : Heap) : Prop where
  len : h.length ≤ h'.length
  same : ∀ x < h.length, x ≠ f → look h' x = look h x
  ref : (look h' f).ref = (look h f).ref
  final : (look h' f).final = (look h f).final
  allOf : (look h' f).allOf = (look h f).allOf
  org : (look h' f).origin = (look h f).origin
  comp : (look h' f).composed = (look h f).composed
  props : ∀ n ∈ Dict.keys (look h f).props, n ∈ Dict.keys (look h' f).props
  scal : Grows (look h f).values (look h' f).values
  items : (look h f).items.isSome → (look h' f).items.isSome

theorem OnlyAt.keep {f : Nat} (a : OnlyAt f h h') : Keep h h' := by
  refine ⟨a.len, fun x hx => ?_, fun x hx => ?_, fun x hx _ => ?_, fun x hx _ => ?_, fun x hx _ => ?_⟩ <;>
  · by_cases hxf : x = f
    · subst hxf; first | exact a.org | exact a.comp | exact a.props | exact a.scal | exact a.items
    · rw [a.same x hx hxf]; try first | exact fun _ h => h | exact .rfl | exact fun h => h

theorem OnlyAt.trans {f : Nat} {h1 h2 h3 : Heap} (a : OnlyAt f h1 h2)
    (b : OnlyAt f h2 h3) : OnlyAt f h1 h3 where
  len := Nat.le_trans a.len b.len
  same := fun x hx hxf => (b.same x (Nat.lt_of_lt_of_le hx a.len) hxf).trans (a.same x hx hxf)
  ref := b.ref.trans a.ref
  final := b.final.trans a.final
  allOf := b.allOf.trans a.allOf
  org := b.org.trans a.org
  comp := b.comp.trans a.comp
  props := fun n hn => b.props n (a.props n hn)
  scal := a.scal.trans b.scal
  items := fun h => b.items (a.items h)

theorem OnlyAt.rfl {f : Nat} : OnlyAt f h h :=
  ⟨Nat.le_refl _, fun _ _ _ => Eq.refl _, Eq.refl _, Eq.refl _, Eq.refl _, Eq.refl _, Eq.refl _,
    fun _ h => h, .rfl, fun h => h⟩

/-- `addProps` after `mergeInto` -/
def absorb (h : Heap) (y f o : Nat) : Heap :=
  h.set f { look h f with props := addProps (look h y).props (look h f).props (look h o).props }

theorem absorb_ok (ld : Loaded h0) (v : Valid h0 h) {y f o : Nat} (hy : y < h0.length)
    (hf : f < h.length) (hfN : h0.length ≤ f) (ho : o < h.length) (hof : o ≠ f)
    (hfo : (look h f).origin = y) (hfc : (look h f).composed = true)
    (hpart : Part h0 y (look h o).origin) :
    ∃ h1, mergeInto h f o = some h1 ∧ Valid h0 (absorb h1 y f o) ∧ OnlyAt f h (absorb h1 y f o) ∧
      look h1 o = look h o ∧ look h1 y = look h y ∧
      (∀ n ∈ Dict.keys (look h o).props, n ∈ Dict.keys (look (absorb h1 y f o) f).props) ∧
      Grows (look h o).values (look (absorb h1 y f o) f).values ∧
      ((look h o).items.isSome → (look (absorb h1 y f o) f).items.isSome) := by
  have okf := v.ok f hf
  have oko := v.ok o ho
  have hyl : y < h.length := Nat.lt_of_lt_of_le hy v.len
  have hyf : y ≠ f := fun e => by subst e; omega
  have hpy : (look h y).props = (look h0 y).props := (v.orig' ld hy).2.2.2.2.1
  -- items
  obtain ⟨ha, items, hea, ea, va, hia, hio, his, hit⟩ : ∃ ha items,
      (if (look h f).items.isNone then copyOpt h (look h o).items else some (h, (look h f).items))
        = some (ha, items) ∧ Ext h ha ∧ Valid h0 ha ∧
      (∀ a, items = some a → a < ha.length ∧ (look ha a).composed = false) ∧
      (∀ i, (look h0 y).items = some i → ∃ j, items = some j ∧ (look ha j).origin = i) ∧
      (∀ j, items = some j → ∃ z, (z = y ∨ Part h0 y z) ∧ (look h0 z).items = some (look ha j).origin) ∧
      (((look h f).items.isSome ∨ (look h o).items.isSome) → items.isSome) := by
    cases hi : (look h f).items with
    | none =>
      obtain ⟨ha, j, he, e, va, hj, hjo⟩ := opt_ok ld v oko.itemsLt
      refine ⟨ha, j, by simpa using he, e, va, hj, ?_, ?_, ?_⟩
      · intro i hi'
        obtain ⟨j', hj', _⟩ := okf.itemsOwn i (hfo ▸ hi')
        rw [hi] at hj'; cases hj'
      · rintro j' rfl
        cases ho' : (look h o).items with
        | none => rw [ho'] at hjo; cases hjo
        | some a =>
          rw [ho'] at hjo
          obtain ⟨z, hz, hg⟩ := oko.itemsSound a ho'
          refine ⟨z, Or.inr ?_, hg.trans hjo.symm⟩
          rcases hz with rfl | hz
          · exact hpart
          · exact part_trans hpart hz
      · rintro (h' | h')
        · cases h'
        · cases j with
          | some _ => rfl
          | none =>
            cases ho' : (look h o).items with
            | none => rw [ho'] at h'; cases h'
            | some a => rw [ho'] at hjo; cases hjo
    | some a =>
      refine ⟨h, some a, by simp, .rfl, v, fun b hb => okf.itemsLt b (hi.trans hb), ?_, ?_, fun _ => rfl⟩
      · intro i hi'
        obtain ⟨j', hj', ho'⟩ := okf.itemsOwn i (hfo ▸ hi')
        exact ⟨j', by rw [← hi]; exact hj', ho'⟩
      · intro j hj
        obtain ⟨z, hz, hg⟩ := okf.itemsSound j (hi.trans hj)
        exact ⟨z, hfo ▸ hz, hg⟩
  -- properties
  have fa : look ha f = look h f := ea.same f hf
  have oa : look ha o = look h o := ea.same o ho
  have ya : look ha y = look h y := ea.same y hyl
  obtain ⟨hb, props, heb, eb, vb, hpl, hpe, hpn⟩ : ∃ hb props,
      (if (look ha f).props.isEmpty then copyDict ha (look ha o).props else some (ha, (look ha f).props))
        = some (hb, props) ∧ Ext ha hb ∧ Valid h0 hb ∧
      (∀ n a, (n, a) ∈ props → a < hb.length ∧ (look hb a).composed = false) ∧
      ((look h f).props = [] → props.map (fun p => (p.1, (look hb p.2).origin)) =
        (look h o).props.map fun p => (p.1, (look h p.2).origin)) ∧
      ((look h f).props ≠ [] → props = (look h f).props) := by
    rw [fa, oa]
    cases hp : (look h f).props with
    | nil =>
      obtain ⟨hb, e, he, eb, vb, hj, hm⟩ := dict_ok (d := (look h o).props) ld va (by
        intro n a hna
        obtain ⟨q1, q2⟩ := oko.propsLt n a hna
        rw [ea.same a q1]; exact ⟨Nat.lt_of_lt_of_le q1 ea.len, q2⟩)
      refine ⟨hb, e, by simpa using he, eb, vb, hj, fun _ => ?_, fun h => absurd rfl h⟩
      rw [hm]
      exact List.map_congr_left fun p hp => by rw [ea.same p.2 (oko.propsLt p.1 p.2 hp).1]
    | cons q qs =>
      refine ⟨ha, q :: qs, by simp, .rfl, va, ?_, nofun, fun _ => rfl⟩
      intro n a hna
      obtain ⟨q1, q2⟩ := okf.propsLt n a (hp ▸ hna)
      rw [ea.same a q1]; exact ⟨Nat.lt_of_lt_of_le q1 ea.len, q2⟩
  have e := ea.trans eb
  have fb : look hb f = look h f := e.same f hf
  have ob : look hb o = look h o := e.same o ho
  have yb : look hb y = look h y := e.same y hyl
  have hfb : f < hb.length := Nat.lt_of_lt_of_le hf e.len
  have hm : mergeInto h f o = some (hb.set f { look hb f with
      items := items, props := props,
      values := joinValues (look hb f).values (look hb o).values }) := by
    have hea : mergeItems h f o = some (ha, items) := hea
    have heb : mergeProps ha f o = some (hb, props) := heb
    unfold mergeInto
    rw [hea]
    dsimp only
    rw [heb]
  refine ⟨_, hm, ?_⟩
  have habs : absorb (hb.set f { look hb f with
      items := items, props := props,
      values := joinValues (look hb f).values (look hb o).values }) y f o =
      hb.set f { look h f with
        items := items
        props := addProps (look h0 y).props props (look h o).props
        values := joinValues (look h f).values (look h o).values } := by
    unfold absorb
    rw [get_set_self hfb, get_set_ne hyf.symm, get_set_ne hof.symm, List.set_set, fb, ob, yb, hpy]
  have hwfp : Dict.WF props := by
    by_cases hp : (look h f).props = []
    · have := hpe hp
      have hk : Dict.keys props = Dict.keys (look h o).props := by
        have := congrArg (List.map Prod.fst) this
        simpa [Dict.keys, Function.comp_def] using this
      unfold Dict.WF; rw [hk]; exact oko.wf
    · rw [hpn hp]; exact okf.wf
  -- every property of `o` outside the own ones comes from `o`
  have hget : ∀ n, Dict.get? (addProps (look h0 y).props props (look h o).props) n =
      if n ∈ Dict.keys (look h0 y).props then Dict.get? (look h f).props n
      else (Dict.get? (look h o).props n).or (Dict.get? (look h f).props n) := by
    intro n
    rw [get?_addProps oko.wf]
    by_cases hp : (look h f).props = []
    · have hny : n ∉ Dict.keys (look h0 y).props := by
        intro hn
        obtain ⟨p0, hp0⟩ := Option.isSome_iff_exists.1 ((Dict.get?_isSome_iff _ _).2 hn)
        obtain ⟨p, hp', _⟩ := okf.own n p0 (hfo ▸ hp0)
        rw [hp] at hp'; cases hp'
      have hk : Dict.keys props = Dict.keys (look h o).props := by
        have := congrArg (List.map Prod.fst) (hpe hp)
        simpa [Dict.keys, Function.comp_def] using this
      simp only [hny, if_false, hp]
      cases ho' : Dict.get? (look h o).props n with
      | some p => rfl
      | none =>
        rw [Option.none_or, (Dict.get?_eq_none_iff _ _).2]
        · rfl
        · rw [hk]; exact (Dict.get?_eq_none_iff _ _).1 ho'
    · rw [hpn hp]
  have hco : ∀ n w, Dict.get? (look h o).values n = some w → Comes h0 y n w := by
    intro n w hw
    refine comes_mono ?_ (oko.ssound n w hw)
    rintro t ⟨z, hz, hg⟩
    refine ⟨z, Or.inr ?_, hg⟩
    rcases hz with rfl | hz
    · exact hpart
    · exact part_trans hpart hz
  have horg : ∀ p, p < h.length → (look hb p).origin = (look h p).origin := fun p hp => by
    rw [e.same p hp]
  have hkeysO : ∀ n ∈ Dict.keys (look h o).props,
      n ∈ Dict.keys (addProps (look h0 y).props props (look h o).props) := by
    intro n hn
    rw [← Dict.get?_isSome_iff, hget n]
    by_cases hny : n ∈ Dict.keys (look h0 y).props
    · simp only [hny, if_true]
      obtain ⟨p0, hp0⟩ := Option.isSome_iff_exists.1 ((Dict.get?_isSome_iff _ _).2 hny)
      obtain ⟨p, hp, _⟩ := okf.own n p0 (hfo ▸ hp0)
      rw [hp]; rfl
    · obtain ⟨p, hp⟩ := Option.isSome_iff_exists.1 ((Dict.get?_isSome_iff _ _).2 hn)
      simp [hny, hp]
  have hkeysF : ∀ n ∈ Dict.keys (look h f).props,
      n ∈ Dict.keys (addProps (look h0 y).props props (look h o).props) := by
    intro n hn
    rw [← Dict.get?_isSome_iff, hget n]
    obtain ⟨p, hp⟩ := Option.isSome_iff_exists.1 ((Dict.get?_isSome_iff _ _).2 hn)
    by_cases hny : n ∈ Dict.keys (look h0 y).props
    · simp [hny, hp]
    · simp [hny, hp]
  have hskO : Grows (look h o).values (joinValues (look h f).values (look h o).values) := grows_other _ _
  have hskF : Grows (look h f).values (joinValues (look h f).values (look h o).values) := grows_own hco
  have okfb : ObjOk h0 hb (look h f) := okf.mono e.keep
  have okob : ObjOk h0 hb (look h o) := oko.mono e.keep
  have nok : ObjOk h0 hb { look h f with
        items := items
        props := addProps (look h0 y).props props (look h o).props
        values := joinValues (look h f).values (look h o).values } := by
    refine { okfb with
      itemsLt := ?_, propsLt := ?_, wf := wf_addProps hwfp, wfs := wf_joinValues okf.wfs oko.wfs
      plain := fun hc => ?_, itemsOwn := ?_, itemsSound := ?_, own := ?_, sound := ?_, sown := ?_, ssound := ?_ }
    · intro a haa
      obtain ⟨q1, q2⟩ := hia a haa
      rw [eb.same a q1]; exact ⟨Nat.lt_of_lt_of_le q1 eb.len, q2⟩
    · intro n p hp
      have hg := Dict.get?_of_mem (wf_addProps hwfp) hp
      rw [hget n] at hg
      by_cases hny : n ∈ Dict.keys (look h0 y).props
      · simp only [hny, if_true] at hg
        exact okfb.propsLt n p (Dict.mem_of_get? hg)
      · simp only [hny, if_false] at hg
        cases ho' : Dict.get? (look h o).props n with
        | some p' => rw [ho'] at hg; cases hg; exact okob.propsLt n _ (Dict.mem_of_get? ho')
        | none => rw [ho'] at hg; exact okfb.propsLt n p (Dict.mem_of_get? hg)
    · exact absurd (hc : (look h f).composed = false) (by rw [hfc]; decide)
    · intro i hi
      obtain ⟨j, hj, hjo⟩ := hio i (by simpa [hfo] using hi)
      exact ⟨j, hj, by rw [eb.same j (hia j hj).1]; exact hjo⟩
    · intro j hj
      obtain ⟨z, hz, hg⟩ := his j hj
      refine ⟨z, ?_, by rw [eb.same j (hia j hj).1]; exact hg⟩
      show z = (look h f).origin ∨ Part h0 (look h f).origin z
      rw [hfo]; exact hz
    · intro n p0 hp0
      obtain ⟨p, hp, hpo⟩ := okfb.own n p0 hp0
      refine ⟨p, ?_, hpo⟩
      have hny : n ∈ Dict.keys (look h0 y).props := by
        rw [← Dict.get?_isSome_iff, ← hfo]
        rw [show Dict.get? (look h0 (look h f).origin).props n = some p0 from hp0]; rfl
      show Dict.get? (addProps _ _ _) n = _
      rw [hget n]; simp [hny, hp]
    · intro n p hp
      have hp : Dict.get? (addProps (look h0 y).props props (look h o).props) n = some p := hp
      rw [hget n] at hp
      by_cases hny : n ∈ Dict.keys (look h0 y).props
      · simp only [hny, if_true] at hp
        exact okfb.sound n p hp
      · simp only [hny, if_false] at hp
        cases ho' : Dict.get? (look h o).props n with
        | some p' =>
          rw [ho'] at hp; cases hp
          obtain ⟨z, hz, hg⟩ := okob.sound n _ ho'
          refine ⟨z, Or.inr ?_, hg⟩
          show Part h0 (look h f).origin z
          rw [hfo]
          rcases hz with rfl | hz
          · exact hpart
          · exact part_trans hpart hz
        | none => rw [ho'] at hp; exact okfb.sound n p hp
    · intro n t ht
      obtain ⟨w, hw, hk⟩ := okf.sown n t ht
      have hcw := okf.ssound n w hw
      show ∃ v, Dict.get? (joinValues _ _) n = some v ∧ _
      rw [get?_joinValues, hw]
      cases hu : Dict.get? (look h o).values n with
      | none => exact ⟨w, rfl, hk⟩
      | some u =>
        refine ⟨_, rfl, keeps_join hk hcw ?_⟩
        rw [hfo]; exact hco n u hu
    · intro n w hw
      have hw : Dict.get? (joinValues (look h f).values (look h o).values) n = some w := hw
      show Comes h0 (look h f).origin n w
      rw [get?_joinValues] at hw
      cases hf' : Dict.get? (look h f).values n with
      | some w' =>
        rw [hf'] at hw
        cases hu : Dict.get? (look h o).values n with
        | none => rw [hu] at hw; cases hw; exact okf.ssound n _ hf'
        | some u =>
          rw [hu] at hw; cases hw
          refine comes_join (okf.ssound n _ hf') ?_
          rw [hfo]; exact hco n u hu
      | none =>
        rw [hf'] at hw
        cases hu : Dict.get? (look h o).values n with
        | none => rw [hu] at hw; cases hw
        | some u =>
          rw [hu] at hw; cases hw
          rw [hfo]; exact comes_fresh (hco n u hu)
  rw [habs]
  refine ⟨vb.set hfb ?_ ?_ nok (fun e he => by rw [fb] at he; exact he) (fun e he _ => ?_), ?_, ?_, ?_, ?_, ?_, ?_⟩
  · refine keep_set hfb (by rw [fb]) (by rw [fb]) (fun _ => ?_) (fun _ => ?_) (fun _ => ?_)
    · rw [fb]; exact hkeysF
    · rw [fb]; exact hskF
    · rw [fb]; exact fun h => hit (.inl h)
  · intro hlt; omega
  · have := vb.shared f hfb e (by rw [fb]; exact he)
    rwa [fb] at this
  · refine ⟨by simpa using e.len, fun x hx hxf => ?_, ?_, ?_, ?_, ?_, ?_, ?_, ?_, ?_⟩
    · rw [get_set_ne fun e => hxf e.symm]; exact e.same x hx
    all_goals rw [get_set_self hfb]
    · exact hkeysF
    · exact hskF
    · exact fun h => hit (.inl h)
  · rw [get_set_ne hof.symm]; exact ob
  · rw [get_set_ne hyf.symm]; exact yb
  · rw [get_set_self hfb]; exact hkeysO
  · rw [get_set_self hfb]; exact hskO
  · rw [get_set_self hfb]; exact fun h => hit (.inr h)

/-! ## the loop -/

/-- what holds in the loop: `P` are the parts dealt with, `K` the number of objects at its start -/
structure Inv (h0 h : Heap) (y f K : Nat) (g stk : List Nat) (P : Nat → Prop) : Prop where
  valid : Valid h0 h
  fN : h0.length ≤ f
  fK : f < K
  len : K ≤ h.length
  org : (look h f).origin = y
  comp : (look h f).composed = true
  closed : ∀ x < K, (∀ a ∈ (look h x).allOf, a < K) ∧ ∀ e, (look h x).final = some e → e < K ∧ e ≠ f
  stkOk : ∀ a ∈ stk, a < K ∧ (look h a).composed = false ∧ ∀ t, Ends h a t → Part h0 y (look h t).origin
  seen : ∀ c ∈ g, c < K ∧ ∀ t, Ends h c t → P t
  done : ∀ t, P t → t < K ∧ (look h t).composed = false ∧
    (∀ a ∈ (look h (finalOr h t)).allOf, a ∈ stk ∨ a ∈ g) ∧
    (∀ n ∈ Dict.keys (look h (finalOr h t)).props, n ∈ Dict.keys (look h f).props) ∧
    Grows (look h (finalOr h t)).values (look h f).values ∧
    ((look h (finalOr h t)).items.isSome → (look h f).items.isSome)
  start : ∀ a ∈ (look h y).allOf, a ∈ stk ∨ a ∈ g

theorem finalOr_ok (v : Valid h0 h) {t : Nat} (ht : t < h.length) :
    finalOr h t < h.length ∧ (look h (finalOr h t)).origin = (look h t).origin := by
  unfold finalOr
  cases hf : (look h t).final with
  | none => exact ⟨ht, rfl⟩
  | some f =>
    have := (v.ok t ht).fin f hf
    exact ⟨this.1, this.2.2.1⟩

theorem inv_complete (ld : Loaded h0) {y f K : Nat} (hy : y < h0.length) {g : List Nat} {P : Nat → Prop}
    (i : Inv h0 h y f K g [] P) : Complete h0 (look h f) := by
  have step : ∀ (w a z o : Nat), w < h0.length → a ∈ (look h0 w).allOf → Ends h0 a z → o < K →
      (look h o).origin = w → (∀ b ∈ (look h o).allOf, b ∈ g) → ∃ t, P t ∧ (look h t).origin = z := by
    intro w a z o hw ha he ho hoo hall
    have hol : o < h.length := Nat.lt_of_lt_of_le ho i.len
    have oko := i.valid.ok o hol
    rw [← hoo, ← oko.allOf] at ha
    obtain ⟨b, hb, hba⟩ := List.mem_map.1 ha
    have hbl := (oko.allOfLt b hb).1
    have hbg := i.seen b (hall b hb)
    cases he with
    | here hr =>
      refine ⟨b, hbg.2 b ((ends_iff ld i.valid hbl).2 (Or.inl ⟨by rw [hba]; exact hr, rfl⟩)), hba⟩
    | step hr he =>
      have hal : a < h0.length := by rw [← hba]; exact (i.valid.ok b hbl).org
      have hz := ends_lt ld he (ld.ref _ hal _ hr)
      refine ⟨z, hbg.2 z ((ends_iff ld i.valid hbl).2 (Or.inr ⟨_, by rw [hba]; exact hr, he⟩)), ?_⟩
      exact (i.valid.orig' ld hz).2.1
  have key : ∀ z, Part h0 y z → ∃ t, P t ∧ (look h t).origin = z := by
    intro z hz
    induction hz with
    | direct ha he =>
      refine step y _ _ y hy ha he (Nat.lt_of_lt_of_le hy (Nat.le_trans i.fN (Nat.le_of_lt i.fK)))
        (i.valid.orig' ld hy).2.1 ?_
      intro b hb
      rcases i.start b hb with h | h
      · cases h
      · exact h
    | next _ ha he ih =>
      obtain ⟨t, ht, hto⟩ := ih
      obtain ⟨d1, d2, d3, _, _, _⟩ := i.done t ht
      have htl := Nat.lt_of_lt_of_le d1 i.len
      obtain ⟨f1, f2⟩ := finalOr_ok i.valid htl
      have hfK : finalOr h t < K := by
        unfold finalOr
        cases hf : (look h t).final with
        | none => exact d1
        | some e => exact ((i.closed t d1).2 e hf).1
      refine step _ _ _ (finalOr h t) (by rw [← hto]; exact (i.valid.ok t htl).org) ha he hfK
        (f2.trans hto) ?_
      intro b hb
      rcases d3 b hb with h | h
      · cases h
      · exact h
  intro z hz
  rw [i.org] at hz
  obtain ⟨t, ht, rfl⟩ := key z hz
  obtain ⟨d1, _, _, d4, d5, d6⟩ := i.done t ht
  have htl := Nat.lt_of_lt_of_le d1 i.len
  obtain ⟨f1, f2⟩ := finalOr_ok i.valid htl
  have ok := i.valid.ok _ f1
  refine ⟨fun n hn => d4 n ?_, fun n t' ht' => ?_, fun hi => d6 ?_⟩
  · obtain ⟨p0, hp0⟩ := Option.isSome_iff_exists.1 ((Dict.get?_isSome_iff _ _).2 hn)
    obtain ⟨p, hp, _⟩ := ok.own n p0 (by rw [f2]; exact hp0)
    rw [← Dict.get?_isSome_iff, hp]; rfl
  · obtain ⟨v, hv, hk⟩ := ok.sown n t' (by rw [f2]; exact ht')
    obtain ⟨v', hv', hc⟩ := d5 n v hv
    exact ⟨v', hv', hc t' (keeps_covers hk)⟩
  · obtain ⟨i0, hi0⟩ := Option.isSome_iff_exists.1 hi
    obtain ⟨j, hj, _⟩ := ok.itemsOwn i0 (by rw [f2]; exact hi0)
    rw [hj]; rfl

theorem gather_ok (ld : Loaded h0) {y f K : Nat} (hy : y < h0.length) (h : Heap)
    (g stk : List Nat) (P : Nat → Prop) (i : Inv h0 h y f K g stk P) :
    ∃ h', gather h y f g stk = some h' ∧ Valid h0 h' ∧ OnlyAt f h h' ∧ Complete h0 (look h' f) := by
  match stk, i with
  | [], i => exact ⟨h, by rw [gather], i.valid, .rfl, inv_complete ld hy i⟩
  | x :: stk, i =>
    have hNK : h0.length ≤ K := Nat.le_trans i.fN (Nat.le_of_lt i.fK)
    obtain ⟨hx1, hx2, hx3⟩ := i.stkOk x (List.mem_cons_self ..)
    obtain ⟨z, g', he, d⟩ := deref_ok ld i.valid hNK i.len _ x g rfl hx1
    cases z with
    | none =>
      have hnone := d.none rfl
      have i' : Inv h0 h y f K g' stk P := { i with
        stkOk := fun a ha => i.stkOk a (List.mem_cons_of_mem _ ha)
        seen := by
          intro c hc
          rcases d.chain c hc with hc | ⟨hc, hch⟩
          · exact i.seen c hc
          · refine ⟨hc, fun t ht => ?_⟩
            obtain ⟨w, hw, hwt⟩ := hnone t (hch t ht)
            exact (i.seen w hw).2 t hwt
        done := by
          intro t ht
          obtain ⟨d1, d2, d3, d4⟩ := i.done t ht
          refine ⟨d1, d2, fun a ha => ?_, d4⟩
          rcases d3 a ha with ha | ha
          · rcases List.mem_cons.1 ha with rfl | ha
            · exact Or.inr d.start
            · exact Or.inl ha
          · exact Or.inr (d.sub a ha)
        start := by
          intro a ha
          rcases i.start a ha with ha | ha
          · rcases List.mem_cons.1 ha with rfl | ha
            · exact Or.inr d.start
            · exact Or.inl ha
          · exact Or.inr (d.sub a ha) }
      have : room K g' ≤ room K g := room_le d.sub
      obtain ⟨h', hg, rest⟩ := gather_ok ld hy h g' stk P i'
      exact ⟨h', by rw [gather, he]; exact hg, rest⟩
    | some t =>
      obtain ⟨t1, t2, t3, t4, t5⟩ := d.some t rfl
      have htl := Nat.lt_of_lt_of_le t4 i.len
      obtain ⟨o1, o2⟩ := finalOr_ok i.valid htl
      have hfl : f < h.length := Nat.lt_of_lt_of_le i.fK i.len
      have htf : t ≠ f := by
        intro e; have := t5 hx2; rw [e, i.comp] at this; cases this
      have hof : finalOr h t ≠ f := by
        unfold finalOr
        cases hf : (look h t).final with
        | none => exact htf
        | some e => exact ((i.closed t t4).2 e hf).2
      have hoK : finalOr h t < K := by
        unfold finalOr
        cases hf : (look h t).final with
        | none => exact t4
        | some e => exact ((i.closed t t4).2 e hf).1
      have hpart : Part h0 y (look h (finalOr h t)).origin := by rw [o2]; exact hx3 t t1
      obtain ⟨h1, hm, v2, oa, hlo, hly, hk1, hk2, hk3⟩ :=
        absorb_ok ld i.valid hy hfl i.fN o1 hof i.org i.comp hpart
      have k := oa.keep
      have hends : ∀ {c t'}, c < K → (Ends (absorb h1 y f (finalOr h t)) c t' ↔ Ends h c t') := fun hc =>
        ends_keep ld i.valid v2 k (Nat.lt_of_lt_of_le hc i.len)
      have hfin : ∀ {c}, c < K → c ≠ f → finalOr (absorb h1 y f (finalOr h t)) c = finalOr h c := by
        intro c hc hcf
        show Option.getD _ _ = Option.getD _ _
        rw [oa.same c (Nat.lt_of_lt_of_le hc i.len) hcf]
      have hcl : ∀ c < K, (look (absorb h1 y f (finalOr h t)) c).allOf = (look h c).allOf ∧
          (look (absorb h1 y f (finalOr h t)) c).final = (look h c).final := by
        intro c hc
        by_cases hcf : c = f
        · subst hcf; exact ⟨oa.allOf, oa.final⟩
        · rw [oa.same c (Nat.lt_of_lt_of_le hc i.len) hcf]; exact ⟨rfl, rfl⟩
      have hfinne : ∀ {c}, c < K → (look h c).composed = false → finalOr h c ≠ f ∧ finalOr h c < K := by
        intro c hc hcc
        unfold finalOr
        cases hf : (look h c).final with
        | none => exact ⟨(fun e => by rw [Option.getD_none] at e; rw [e, i.comp] at hcc; cases hcc), hc⟩
        | some e => exact ⟨((i.closed c hc).2 e hf).2, ((i.closed c hc).2 e hf).1⟩
      have i' : Inv h0 (absorb h1 y f (finalOr h t)) y f K g'
          ((look h (finalOr h t)).allOf.reverse ++ stk) (fun c => P c ∨ c = t) := by
        refine ⟨v2, i.fN, i.fK, Nat.le_trans i.len oa.len, oa.org.trans i.org, oa.comp.trans i.comp, ?_, ?_,
          ?_, ?_, ?_⟩
        · intro c hc
          rw [(hcl c hc).1, (hcl c hc).2]; exact i.closed c hc
        · intro a ha
          rcases List.mem_append.1 ha with ha | ha
          · have ha := List.mem_reverse.1 ha
            have haK := (i.closed _ hoK).1 a ha
            have hal := Nat.lt_of_lt_of_le haK i.len
            have oko := i.valid.ok _ o1
            refine ⟨haK, by rw [k.comp a hal]; exact (oko.allOfLt a ha).2, ?_⟩
            intro t' ht'
            rw [hends haK] at ht'
            have hmem : (look h a).origin ∈ (look h0 (look h (finalOr h t)).origin).allOf := by
              rw [← oko.allOf]; exact List.mem_map.2 ⟨a, ha, rfl⟩
            rcases (ends_iff ld i.valid hal).1 ht' with ⟨hr, rfl⟩ | ⟨r, hr, he'⟩
            · rw [k.org _ hal]
              exact .next hpart hmem (.here hr)
            · have hrl : r < h0.length := ld.ref _ (i.valid.ok a hal).org r hr
              have ht0 := ends_lt ld he' hrl
              rw [(v2.orig' ld ht0).2.1]
              exact .next hpart hmem (.step hr he')
          · obtain ⟨a1, a2, a3⟩ := i.stkOk a (List.mem_cons_of_mem _ ha)
            have hal := Nat.lt_of_lt_of_le a1 i.len
            refine ⟨a1, by rw [k.comp a hal]; exact a2, fun t' ht' => ?_⟩
            rw [hends a1] at ht'
            have htl' : t' < h.length := by
              rcases (ends_iff ld i.valid hal).1 ht' with ⟨_, rfl⟩ | ⟨r, hr, he'⟩
              · exact hal
              · exact Nat.lt_of_lt_of_le
                  (ends_lt ld he' (ld.ref _ (i.valid.ok a hal).org r hr)) i.valid.len
            rw [k.org t' htl']; exact a3 t' ht'
        · intro c hc
          rcases d.chain c hc with hc | ⟨hc, hch⟩
          · obtain ⟨c1, c2⟩ := i.seen c hc
            exact ⟨c1, fun t' ht' => Or.inl (c2 t' ((hends c1).1 ht'))⟩
          · refine ⟨hc, fun t' ht' => Or.inr ?_⟩
            exact ends_fun (hch t' ((hends hc).1 ht')) t1
        · rintro c (hc | rfl)
          · obtain ⟨d1, d2, d3, d4, d5, d6⟩ := i.done c hc
            have hcl' := Nat.lt_of_lt_of_le d1 i.len
            have hcf : c ≠ f := fun e => by rw [e, i.comp] at d2; cases d2
            have hq := hfinne d1 d2
            have hql := Nat.lt_of_lt_of_le hq.2 i.len
            rw [hfin d1 hcf, oa.same _ hql hq.1]
            refine ⟨d1, by rw [k.comp c hcl']; exact d2, fun a ha => ?_, fun n hn => oa.props n (d4 n hn),
              d5.trans oa.scal, fun h => oa.items (d6 h)⟩
            rcases d3 a ha with ha | ha
            · rcases List.mem_cons.1 ha with rfl | ha
              · exact Or.inr d.start
              · exact Or.inl (List.mem_append_right _ ha)
            · exact Or.inr (d.sub a ha)
          · rw [hfin t4 htf, oa.same _ o1 hof]
            refine ⟨t4, by rw [k.comp _ htl]; exact t5 hx2, fun a ha => ?_, hk1, hk2, hk3⟩
            exact Or.inl (List.mem_append_left _ (List.mem_reverse.2 ha))
        · intro a ha
          have hyK := Nat.lt_of_lt_of_le hy hNK
          rw [(hcl y hyK).1] at ha
          rcases i.start a ha with ha | ha
          · rcases List.mem_cons.1 ha with rfl | ha
            · exact Or.inr d.start
            · exact Or.inl (List.mem_append_right _ ha)
          · exact Or.inr (d.sub a ha)
      have hroom : room K g' < room K g := room_lt d.sub t4 t2 t3
      obtain ⟨h', hg, v', oa', hc'⟩ := gather_ok ld hy _ g' _ _ i'
      refine ⟨h', ?_, v', oa.trans oa', hc'⟩
      rw [gather, he]
      dsimp only
      rw [hm]
      dsimp only
      rw [hlo]
      have : absorb h1 y f (finalOr h t) = h1.set f { look h1 f with
        props := addProps (look h1 y).props (look h1 f).props (look h1 (finalOr h t)).props } := rfl
      rw [hlo] at this
      rw [← this]
      exact hg
termination_by (room K g, stk.length)
decreasing_by
  · rcases Nat.lt_or_eq_of_le (room_le (K := K) d.sub) with hlt | heq
    · exact Prod.Lex.left _ _ hlt
    · rw [heq]; exact Prod.Lex.right _ (by simp)
  · exact Prod.Lex.left _ _ hroom

/-! ## recursion -/

/-- only `final` is set, on some objects -/
structure Fin (h h' : Heap) : Prop where
  len : h.length ≤ h'.length
  same : ∀ x < h.length, look h' x = { look h x with final := (look h' x).final }
  set : ∀ x < h.length, (look h x).final.isSome → (look h' x).final.isSome

theorem Fin.rfl : Fin h h := ⟨Nat.le_refl _, fun _ _ => Eq.refl _, fun _ _ h => h⟩

theorem Fin.trans {h1 h2 h3 : Heap} (a : Fin h1 h2) (b : Fin h2 h3) : Fin h1 h3 := by
  refine ⟨Nat.le_trans a.len b.len, fun x hx => ?_, fun x hx hs => ?_⟩
  · have h2 := b.same x (Nat.lt_of_lt_of_le hx a.len)
    rw [a.same x hx] at h2
    exact h2
  · exact b.set x (Nat.lt_of_lt_of_le hx a.len) (a.set x hx hs)

theorem finish_ok (ld : Loaded h0) (v : Valid h0 h) {y : Nat} (hy : y < h0.length) (hn : (look h y).final = none) :
    ∃ h', finish h y = some h' ∧ Valid h0 h' ∧ Fin h h' ∧ (look h' y).final.isSome ∧
      ∀ x < h.length, x ≠ y → look h' x = look h x := by
  have hyl := Nat.lt_of_lt_of_le hy v.len
  obtain ⟨h1, f, hcp, c⟩ := copy_ok ld v hyl (v.orig' ld hy).2.2.1
  have hfo : (look h1 f).origin = y := c.org.trans (v.orig' ld hy).2.1
  have hNf : h0.length ≤ f := Nat.le_trans v.len c.new
  obtain ⟨h3, o, rfl, rfl, v3, e3, ok3, hon⟩ := c.last
  rw [get_append_self] at hfo
  -- marking
  have hmark : (h3 ++ [o]).set h3.length { look (h3 ++ [o]) h3.length with composed := true } =
      h3 ++ [{ o with composed := true }] := by
    rw [get_append_self]; simp
  have okm : ObjOk h0 h3 { o with composed := true } := { ok3 with plain := fun hc => nomatch hc }
  obtain ⟨v4, e4⟩ := v3.alloc okm fun f hf => by
    have hf : o.final = some f := hf
    rw [hon, hn] at hf; cases hf
  have e14 := e3.trans e4
  have hlast : look (h3 ++ [{ o with composed := true }]) h3.length = { o with composed := true } :=
    get_append_self ..
  have hyr : look (h3 ++ [{ o with composed := true }]) y = look h y := e14.same y hyl
  have hallOf : (look h y).allOf = (look h0 y).allOf := (v.orig' ld hy).2.2.2.1
  have i : Inv h0 (h3 ++ [{ o with composed := true }]) y h3.length (h3.length + 1) []
      (look h y).allOf.reverse (fun _ => False) := by
    refine ⟨v4, hNf, by omega, by simp, by rw [hlast]; exact hfo, by rw [hlast], ?_, ?_, nofun, nofun, ?_⟩
    · intro x hx
      by_cases hx3 : x < h3.length
      · rw [e4.same x hx3]
        have ok := v3.ok x hx3
        refine ⟨fun a ha => by have := (ok.allOfLt a ha).1; omega, fun e he => ?_⟩
        have := (ok.fin e he).1
        exact ⟨by omega, by omega⟩
      · have : x = h3.length := by omega
        subst this
        rw [hlast]
        refine ⟨fun a ha => by have := (ok3.allOfLt a ha).1; omega, fun e he => ?_⟩
        have := (ok3.fin e he).1
        exact ⟨by omega, by omega⟩
    · intro a ha
      have ha := List.mem_reverse.1 ha
      rw [hallOf] at ha
      have ha0 := ld.allOf y hy a ha
      refine ⟨by omega, (v4.orig' ld ha0).2.2.1, fun t ht => ?_⟩
      rw [ends_orig ld v4 ha0] at ht
      rw [(v4.orig' ld (ends_lt ld ht ha0)).2.1]
      exact .direct ha ht
    · intro a ha
      rw [hyr] at ha
      exact Or.inl (List.mem_reverse.2 ha)
  obtain ⟨h5, hg, v5, oa, hcomp⟩ := gather_ok ld hy _ _ _ _ i
  have hyf : y ≠ h3.length := fun e => by omega
  have hy4 : y < (h3 ++ [{ o with composed := true }]).length := Nat.lt_of_lt_of_le hyl e14.len
  have hy5 : y < h5.length := Nat.lt_of_lt_of_le hy4 oa.len
  have hly5 : look h5 y = look h y := (oa.same y hy4 hyf).trans hyr
  have hf5 : h3.length < h5.length := Nat.lt_of_lt_of_le (by simp) oa.len
  refine ⟨h5.set y { look h5 y with final := some h3.length }, ?_, ?_, ?_, ?_, ?_⟩
  · unfold finish
    rw [hcp]
    simp only [Option.bind_eq_bind, Option.bind_some]
    rw [hmark, hyr, hg]
    rfl
  · refine v5.set hy5 (keep_set hy5 rfl rfl (fun _ _ h => h) (fun _ => .rfl) (fun _ h => h)) ?_ ?_
      (fun e he => by rw [hly5, hn] at he; cases he) (fun _ _ ho => absurd (v5.orig' ld hy).2.1 ho)
    · intro _
      have := v5.orig y hy
      show { look h5 y with final := some h3.length } = _
      rw [this]
    · refine { v5.ok y hy5 with fin := ?_ }
      rintro e ⟨⟩
      refine ⟨hf5, oa.comp.trans (by rw [hlast]), ?_, hcomp⟩
      show _ = (look h5 y).origin
      rw [oa.org, hlast, (v5.orig' ld hy).2.1]; exact hfo
  · refine ⟨?_, fun x hx => ?_, fun x hx hs => ?_⟩
    · simpa using Nat.le_trans e14.len oa.len
    · by_cases hxy : y = x
      · subst hxy; rw [get_set_self hy5, hly5]
      · rw [get_set_ne hxy, oa.same x (Nat.lt_of_lt_of_le hx e14.len)
          (by have := e3.len; omega), e14.same x hx]
    · by_cases hxy : y = x
      · subst hxy; rw [get_set_self hy5]; rfl
      · rw [get_set_ne hxy, oa.same x (Nat.lt_of_lt_of_le hx e14.len)
          (by have := e3.len; omega), e14.same x hx]; exact hs
  · rw [get_set_self hy5]; rfl
  · intro x hx hxy
    rw [get_set_ne fun e => hxy e.symm, oa.same x (Nat.lt_of_lt_of_le hx e14.len) (by have := e3.len; omega), e14.same x hx]

theorem ends_noref {x t : Nat} (a : Ends h x t) : (look h t).ref = none := by
  induction a with
  | here hr => exact hr
  | step _ _ ih => exact ih

/-- what `_compose` does -/
structure Composed (h0 h : Heap) (g : List Nat) (h' : Heap) (g' : List Nat) : Prop where
  valid : Valid h0 h'
  fin : Fin h h'
  sub : ∀ c ∈ g, c ∈ g'
  kept : ∀ c ∈ g, c < h.length → (look h' c).final = (look h c).final

theorem composeAll_ok {n : Nat} (ih : ∀ h g x, Valid h0 h → x < h0.length → room h0.length g < n →
      ∃ h' g', compose h x g = some (h', g') ∧ Composed h0 h g h' g') :
    ∀ (l : List Nat) (h : Heap) (g : List Nat), Valid h0 h → (∀ x ∈ l, x < h0.length) →
      room h0.length g < n → ∃ h' g', composeAll h l g = some (h', g') ∧ Composed h0 h g h' g' := by
  intro l
  induction l with
  | nil => intro h g v _ _; exact ⟨h, g, by rw [composeAll], v, .rfl, fun _ h => h, fun _ _ _ => rfl⟩
  | cons x l ihl =>
    intro h g v hl hr
    obtain ⟨h1, g1, he, c⟩ := ih h g x v (hl x (List.mem_cons_self ..)) hr
    obtain ⟨h2, g2, he2, c2⟩ := ihl h1 g1 c.valid (fun a ha => hl a (List.mem_cons_of_mem _ ha))
      (Nat.lt_of_le_of_lt (room_le c.sub) hr)
    refine ⟨h2, g2, ?_, c2.valid, c.fin.trans c2.fin, fun a ha => c2.sub a (c.sub a ha), fun a ha hl =>
      (c2.kept a (c.sub a ha) (Nat.lt_of_lt_of_le hl c.fin.len)).trans (c.kept a ha hl)⟩
    rw [composeAll, he]
    exact he2

theorem compose_ok (ld : Loaded h0) : ∀ (n : Nat) (h : Heap) (g : List Nat) (x : Nat), Valid h0 h →
    x < h0.length → room h0.length g < n →
    ∃ h' g', compose h x g = some (h', g') ∧ Composed h0 h g h' g' ∧
      (g = [] → ∀ t, Ends h0 x t → (look h' t).final.isSome) := by
  intro n
  induction n with
  | zero => intro h g x _ _ hr; exact absurd hr (by omega)
  | succ n ih =>
    intro h g x v hx hr
    obtain ⟨z, g1, he, d⟩ := deref_ok ld v (Nat.le_refl _) v.len _ x g rfl hx
    rw [compose, he]
    cases z with
    | none =>
      refine ⟨h, g1, rfl, ⟨v, .rfl, d.sub, fun _ _ _ => rfl⟩, ?_⟩
      rintro rfl t ht
      obtain ⟨w, hw, _⟩ := d.none rfl t ((ends_orig ld v hx).2 ht)
      cases hw
    | some y =>
      obtain ⟨y1, y2, y3, y4, y5⟩ := d.some y rfl
      have hend : ∀ t, Ends h0 x t → t = y := fun t ht => ends_fun ((ends_orig ld v hx).2 ht) y1
      dsimp only
      by_cases hf : (look h y).final.isSome
      · refine ⟨h, g1, by simp [hf], ⟨v, .rfl, d.sub, fun _ _ _ => rfl⟩, ?_⟩
        intro _ t ht
        rw [hend t ht]; exact hf
      · have hroom : room h0.length g1 < n := by
          have := room_lt d.sub y4 y2 y3
          omega
        have oy := v.orig' ld y4
        obtain ⟨h2, g2, he2, c2⟩ := composeAll_ok (n := n)
          (fun h g x v hx hr => by
            obtain ⟨h', g', e, c, _⟩ := ih h g x v hx hr
            exact ⟨h', g', e, c⟩)
          ((look h y).items.toList ++ (look h y).props.map (·.2) ++ (look h y).allOf) h g1 v (by
            intro a ha
            rw [oy.2.2.2.1, oy.2.2.2.2.1, oy.2.2.2.2.2] at ha
            rcases List.mem_append.1 ha with ha | ha
            · rcases List.mem_append.1 ha with ha | ha
              · exact ld.items y y4 a (by simpa using ha)
              · obtain ⟨p, hp, rfl⟩ := List.mem_map.1 ha
                exact ld.props y y4 p.1 p.2 hp
            · exact ld.allOf y y4 a ha) hroom
        have hny : (look h2 y).final = none := by
          rw [c2.kept y y3 (Nat.lt_of_lt_of_le y4 v.len)]
          simpa using hf
        obtain ⟨h3, he3, v3, f3, hs, hk3⟩ := finish_ok ld c2.valid y4 hny
        refine ⟨h3, g2, ?_, ⟨v3, c2.fin.trans f3, fun a ha => c2.sub a (d.sub a ha), fun a ha hl => ?_⟩, ?_⟩
        · simp only [hf, he2]
          simp [he3]
        · rw [hk3 a (Nat.lt_of_lt_of_le hl c2.fin.len) fun e => y2 (e ▸ ha)]
          exact c2.kept a (d.sub a ha) hl
        · intro _ t ht
          rw [hend t ht]; exact hs

theorem valid_loaded (ld : Loaded h0) : Valid h0 h0 := by
  refine ⟨Nat.le_refl _, fun _ _ => rfl, fun x hx => ?_, fun x hx f hf => by rw [(ld.pure x hx).2.2] at hf; cases hf⟩
  obtain ⟨p1, p2, p3⟩ := ld.pure x hx
  have hid : ∀ a < h0.length, (look h0 a).origin = a := fun a ha => (ld.pure a ha).1
  refine .ofPlain (by rw [p1]; exact hx) (by rw [p1]) ?_ ?_ ?_ ?_ (by rw [p1]; exact (ld.unique x hx).1)
    (ld.unique x hx).2 (by rw [p1]; exact ld.values x hx) ?_ ?_ (by rw [p1]; exact .rfl) (by rw [p3]; nofun)
  · intro i hi; exact ⟨ld.items x hx i hi, (ld.pure _ (ld.items x hx i hi)).2.1⟩
  · intro n p hp; exact ⟨ld.props x hx n p hp, (ld.pure _ (ld.props x hx n p hp)).2.1⟩
  · intro a ha; exact ⟨ld.allOf x hx a ha, (ld.pure _ (ld.allOf x hx a ha)).2.1⟩
  · rw [p1]
    exact (List.map_congr_left fun a ha => hid a (ld.allOf x hx a ha)).trans (List.map_id _)
  · rw [p1]
    cases hi : (look h0 x).items with
    | none => rfl
    | some i => simp [hid i (ld.items x hx i hi)]
  · rw [p1]
    refine (List.map_congr_left (g := id) fun p hp => ?_).trans (List.map_id _)
    rw [hid p.2 (ld.props x hx p.1 p.2 hp)]; rfl

theorem aggregate_ok (ld : Loaded h0) : ∀ (xs : List Nat) (h : Heap), Valid h0 h → (∀ x ∈ xs, x < h0.length) →
    ∃ h', aggregate h xs = some h' ∧ Valid h0 h' ∧ Fin h h' ∧
      ∀ x ∈ xs, ∀ t, Ends h0 x t → (look h' t).final.isSome := by
  intro xs
  induction xs with
  | nil => intro h v _; exact ⟨h, rfl, v, .rfl, nofun⟩
  | cons x xs ih =>
    intro h v hl
    have hx := hl x (List.mem_cons_self ..)
    obtain ⟨h1, g1, he, c, hs⟩ := compose_ok ld _ h [] x v hx (Nat.lt_succ_self _)
    obtain ⟨h2, he2, v2, f2, hs2⟩ := ih h1 c.valid fun a ha => hl a (List.mem_cons_of_mem _ ha)
    refine ⟨h2, ?_, v2, c.fin.trans f2, ?_⟩
    · rw [aggregate, he]; exact he2
    · intro a ha t ht
      rcases List.mem_cons.1 ha with rfl | ha
      · exact f2.set t (Nat.lt_of_lt_of_le (ends_lt ld ht hx) c.valid.len) (hs rfl t ht)
      · exact hs2 a ha t ht

end Proofs.Aggregate
