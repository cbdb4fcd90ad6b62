import Verif.Proofs.Values
/-! # Helper lemmas for `allOf` composition (C53) -/

namespace Proofs.Aggregate
open Py _root_.Aggregate Spec.Aggregate

/-! ## heaps -/

theorem get_append {h : Heap} {x : Nat} (hx : x < h.length) (l : Heap) : look (h ++ l) x = look h x := by
  unfold look; rw [List.getElem?_append_left hx]

theorem get_append_self (h : Heap) (o : Obj) : look (h ++ [o]) h.length = o := by
  unfold look; simp

theorem get_set_self {h : Heap} {x : Nat} (hx : x < h.length) (o : Obj) : look (h.set x o) x = o := by
  unfold look; simp [hx]

theorem get_set_ne {h : Heap} {x y : Nat} (hxy : x ≠ y) (o : Obj) : look (h.set x o) y = look h y := by
  unfold look; rw [List.getElem?_set_ne hxy]

/-- nothing changes, there may be more -/
structure Ext (h h' : Heap) : Prop where
  len : h.length ≤ h'.length
  same : ∀ x < h.length, look h' x = look h x

theorem Ext.rfl {h : Heap} : Ext h h := ⟨Nat.le_refl _, fun _ _ => Eq.refl _⟩
theorem Ext.trans {a b c : Heap} (h : Ext a b) (h' : Ext b c) : Ext a c :=
  ⟨Nat.le_trans h.len h'.len, fun x hx =>
    (h'.same x (Nat.lt_of_lt_of_le hx h.len)).trans (h.same x hx)⟩

/-- all properties and values of all parts are there -/
def Complete (h0 : Heap) (f : Obj) : Prop :=
  ∀ z, Part h0 f.origin z → (∀ n ∈ Dict.keys (look h0 z).props, n ∈ Dict.keys f.props) ∧
    (∀ n t, Dict.get? (look h0 z).values n = some (some t) →
      ∃ v, Dict.get? f.values n = some v ∧ Covers v t) ∧
    ((look h0 z).items.isSome → f.items.isSome)

/-- what holds of an object of the heap `h` that came from the document `h0` -/
structure ObjOk (h0 h : Heap) (o : Obj) : Prop where
  org : o.origin < h0.length
  ref : o.ref = (look h0 o.origin).ref
  itemsLt : ∀ i, o.items = some i → i < h.length ∧ (look h i).composed = false
  propsLt : ∀ n p, (n, p) ∈ o.props → p < h.length ∧ (look h p).composed = false
  allOfLt : ∀ a ∈ o.allOf, a < h.length ∧ (look h a).composed = false
  allOf : o.allOf.map (fun a => (look h a).origin) = (look h0 o.origin).allOf
  wf : Dict.WF o.props
  wfs : Dict.WF o.values
  plain : o.composed = false →
    o.items.map (fun a => (look h a).origin) = (look h0 o.origin).items ∧
    o.props.map (fun p => (p.1, (look h p.2).origin)) = (look h0 o.origin).props ∧
    Mirror (look h0 o.origin).values o.values
  itemsOwn : ∀ i, (look h0 o.origin).items = some i → ∃ j, o.items = some j ∧ (look h j).origin = i
  itemsSound : ∀ j, o.items = some j →
    ∃ z, (z = o.origin ∨ Part h0 o.origin z) ∧ (look h0 z).items = some (look h j).origin
  own : ∀ n p0, Dict.get? (look h0 o.origin).props n = some p0 →
    ∃ p, Dict.get? o.props n = some p ∧ (look h p).origin = p0
  sound : ∀ n p, Dict.get? o.props n = some p →
    ∃ z, (z = o.origin ∨ Part h0 o.origin z) ∧ Dict.get? (look h0 z).props n = some (look h p).origin
  sown : ∀ n t, Dict.get? (look h0 o.origin).values n = some (some t) →
    ∃ v, Dict.get? o.values n = some v ∧ Keeps h0 o.origin n v t
  ssound : ∀ n v, Dict.get? o.values n = some v → Comes h0 o.origin n v
  fin : ∀ f, o.final = some f → f < h.length ∧ (look h f).composed = true ∧
    (look h f).origin = o.origin ∧ Complete h0 (look h f)

/-- origins and kinds do not change and composed schemas only grow -/
structure Keep (h h' : Heap) : Prop where
  len : h.length ≤ h'.length
  org : ∀ x < h.length, (look h' x).origin = (look h x).origin
  comp : ∀ x < h.length, (look h' x).composed = (look h x).composed
  props : ∀ x < h.length, (look h x).composed = true →
    ∀ n ∈ Dict.keys (look h x).props, n ∈ Dict.keys (look h' x).props
  scal : ∀ x < h.length, (look h x).composed = true →
    Grows (look h x).values (look h' x).values
  items : ∀ x < h.length, (look h x).composed = true → (look h x).items.isSome → (look h' x).items.isSome

theorem Ext.keep {h h' : Heap} (e : Ext h h') : Keep h h' :=
  ⟨e.len, fun x hx => by rw [e.same x hx], fun x hx => by rw [e.same x hx],
    fun x hx _ n hn => by rw [e.same x hx]; exact hn, fun x hx _ => by rw [e.same x hx]; exact .rfl,
    fun x hx _ h => by rw [e.same x hx]; exact h⟩

theorem get?_map_origin {g : Nat → Nat} : ∀ (d : Dict Str Nat) (n : Str),
    Dict.get? (d.map fun p => (p.1, g p.2)) n = (Dict.get? d n).map g
  | [], n => rfl
  | (m, p) :: d, n => by
    simp only [List.map_cons, Dict.get?]
    by_cases h : m = n
    · simp [h]
    · simp only [h, if_false]
      exact get?_map_origin d n

/-- for a plain copy the rest follows -/
theorem ObjOk.ofPlain {h0 h : Heap} {o : Obj} (org : o.origin < h0.length)
    (ref : o.ref = (look h0 o.origin).ref)
    (itemsLt : ∀ i, o.items = some i → i < h.length ∧ (look h i).composed = false)
    (propsLt : ∀ n p, (n, p) ∈ o.props → p < h.length ∧ (look h p).composed = false)
    (allOfLt : ∀ a ∈ o.allOf, a < h.length ∧ (look h a).composed = false)
    (allOf : o.allOf.map (fun a => (look h a).origin) = (look h0 o.origin).allOf)
    (wf : Dict.WF (look h0 o.origin).props) (wfs : Dict.WF o.values)
    (sane : ∀ n v, Dict.get? (look h0 o.origin).values n = some v → Sane v)
    (items : o.items.map (fun a => (look h a).origin) = (look h0 o.origin).items)
    (props : o.props.map (fun p => (p.1, (look h p.2).origin)) = (look h0 o.origin).props)
    (values : Mirror (look h0 o.origin).values o.values)
    (fin : ∀ f, o.final = some f → f < h.length ∧ (look h f).composed = true ∧
      (look h f).origin = o.origin ∧ Complete h0 (look h f)) : ObjOk h0 h o where
  org := org
  ref := ref
  itemsLt := itemsLt
  propsLt := propsLt
  allOfLt := allOfLt
  allOf := allOf
  wf := by
    have : Dict.keys (look h0 o.origin).props = Dict.keys o.props := by
      rw [← props]; simp [Dict.keys]
    unfold Dict.WF; rw [← this]; exact wf
  wfs := wfs
  plain := fun _ => ⟨items, props, values⟩
  itemsOwn := by
    intro i hi
    rw [← items] at hi
    cases ho : o.items with
    | none => rw [ho] at hi; cases hi
    | some j => rw [ho] at hi; exact ⟨j, rfl, by simpa using hi⟩
  itemsSound := by
    intro j hj
    refine ⟨o.origin, Or.inl rfl, ?_⟩
    rw [← items, hj]
    rfl
  own := by
    intro n p0 hp
    rw [← props, get?_map_origin (g := fun a => (look h a).origin)] at hp
    cases ho : Dict.get? o.props n with
    | none => rw [ho] at hp; cases hp
    | some p => rw [ho] at hp; exact ⟨p, rfl, by simpa using hp⟩
  sound := by
    intro n p hp
    refine ⟨o.origin, Or.inl rfl, ?_⟩
    rw [← props, get?_map_origin (g := fun a => (look h a).origin), hp]
    rfl
  sown := by
    intro n t ht
    obtain ⟨v, hv, hl⟩ := values.1 n _ ht
    exact ⟨v, hv, keeps_like hl⟩
  ssound := by
    intro n v hv
    obtain ⟨v0, h0, hl⟩ := values.2 n v hv
    exact comes_self h0 (sane n v0 h0) hl
  fin := fin

theorem ObjOk.mono {h0 h h' : Heap} {o : Obj} (k : Keep h h') (ok : ObjOk h0 h o) : ObjOk h0 h' o := by
  have hget : ∀ n p, Dict.get? o.props n = some p → (look h' p).origin = (look h p).origin := fun n p hp =>
    k.org p (ok.propsLt n p (Dict.mem_of_get? hp)).1
  refine { ok with
    itemsLt := fun i hi => ?_, propsLt := fun n p hp => ?_, allOfLt := fun a ha => ?_, allOf := ?_
    plain := fun hc => ?_, itemsOwn := fun i hi => ?_, itemsSound := fun j hj => ?_, own := fun n p0 hp => ?_, sound := fun n p hp => ?_
    fin := fun f hf => ?_ }
  · have := ok.itemsLt i hi
    exact ⟨Nat.lt_of_lt_of_le this.1 k.len, (k.comp i this.1).trans this.2⟩
  · have := ok.propsLt n p hp
    exact ⟨Nat.lt_of_lt_of_le this.1 k.len, (k.comp p this.1).trans this.2⟩
  · have := ok.allOfLt a ha
    exact ⟨Nat.lt_of_lt_of_le this.1 k.len, (k.comp a this.1).trans this.2⟩
  · rw [← ok.allOf]
    exact List.map_congr_left fun a ha => k.org a (ok.allOfLt a ha).1
  · obtain ⟨h1, h2, h3⟩ := ok.plain hc
    refine ⟨?_, ?_, h3⟩
    · rw [← h1]
      cases hi : o.items with
      | none => rfl
      | some i => simp [k.org i (ok.itemsLt i hi).1]
    · rw [← h2]
      exact List.map_congr_left fun p hp => by rw [k.org p.2 (ok.propsLt p.1 p.2 hp).1]
  · obtain ⟨j, hj, ho⟩ := ok.itemsOwn i hi
    exact ⟨j, hj, (k.org j (ok.itemsLt j hj).1).trans ho⟩
  · obtain ⟨z, hz, ho⟩ := ok.itemsSound j hj
    exact ⟨z, hz, by rw [k.org j (ok.itemsLt j hj).1]; exact ho⟩
  · obtain ⟨p, hg, ho⟩ := ok.own n p0 hp
    exact ⟨p, hg, (hget n p hg).trans ho⟩
  · obtain ⟨z, hz, ho⟩ := ok.sound n p hp
    exact ⟨z, hz, by rw [hget n p hp]; exact ho⟩
  · obtain ⟨h1, h2, h3, h4⟩ := ok.fin f hf
    refine ⟨Nat.lt_of_lt_of_le h1 k.len, (k.comp f h1).trans h2, (k.org f h1).trans h3, ?_⟩
    intro z hz
    rw [k.org f h1] at hz
    refine ⟨fun n hn => k.props f h1 h2 n ((h4 z hz).1 n hn), fun n t ht => ?_,
      fun hi => k.items f h1 h2 ((h4 z hz).2.2 hi)⟩
    obtain ⟨v, hv, hcov⟩ := (h4 z hz).2.1 n t ht
    obtain ⟨v', hv', hcov'⟩ := k.scal f h1 h2 n v hv
    exact ⟨v', hv', hcov' t hcov⟩

/-- a heap that came from the document `h0` -/
structure Valid (h0 h : Heap) : Prop where
  len : h0.length ≤ h.length
  orig : ∀ x < h0.length, look h x = { look h0 x with final := (look h x).final }
  ok : ∀ x < h.length, ObjOk h0 h (look h x)
  shared : ∀ x < h.length, ∀ f, (look h x).final = some f → (look h (look h x).origin).final = some f

theorem Valid.alloc {h0 h : Heap} {o : Obj} (v : Valid h0 h) (ok : ObjOk h0 h o)
    (hs : ∀ f, o.final = some f → (look h o.origin).final = some f) :
    Valid h0 (h ++ [o]) ∧ Ext h (h ++ [o]) := by
  have e : Ext h (h ++ [o]) := ⟨by simp, fun x hx => get_append hx _⟩
  have hlt : ∀ {o'}, ObjOk h0 h o' → o'.origin < h.length := fun k => Nat.lt_of_lt_of_le k.org v.len
  refine ⟨⟨Nat.le_trans v.len e.len, fun x hx => ?_, fun x hx => ?_, fun x hx f hf => ?_⟩, e⟩
  · rw [e.same x (Nat.lt_of_lt_of_le hx v.len)]; exact v.orig x hx
  · by_cases hxl : x < h.length
    · rw [e.same x hxl]; exact (v.ok x hxl).mono e.keep
    · have : x = h.length := by simp at hx; omega
      subst this
      rw [get_append_self]; exact ok.mono e.keep
  · by_cases hxl : x < h.length
    · rw [e.same x hxl] at hf ⊢
      rw [e.same _ (hlt (v.ok x hxl))]
      exact v.shared x hxl f hf
    · have : x = h.length := by simp at hx; omega
      subst this
      rw [get_append_self] at hf ⊢
      rw [e.same _ (hlt ok)]
      exact hs f hf

theorem keep_set {h : Heap} {x : Nat} {o : Obj} (hx : x < h.length)
    (ho : o.origin = (look h x).origin) (hc : o.composed = (look h x).composed)
    (hp : (look h x).composed = true → ∀ n ∈ Dict.keys (look h x).props, n ∈ Dict.keys o.props)
    (hs : (look h x).composed = true → Grows (look h x).values o.values)
    (hi : (look h x).composed = true → (look h x).items.isSome → o.items.isSome) :
    Keep h (h.set x o) := by
  refine ⟨by simp, fun y hy => ?_, fun y hy => ?_, fun y hy => ?_, fun y hy => ?_, fun y hy => ?_⟩ <;>
  · by_cases hxy : x = y
    · subst hxy; rw [get_set_self hx]; assumption
    · rw [get_set_ne hxy]; try first | exact fun _ _ h => h | exact fun _ => .rfl | exact fun _ h => h

theorem Valid.set {h0 h : Heap} {x : Nat} {o : Obj} (v : Valid h0 h) (hx : x < h.length)
    (k : Keep h (h.set x o)) (hq : x < h0.length → o = { look h0 x with final := o.final })
    (ok : ObjOk h0 h o) (hk : ∀ f, (look h x).final = some f → o.final = some f)
    (hs : ∀ f, o.final = some f → o.origin ≠ x → (look h o.origin).final = some f) : Valid h0 (h.set x o) := by
  refine ⟨by simpa using v.len, fun y hy => ?_, fun y hy => ?_, fun y hy f hf => ?_⟩
  · by_cases hxy : x = y
    · subst hxy; rw [get_set_self hx]; exact hq hy
    · rw [get_set_ne hxy]; exact v.orig y hy
  · by_cases hxy : x = y
    · subst hxy; rw [get_set_self hx]; exact ok.mono k
    · rw [get_set_ne hxy]
      exact (v.ok y (by simpa using hy)).mono k
  · by_cases hxy : x = y
    · subst hxy
      rw [get_set_self hx] at hf ⊢
      by_cases ho : x = o.origin
      · rw [← ho, get_set_self hx]; exact hf
      · rw [get_set_ne ho]; exact hs f hf fun e => ho e.symm
    · rw [get_set_ne hxy] at hf ⊢
      have := v.shared y (by simpa using hy) f hf
      by_cases ho : x = (look h y).origin
      · rw [← ho, get_set_self hx]; rw [← ho] at this; exact hk f this
      · rw [get_set_ne ho]; exact this

/-! ## copying -/

section
variable {h0 : Heap}

/-- the result of copying the object `x` -/
structure Copied (h0 h : Heap) (x : Nat) (h' : Heap) (x' : Nat) : Prop where
  ext : Ext h h'
  valid : Valid h0 h'
  new : h.length ≤ x'
  lt : x' < h'.length
  org : (look h' x').origin = (look h x).origin
  comp : (look h' x').composed = false
  last : ∃ h3 o, h' = h3 ++ [o] ∧ x' = h3.length ∧ Valid h0 h3 ∧ Ext h h3 ∧ ObjOk h0 h3 o ∧
    o.final = (look h x).final

theorem copyList_ok {depth : Nat → Nat} {r : Nat}
    (ih : ∀ h x, Valid h0 h → x < h.length → (look h x).composed = false → depth (look h x).origin < r →
      ∃ h' x', copyObj h x = some (h', x') ∧ Copied h0 h x h' x') :
    ∀ (l : List Nat) (h : Heap), Valid h0 h →
      (∀ a ∈ l, a < h.length ∧ (look h a).composed = false ∧ depth (look h a).origin < r) →
      ∃ h' m, copyList h l = some (h', m) ∧ Ext h h' ∧ Valid h0 h' ∧
        (∀ a ∈ m, a < h'.length ∧ (look h' a).composed = false) ∧
        m.map (fun a => (look h' a).origin) = l.map fun a => (look h a).origin := by
  intro l
  induction l with
  | nil => intro h v _; exact ⟨h, [], copyList.eq_1 h, .rfl, v, nofun, rfl⟩
  | cons x l ihl =>
    intro h v hl
    obtain ⟨hx, hc, hd⟩ := hl x (List.mem_cons_self ..)
    obtain ⟨h1, x', he, c⟩ := ih h x v hx hc hd
    obtain ⟨h2, m, he2, e2, v2, hm, ho⟩ := ihl h1 c.valid (by
      intro a ha
      obtain ⟨ha1, ha2, ha3⟩ := hl a (List.mem_cons_of_mem _ ha)
      rw [c.ext.same a ha1]
      exact ⟨Nat.lt_of_lt_of_le ha1 c.ext.len, ha2, ha3⟩)
    refine ⟨h2, x' :: m, ?_, c.ext.trans e2, v2, ?_, ?_⟩
    · rw [copyList.eq_2, he]; simp [he2]
    · intro a ha
      rcases List.mem_cons.1 ha with rfl | ha
      · rw [e2.same _ c.lt]; exact ⟨Nat.lt_of_lt_of_le c.lt e2.len, c.comp⟩
      · exact hm a ha
    · rw [List.map_cons, List.map_cons, ho, e2.same _ c.lt, c.org]
      congr 1
      exact List.map_congr_left fun a ha => by
        rw [c.ext.same a (hl a (List.mem_cons_of_mem _ ha)).1]

theorem copyDict_ok {depth : Nat → Nat} {r : Nat}
    (ih : ∀ h x, Valid h0 h → x < h.length → (look h x).composed = false → depth (look h x).origin < r →
      ∃ h' x', copyObj h x = some (h', x') ∧ Copied h0 h x h' x') :
    ∀ (d : List (Str × Nat)) (h : Heap), Valid h0 h →
      (∀ n a, (n, a) ∈ d → a < h.length ∧ (look h a).composed = false ∧ depth (look h a).origin < r) →
      ∃ h' e, copyDict h d = some (h', e) ∧ Ext h h' ∧ Valid h0 h' ∧
        (∀ n a, (n, a) ∈ e → a < h'.length ∧ (look h' a).composed = false) ∧
        e.map (fun p => (p.1, (look h' p.2).origin)) = d.map fun p => (p.1, (look h p.2).origin) := by
  intro d
  induction d with
  | nil => intro h v _; exact ⟨h, [], copyDict.eq_1 h, .rfl, v, nofun, rfl⟩
  | cons p d ihl =>
    obtain ⟨n, x⟩ := p
    intro h v hl
    obtain ⟨hx, hc, hd⟩ := hl n x (List.mem_cons_self ..)
    obtain ⟨h1, x', he, c⟩ := ih h x v hx hc hd
    obtain ⟨h2, m, he2, e2, v2, hm, ho⟩ := ihl h1 c.valid (by
      intro k a ha
      obtain ⟨ha1, ha2, ha3⟩ := hl k a (List.mem_cons_of_mem _ ha)
      rw [c.ext.same a ha1]
      exact ⟨Nat.lt_of_lt_of_le ha1 c.ext.len, ha2, ha3⟩)
    refine ⟨h2, (n, x') :: m, ?_, c.ext.trans e2, v2, ?_, ?_⟩
    · rw [copyDict.eq_2, he]; simp [he2]
    · intro k a ha
      rcases List.mem_cons.1 ha with hq | ha
      · cases hq
        rw [e2.same _ c.lt]; exact ⟨Nat.lt_of_lt_of_le c.lt e2.len, c.comp⟩
      · exact hm k a ha
    · rw [List.map_cons, List.map_cons, ho, e2.same _ c.lt, c.org]
      congr 1
      exact List.map_congr_left fun q hq => by
        rw [c.ext.same q.2 (hl q.1 q.2 (List.mem_cons_of_mem _ hq)).1]

theorem copyOpt_ok {depth : Nat → Nat} {r : Nat}
    (ih : ∀ h x, Valid h0 h → x < h.length → (look h x).composed = false → depth (look h x).origin < r →
      ∃ h' x', copyObj h x = some (h', x') ∧ Copied h0 h x h' x')
    (i : Option Nat) (h : Heap) (v : Valid h0 h)
    (hl : ∀ a, i = some a → a < h.length ∧ (look h a).composed = false ∧ depth (look h a).origin < r) :
      ∃ h' j, copyOpt h i = some (h', j) ∧ Ext h h' ∧ Valid h0 h' ∧
        (∀ a, j = some a → a < h'.length ∧ (look h' a).composed = false) ∧
        j.map (fun a => (look h' a).origin) = i.map fun a => (look h a).origin := by
  cases i with
  | none => exact ⟨h, none, copyOpt.eq_1 h, .rfl, v, nofun, rfl⟩
  | some x =>
    obtain ⟨hx, hc, hd⟩ := hl x rfl
    obtain ⟨h1, x', he, c⟩ := ih h x v hx hc hd
    refine ⟨h1, some x', ?_, c.ext, c.valid, ?_, ?_⟩
    · rw [copyOpt.eq_2, he]; rfl
    · rintro _ ⟨⟩; exact ⟨c.lt, c.comp⟩
    · simp [c.org]

theorem copyObj_ok (ld : Loaded h0) {depth : Nat → Nat}
    (hd : ∀ x < h0.length,
      (∀ i, (look h0 x).items = some i → depth i < depth x) ∧
      (∀ n p, (n, p) ∈ (look h0 x).props → depth p < depth x) ∧
      (∀ a ∈ (look h0 x).allOf, depth a < depth x)) :
    ∀ (r : Nat) (h : Heap) (x : Nat), Valid h0 h → x < h.length → (look h x).composed = false →
      depth (look h x).origin < r → ∃ h' x', copyObj h x = some (h', x') ∧ Copied h0 h x h' x' := by
  intro r
  induction r with
  | zero => intro h x _ _ _ hr; exact absurd hr (by omega)
  | succ r ih =>
    intro h x v hx hc hr
    have ok := v.ok x hx
    obtain ⟨p1, p2, p3⟩ := ok.plain hc
    have hdx := hd _ ok.org
    obtain ⟨h1, i', he1, e1, v1, hi1, ho1⟩ := copyOpt_ok ih (look h x).items h v (by
      intro a ha
      obtain ⟨q1, q2⟩ := ok.itemsLt a ha
      refine ⟨q1, q2, ?_⟩
      have := hdx.1 (look h a).origin (by rw [← p1, ha]; rfl)
      omega)
    obtain ⟨h2, d', he2, e2, v2, hi2, ho2⟩ := copyDict_ok ih (look h x).props h1 v1 (by
      intro n a ha
      obtain ⟨q1, q2⟩ := ok.propsLt n a ha
      rw [e1.same a q1]
      refine ⟨Nat.lt_of_lt_of_le q1 e1.len, q2, ?_⟩
      have := hdx.2.1 n (look h a).origin (by
        rw [← p2]; exact List.mem_map.2 ⟨(n, a), ha, rfl⟩)
      omega)
    have e12 := e1.trans e2
    obtain ⟨h3, l', he3, e3, v3, hi3, ho3⟩ := copyList_ok ih (look h x).allOf h2 v2 (by
      intro a ha
      obtain ⟨q1, q2⟩ := ok.allOfLt a ha
      rw [e12.same a q1]
      refine ⟨Nat.lt_of_lt_of_le q1 e12.len, q2, ?_⟩
      have := hdx.2.2 (look h a).origin (by
        rw [← ok.allOf]; exact List.mem_map.2 ⟨a, ha, rfl⟩)
      omega)
    have e13 := e12.trans e3
    have e23 := e2.trans e3
    have ook := (v3.ok x (Nat.lt_of_lt_of_le hx e13.len))
    rw [e13.same x hx] at ook
    have nok : ObjOk h0 h3 { look h x with
        items := i', props := d', allOf := l', values := joinValues [] (look h x).values } := by
      refine .ofPlain ok.org ok.ref ?_ ?_ hi3 ?_ (ld.unique _ ok.org).1
        (wf_joinValues Dict.WF_nil ok.wfs) (ld.values _ ok.org) ?_ ?_ p3.fresh ook.fin
      · intro a ha
        obtain ⟨q1, q2⟩ := hi1 a ha
        rw [e23.same a q1]
        exact ⟨Nat.lt_of_lt_of_le q1 e23.len, q2⟩
      · intro n a ha
        obtain ⟨q1, q2⟩ := hi2 n a ha
        rw [e3.same a q1]
        exact ⟨Nat.lt_of_lt_of_le q1 e3.len, q2⟩
      · show l'.map _ = _
        rw [ho3, ← ok.allOf]
        exact List.map_congr_left fun a ha => by rw [e12.same a (ok.allOfLt a ha).1]
      · show i'.map _ = _
        rw [← p1, ← ho1]
        cases i' with
        | none => rfl
        | some a => simp [e23.same a (hi1 a rfl).1]
      · show d'.map _ = _
        rw [← p2]
        have : (look h x).props.map (fun p => (p.1, (look h p.2).origin)) =
            (look h x).props.map (fun p => (p.1, (look h1 p.2).origin)) :=
          List.map_congr_left fun p hp => by rw [e1.same p.2 (ok.propsLt p.1 p.2 hp).1]
        rw [this, ← ho2]
        exact List.map_congr_left fun p hp => by rw [e3.same p.2 (hi2 p.1 p.2 hp).1]
    obtain ⟨v4, e4⟩ := v3.alloc nok fun f hf => by
      have := v3.shared x (Nat.lt_of_lt_of_le hx e13.len) f (by rw [e13.same x hx]; exact hf)
      rwa [e13.same x hx] at this
    refine ⟨_, h3.length, ?_, e13.trans e4, v4, e13.len, by simp, ?_, ?_, ?_⟩
    · rw [copyObj, he1]
      simp only [Option.bind_eq_bind, Option.bind_some]
      rw [he2]
      simp only [Option.bind_some]
      rw [he3]
      rfl
    · rw [get_append_self]
    · rw [get_append_self]; exact hc
    · exact ⟨h3, _, rfl, rfl, v3, e13, nok, rfl⟩

/-- copying without the depth -/
theorem copy_ok (ld : Loaded h0) {h : Heap} {x : Nat} (v : Valid h0 h) (hx : x < h.length)
    (hc : (look h x).composed = false) : ∃ h' x', copyObj h x = some (h', x') ∧ Copied h0 h x h' x' := by
  obtain ⟨depth, hd⟩ := ld.nested
  exact copyObj_ok ld hd _ h x v hx hc (Nat.lt_succ_self _)

theorem exists_bound (f : Nat → Nat) (n : Nat) : ∃ r, ∀ x < n, f x < r := by
  induction n with
  | zero => exact ⟨0, fun x hx => absurd hx (by omega)⟩
  | succ n ih =>
    obtain ⟨r, hr⟩ := ih
    refine ⟨r + f n + 1, fun x hx => ?_⟩
    by_cases hxn : x = n
    · subst hxn; omega
    · have := hr x (by omega); omega

theorem dict_ok (ld : Loaded h0) {h : Heap} {d : List (Str × Nat)} (v : Valid h0 h)
    (hl : ∀ n a, (n, a) ∈ d → a < h.length ∧ (look h a).composed = false) :
    ∃ h' e, copyDict h d = some (h', e) ∧ Ext h h' ∧ Valid h0 h' ∧
        (∀ n a, (n, a) ∈ e → a < h'.length ∧ (look h' a).composed = false) ∧
        e.map (fun p => (p.1, (look h' p.2).origin)) = d.map fun p => (p.1, (look h p.2).origin) := by
  obtain ⟨depth, hd⟩ := ld.nested
  obtain ⟨r, hr⟩ := exists_bound depth h0.length
  exact copyDict_ok (copyObj_ok ld hd r) d h v fun n a ha =>
    ⟨(hl n a ha).1, (hl n a ha).2, hr _ (v.ok a (hl n a ha).1).org⟩

theorem opt_ok (ld : Loaded h0) {h : Heap} {i : Option Nat} (v : Valid h0 h)
    (hl : ∀ a, i = some a → a < h.length ∧ (look h a).composed = false) :
    ∃ h' j, copyOpt h i = some (h', j) ∧ Ext h h' ∧ Valid h0 h' ∧
        (∀ a, j = some a → a < h'.length ∧ (look h' a).composed = false) ∧
        j.map (fun a => (look h' a).origin) = i.map fun a => (look h a).origin := by
  obtain ⟨depth, hd⟩ := ld.nested
  obtain ⟨r, hr⟩ := exists_bound depth h0.length
  exact copyOpt_ok (copyObj_ok ld hd r) i h v fun a ha =>
    ⟨(hl a ha).1, (hl a ha).2, hr _ (v.ok a (hl a ha).1).org⟩

end

end Proofs.Aggregate
