import Verif.Spec.Dispatched
import Verif.Proofs.Dict
/-! # C97: a scan calls the handlers registered with the dispatchers of its scanner objects, and no others -/

namespace Props.C97
open Py Tree Dispatch Scan Spec.Dispatched

variable {η κ ρ σ : Type}

/-! ## routes -/

theorem get_addRoute (route : Dict Nat (List η)) (t k : Nat) (f : η) :
    (Dict.get? (addRoute route t f) k).getD [] = (Dict.get? route k).getD [] ++ if t = k then [f] else [] := by
  unfold addRoute
  by_cases h : t = k
  · subst h
    cases hg : Dict.get? route t with
    | none => simp [Dict.get?_set_self]
    | some fs => simp [Dict.get?_set_self]
  · rw [if_neg h]
    cases hg : Dict.get? route t with
    | none => simp [Dict.get?_set_ne _ _ (Ne.symm h)]
    | some fs => simp [Dict.get?_set_ne _ _ (Ne.symm h)]

theorem get_addRoutes (isObj : Nat → Bool) (f : η) (k : Nat) : ∀ (target : List Nat) (route : Dict Nat (List η)),
    (Dict.get? (addRoutes isObj f target route).1 k).getD [] =
      (Dict.get? route k).getD [] ++ List.replicate ((target.takeWhile isObj).count k) f
  | [], route => by simp [addRoutes]
  | t :: target, route => by
    unfold addRoutes
    by_cases h : isObj t = true
    · rw [if_pos h, get_addRoutes isObj f k target, get_addRoute, List.takeWhile_cons_of_pos h, List.count_cons]
      by_cases e : t = k
      · subst e
        simp [List.replicate_succ]
      · simp [e]
    · rw [if_neg h, List.takeWhile_cons_of_neg h]
      simp

/-- what the registration of a handler raises -/
theorem addRoutes_error (isObj : Nat → Bool) (f : η) : ∀ (target : List Nat) (route : Dict Nat (List η)),
    (addRoutes isObj f target route).2 = if ∀ t ∈ target, isObj t = true then .ok () else .error .ValueError
  | [], route => by simp [addRoutes]
  | t :: target, route => by
    unfold addRoutes
    by_cases h : isObj t = true
    · rw [if_pos h, addRoutes_error isObj f target]
      simp [h]
    · rw [if_neg h, if_neg fun h' => h (h' t (by simp))]

theorem after_snoc (isObj : Nat → Bool) (es : List (Event η κ)) (e : Event η κ) :
    after isObj (es ++ [e]) = step isObj (after isObj es) e := by
  simp [after]

theorem snoc_ind {α : Type} {P : List α → Prop} (h0 : P []) (h1 : ∀ l a, P l → P (l ++ [a])) (l : List α) : P l := by
  rw [← List.reverse_reverse l]
  induction l.reverse with
  | nil => exact h0
  | cons a l ih => rw [List.reverse_cons]; exact h1 _ _ ih

theorem sound_init {es : List (Event η κ)} {e : Event η κ} (h : Sound (es ++ [e])) : Sound es :=
  fun l x r hx => h l x (r ++ [e]) (by rw [hx]; simp)

theorem count_snoc (es : List (Event η κ)) (e : Event η κ) :
    count (es ++ [e]) = count es + match e with | .define _ => 1 | _ => 0 := by
  unfold count
  cases e <;> simp [List.filter_append] <;> omega

theorem length_after (isObj : Nat → Bool) (es : List (Event η κ)) : (after isObj es).length = count es := by
  induction es using snoc_ind with
  | h0 => rfl
  | h1 es e ih =>
    rw [after_snoc, count_snoc, ← ih]
    cases e <;> simp [step]

theorem handlersFor_snoc (isObj : Nat → Bool) (es : List (Event η κ)) (e : Event η κ) (d t : Nat) :
    handlersFor isObj (es ++ [e]) d t = handlersFor isObj es d t ++ match e with
      | .register d' target f => if d' = d then List.replicate ((target.takeWhile isObj).count t) f else []
      | _ => [] := by
  unfold handlersFor
  rw [List.flatMap_append]
  cases e <;> simp

/-- no handlers for a dispatcher that is not defined -/
theorem handlers_undefined (isObj : Nat → Bool) {es : List (Event η κ)} (h : Sound es) {d : Nat} (hd : count es ≤ d) (t : Nat) :
    handlersFor isObj es d t = [] := by
  induction es using snoc_ind with
  | h0 => rfl
  | h1 es e ih =>
    rw [handlersFor_snoc, ih (sound_init h) (by rw [count_snoc] at hd; omega)]
    have := h es e [] (by simp)
    cases e with
    | register d' target f =>
      have hlt : d' < count es := this
      rw [count_snoc] at hd
      simp only [List.nil_append]
      rw [if_neg (by simp only at hd; omega)]
    | _ => rfl

/-- **C97** (isolation). The handlers that a dispatcher has for a class are those registered with this dispatcher for this class, in
order: nothing comes from its parents, its children or other dispatchers. -/
theorem C97_handlers (isObj : Nat → Bool) {es : List (Event η κ)} (h : Sound es) {d : Nat} {c : Cls η κ}
    (hc : (after isObj es)[d]? = some c) (t : Nat) : (Dict.get? c.route t).getD [] = handlersFor isObj es d t := by
  induction es using snoc_ind generalizing c with
  | h0 =>
    cases d with
    | zero => cases hc; rfl
    | succ d => cases hc
  | h1 es e ih =>
    have ih := fun {c} => ih (sound_init h) (c := c)
    have hl := length_after isObj es
    rw [after_snoc] at hc
    rw [handlersFor_snoc]
    cases e with
    | define parent =>
      simp only [step] at hc
      by_cases hd : d < (after isObj es).length
      · rw [List.getElem?_append_left hd] at hc
        simp [ih hc]
      · rw [List.getElem?_append_right (by omega)] at hc
        have : c = ⟨[], none⟩ := by
          cases hx : d - (after isObj es).length with
          | zero => rw [hx] at hc; exact (Option.some.inj hc).symm
          | succ n => rw [hx] at hc; cases hc
        subst this
        simp only [List.append_nil]
        exact (handlers_undefined isObj (sound_init h) (by omega) t).symm
    | register d' target f =>
      simp only [step, List.getElem?_modify] at hc
      cases hx : (after isObj es)[d]? with
      | none => rw [hx] at hc; cases hc
      | some c0 =>
        rw [hx] at hc
        have hc := Option.some.inj hc
        by_cases e : d' = d
        · subst e
          simp only [if_true] at hc ⊢
          rw [← hc, ← ih hx]
          exact get_addRoutes isObj f t target c0.route
        · simp only [if_neg e] at hc ⊢
          rw [← hc, ← ih hx, List.append_nil]
    | result d' g =>
      simp only [step, List.getElem?_modify] at hc
      cases hx : (after isObj es)[d]? with
      | none => rw [hx] at hc; cases hc
      | some c0 =>
        rw [hx] at hc
        have hc := Option.some.inj hc
        rw [← ih hx, List.append_nil, ← hc]
        by_cases e : d' = d <;> simp [e]

/-- A registration raises `ValueError` if one of the targets is no class of objects, whatever was registered before. -/
theorem C97_refused (isObj : Nat → Bool) (f : η) (target : List Nat) (route : Dict Nat (List η)) :
    ((∃ t ∈ target, isObj t = false) → (addRoutes isObj f target route).2 = .error .ValueError) ∧
    ((∀ t ∈ target, isObj t = true) → (addRoutes isObj f target route).2 = .ok ()) := by
  rw [addRoutes_error]
  constructor
  · rintro ⟨t, ht, h⟩
    rw [if_neg fun h' => by rw [h' t ht] at h; cases h]
  · intro h
    rw [if_pos h]

/-! ## result functions -/

theorem result_unique {es : List (Event η κ)} {d : Nat} {a b : Option κ} (ha : ResultOf es d a) (hb : ResultOf es d b) : a = b := by
  have key : ∀ (l l' r r' : List (Event η κ)) (g g' : κ), l ++ .result d g :: r = l' ++ .result d g' :: r' →
      (∀ x, .result d x ∉ r) → (∀ x, .result d x ∉ r') → g = g' := by
    intro l
    induction l with
    | nil =>
      intro l' r r' g g' h h1 _
      cases l' with
      | nil => cases h; rfl
      | cons x l' =>
        injection h with _ h
        exact absurd (by rw [h]; simp) (h1 g')
    | cons x l ih =>
      intro l' r r' g g' h h1 h2
      cases l' with
      | nil =>
        injection h with _ h
        exact absurd (by rw [← h]; simp) (h2 g)
      | cons y l' =>
        injection h with _ h
        exact ih _ _ _ _ _ h h1 h2
  generalize hes : es = es' at ha
  cases ha with
  | never h =>
    subst hes
    cases hb with
    | never => rfl
    | @last _ _ _ g _ => exact absurd (by simp) (h g)
  | @last l r _ g h =>
    subst hes
    generalize hes : l ++ Event.result d g :: r = es' at hb
    cases hb with
    | never h' => subst hes; exact absurd (by simp) (h' g)
    | last h' => rw [key _ _ _ _ _ _ hes h h']

theorem resultOf_snoc {es : List (Event η κ)} {d : Nat} {a : Option κ} (h : ResultOf es d a) {e : Event η κ} (he : ∀ g, e ≠ .result d g) :
    ResultOf (es ++ [e]) d a := by
  cases h with
  | never h =>
    refine .never fun g hg => ?_
    rcases List.mem_append.1 hg with hg | hg
    · exact h g hg
    · exact he g (List.mem_singleton.1 hg).symm
  | last h =>
    rw [List.append_assoc, List.cons_append]
    refine .last fun g hg => ?_
    rcases List.mem_append.1 hg with hg | hg
    · exact h g hg
    · exact he g (List.mem_singleton.1 hg).symm

/-- **C97** (results). The return values of the handlers of a dispatcher go to the function last given to it by `result`; one that was
given to its parent is not inherited. -/
theorem C97_result (isObj : Nat → Bool) {es : List (Event η κ)} (h : Sound es) (d : Nat) :
    ResultOf es d (((after isObj es)[d]?).bind Cls.result) := by
  induction es using snoc_ind with
  | h0 =>
    have : (((after isObj ([] : List (Event η κ)))[d]?).bind Cls.result) = none := by
      cases d <;> rfl
    rw [this]
    exact .never fun g hg => by cases hg
  | h1 es e ih =>
    have ih := ih (sound_init h)
    have hs := h es e [] (by simp)
    have hl := length_after isObj es
    rw [after_snoc]
    cases e with
    | define parent =>
      have he : (((step isObj (after isObj es) (.define parent))[d]?).bind Cls.result) = ((after isObj es)[d]?).bind Cls.result := by
        simp only [step]
        by_cases hd : d < (after isObj es).length
        · rw [List.getElem?_append_left hd]
        · rw [List.getElem?_append_right (by omega), List.getElem?_eq_none (l := after isObj es) (by omega)]
          cases d - (after isObj es).length <;> rfl
      rw [he]
      exact resultOf_snoc ih fun g e => by cases e
    | register d' target f =>
      have he : (((step isObj (after isObj es) (.register d' target f))[d]?).bind Cls.result) = ((after isObj es)[d]?).bind Cls.result := by
        simp only [step, List.getElem?_modify]
        cases (after isObj es)[d]? with
        | none => rfl
        | some c => by_cases e : d' = d <;> simp [e]
      rw [he]
      exact resultOf_snoc ih fun g e => by cases e
    | result d' g =>
      by_cases e : d' = d
      · subst e
        have hlt : d' < count es := hs
        have : ((step isObj (after isObj es) (.result d' g))[d']?).bind Cls.result = some g := by
          simp only [step, List.getElem?_modify]
          rw [List.getElem?_eq_getElem (by omega)]
          simp
        rw [this]
        exact .last fun _ h => by cases h
      · have he : (((step isObj (after isObj es) (.result d' g))[d]?).bind Cls.result) = ((after isObj es)[d]?).bind Cls.result := by
          simp only [step, List.getElem?_modify]
          cases (after isObj es)[d]? with
          | none => rfl
          | some c => simp [e]
        rw [he]
        exact resultOf_snoc ih fun g' h => by cases h; exact e rfl

/-! ## the scan -/

theorem forEach_append {α : Type} (b : α → σ → σ × Except Exc Unit) : ∀ (l l' : List α) (s : σ),
    forEach b (l ++ l') s = match forEach b l s with
      | (s, .ok ()) => forEach b l' s
      | (s, .error e) => (s, .error e)
  | [], l', s => rfl
  | x :: l, l', s => by
    simp only [List.cons_append, forEach]
    rcases b x s with ⟨s1, _ | _⟩
    · rfl
    · exact forEach_append b l l' s1

theorem forEach_flatMap {α β : Type} (b : β → σ → σ × Except Exc Unit) (f : α → List β) : ∀ (l : List α) (s : σ),
    forEach b (l.flatMap f) s = forEach (fun x => forEach b (f x)) l s
  | [], s => rfl
  | x :: l, s => by
    rw [List.flatMap_cons, forEach_append, forEach]
    rcases forEach b (f x) s with ⟨s1, _ | _⟩
    · rfl
    · exact forEach_flatMap b f l s1

theorem forEach_map {α β : Type} (b : β → σ → σ × Except Exc Unit) (f : α → β) : ∀ (l : List α) (s : σ),
    forEach b (l.map f) s = forEach (fun x => b (f x)) l s
  | [], s => rfl
  | x :: l, s => by
    rw [List.map_cons, forEach, forEach]
    rcases b (f x) s with ⟨s1, _ | _⟩
    · rfl
    · exact forEach_map b f l s1

theorem forEach_nothing {α : Type} : ∀ (l : List α) (s : σ), forEach (fun _ s => (s, .ok ())) l s = (s, .ok ())
  | [], s => rfl
  | _ :: l, s => by rw [forEach]; exact forEach_nothing l s

/-- one call that is due -/
def callDue (call : η → Nat → Str → Tree → σ → σ × Except Exc ρ) (accept : κ → Nat → ρ → σ → σ × Except Exc Unit)
    (result : Nat → Option κ) (c : Due η) (s : σ) : σ × Except Exc Unit :=
  match call c.handler c.self c.path c.obj s with
  | (s, .error e) => (s, .error e)
  | (s, .ok ret) =>
    match result c.dispatcher with
    | some g => accept g c.self ret s
    | none => (s, .ok ())

theorem does_iff (call : η → Nat → Str → Tree → σ → σ × Except Exc ρ) (accept : κ → Nat → ρ → σ → σ × Except Exc Unit)
    (result : Nat → Option κ) : ∀ (l : List (Due η)) (s t : σ) (r : Except Exc Unit),
    Does call accept result l s t r ↔ forEach (callDue call accept result) l s = (t, r)
  | [], s, t, r => by
    constructor
    · intro h; cases h; rfl
    · intro h; cases h; exact .done
  | c :: l, s, t, r => by
    have ih := does_iff call accept result l
    rw [forEach]
    constructor
    · intro h
      cases h with
      | raises h => simp [callDue, h]
      | plain h h2 h3 => simp [callDue, h, h2, (ih _ _ _).1 h3]
      | passed h h2 h3 h4 => simp [callDue, h, h2, h3, (ih _ _ _).1 h4]
      | refused h h2 h3 => simp [callDue, h, h2, h3]
    · intro h
      unfold callDue at h
      rcases hc : call c.handler c.self c.path c.obj s with ⟨s1, e | v⟩
      · rw [hc] at h
        cases h
        exact .raises hc
      · rw [hc] at h
        cases hr : result c.dispatcher with
        | none =>
          simp only [hr] at h
          exact .plain hc hr ((ih _ _ _).2 h)
        | some g =>
          simp only [hr] at h
          rcases ha : accept g c.self v s1 with ⟨s2, e | _⟩
          · rw [ha] at h
            cases h
            exact .refused hc hr ha
          · rw [ha] at h
            exact .passed hc hr ha ((ih _ _ _).2 h)

/-- **C97** (scan). A scan makes the calls that are due and no others, in their order, until one raises. -/
theorem C97_scan (call : η → Nat → Str → Tree → σ → σ × Except Exc ρ) (accept : κ → Nat → ρ → σ → σ × Except Exc Unit)
    (isObj : Nat → Bool) {es : List (Event η κ)} (hs : Sound es) {result : Nat → Option κ} (hres : ∀ d, ResultOf es d (result d))
    (mro : Nat → List Nat) (bodies : List Body) (route : List (Nat × Nat)) (root : Tree) (leaves : List Nat) (s t : σ)
    (r : Except Exc Unit) :
    Dispatch.scan call accept mro (after isObj es) bodies route (some root) leaves s = (t, r) ↔
      Does call accept result (due isObj es mro bodies route (traversal root leaves)) s t r := by
  rw [does_iff]
  unfold Dispatch.scan due
  rw [forEach_flatMap]
  simp only
  have key : ∀ (v : Str × Tree) (s : σ),
      forEach (fun m s => forEach (fun k s => handleCls call accept m.1 m.2 v.1 v.2 k s) (((cls? v.2).map mro).getD []) s)
        (buildRoute (after isObj es) bodies route) s =
      forEach (callDue call accept result) (route.flatMap fun r => ((bodies[r.2]?).map Body.attrs).getD [] |>.flatMap fun a =>
        a.toList.flatMap fun d => (((cls? v.2).map mro).getD []).flatMap fun k =>
          (handlersFor isObj es d k).map fun f => ⟨r.1, d, f, v.1, v.2⟩) s := by
    intro v s
    unfold buildRoute
    rw [forEach_flatMap, forEach_flatMap]
    congr 1
    funext r s
    rw [forEach_flatMap]
    cases bodies[r.2]? with
    | none => rfl
    | some b =>
      simp only [Option.map_some, Option.getD_some]
      induction b.attrs generalizing s with
      | nil => rfl
      | cons a l ih =>
        rw [forEach]
        cases a with
        | none =>
          rw [List.filterMap_cons_none rfl]
          exact ih s
        | some d =>
          have hd : ∀ c, (after isObj es)[d]? = some c → ∀ s,
              forEach (fun k s => handleCls call accept r.1 c v.1 v.2 k s) (((cls? v.2).map mro).getD []) s =
              forEach (callDue call accept result) ((some d).toList.flatMap fun d => (((cls? v.2).map mro).getD []).flatMap fun k =>
                (handlersFor isObj es d k).map fun f => (⟨r.1, d, f, v.1, v.2⟩ : Due η)) s := by
            intro c hc s
            have hr : result d = c.result := by
              have := result_unique (hres d) (C97_result isObj hs d)
              rw [hc] at this
              exact this
            simp only [Option.toList_some, List.flatMap_cons, List.flatMap_nil, List.append_nil]
            rw [forEach_flatMap]
            congr 1
            funext k s
            rw [forEach_map, ← C97_handlers isObj hs hc k]
            unfold handleCls
            cases Dict.get? c.route k with
            | none => rfl
            | some fs =>
              simp only [Option.getD_some]
              congr 1
              funext f s
              unfold callDue
              simp only [hr]
              rcases call f r.1 v.1 v.2 s with ⟨s1, _ | _⟩
              · rfl
              · cases c.result <;> rfl
          cases hc : (after isObj es)[d]? with
          | none =>
            rw [List.filterMap_cons_none (by simp [hc])]
            have h0 : ∀ k, handlersFor isObj es d k = [] := fun k => handlers_undefined isObj hs (by
              rw [← length_after isObj]
              exact List.getElem?_eq_none_iff.1 hc) k
            simp only [Option.toList_some, List.flatMap_cons, List.flatMap_nil, List.append_nil, h0, List.map_nil]
            rw [forEach_flatMap]
            rw [show (fun (_ : Nat) => forEach (callDue call accept result) []) = fun _ s => (s, .ok ()) from rfl, forEach_nothing]
            exact ih s
          | some c =>
            rw [List.filterMap_cons_some (b := (r.1, c)) (by simp [hc]), forEach, hd c hc]
            rcases forEach (callDue call accept result) _ s with ⟨s1, _ | _⟩
            · rfl
            · exact ih s1
  simp only [key]

/-- without a root -/
theorem C97_no_root (call : η → Nat → Str → Tree → σ → σ × Except Exc ρ) (accept : κ → Nat → ρ → σ → σ × Except Exc Unit)
    (mro : Nat → List Nat) (st : List (Cls η κ)) (bodies : List Body) (route : List (Nat × Nat)) (leaves : List Nat) (s : σ) :
    Dispatch.scan call accept mro st bodies route none leaves s = (s, .error .ValueError) := rfl

/-! ## Cases -/

/-- two dispatchers, the second derived from the first; class 5 is derived from 4, class 9 is no class of objects -/
def history : List (Event Str Str) :=
  [.define 0, .register 1 [5] c!"f", .define 1, .register 2 [4, 5] c!"g", .register 1 [4, 9, 5] c!"h", .result 1 c!"r", .register 1 [5] c!"k"]

theorem history_sound : Sound history := by
  intro l e r h
  unfold history at h
  rcases l with _ | ⟨a, _ | ⟨b, _ | ⟨c, _ | ⟨d, _ | ⟨x, _ | ⟨y, _ | ⟨z, _ | ⟨w, l⟩⟩⟩⟩⟩⟩⟩⟩ <;>
    simp only [List.nil_append, List.cons_append, List.cons.injEq, reduceCtorEq, and_false, List.nil_eq, List.append_eq_nil_iff] at h
  · obtain ⟨rfl, -⟩ := h; trivial
  · obtain ⟨rfl, rfl, -⟩ := h; decide
  · obtain ⟨rfl, rfl, rfl, -⟩ := h; trivial
  · obtain ⟨rfl, rfl, rfl, rfl, -⟩ := h; decide
  · obtain ⟨rfl, rfl, rfl, rfl, rfl, -⟩ := h; decide
  · obtain ⟨rfl, rfl, rfl, rfl, rfl, rfl, -⟩ := h; decide
  · obtain ⟨rfl, rfl, rfl, rfl, rfl, rfl, rfl, -⟩ := h; decide

/-- the first has no handler of the second, nor the second one of the first; 9 stopped a registration -/
example : handlersFor (· != 9) history 1 5 = [c!"f", c!"k"] ∧ handlersFor (· != 9) history 1 4 = [c!"h"] ∧
    handlersFor (· != 9) history 2 5 = [c!"g"] ∧ handlersFor (· != 9) history 0 5 = [] := by decide

/-- handlers write down what is called, and return their name; result functions write down what they get -/
def note (f : Str) (_ : Nat) (_ : Str) (_ : Tree) (s : List Str) : List Str × Except Exc Str := (s ++ [f], .ok f)
def taken (g : Str) (_ : Nat) (v : Str) (s : List Str) : List Str × Except Exc Unit := (s ++ [g ++ v], .ok ())

/-- scanner classes: one with a dispatcher among its attributes, one derived from it -/
def bodies : List Body := [⟨none, [none, some 1]⟩, ⟨some 0, [none]⟩, ⟨some 0, [some 2, some 1]⟩]

example : Dispatch.scan note taken (fun c => if c = 5 then [5, 4] else [c]) (after (· != 9) history) bodies [(0, 0)] (some (.obj 5 [])) [] [] =
    ([c!"f", c!"rf", c!"k", c!"rk", c!"h", c!"rh"], .ok ()) := by decide +kernel

example : Dispatch.scan note taken (fun c => if c = 5 then [5, 4] else [c]) (after (· != 9) history) bodies [(0, 2)] (some (.obj 5 [])) [] [] =
    ([c!"g", c!"g", c!"f", c!"rf", c!"k", c!"rk", c!"h", c!"rh"], .ok ()) := by decide +kernel

/-- A scanner class that is derived from another one and adds no dispatcher handles nothing: dispatchers of parents are not looked
at. -/
theorem C97_inherited_false (call : η → Nat → Str → Tree → σ → σ × Except Exc ρ) (accept : κ → Nat → ρ → σ → σ × Except Exc Unit)
    (mro : Nat → List Nat) (st : List (Cls η κ)) (bodies : List Body) {self i : Nat} {b : Body} (hb : bodies[i]? = some b)
    (hno : ∀ d, some d ∉ b.attrs) (root : Tree) (leaves : List Nat) (s : σ) :
    Dispatch.scan call accept mro st bodies [(self, i)] (some root) leaves s = (s, .ok ()) := by
  have h0 : buildRoute st bodies [(self, i)] = [] := by
    unfold buildRoute
    simp only [List.flatMap_cons, List.flatMap_nil, hb, List.append_nil]
    rw [List.filterMap_eq_nil_iff]
    intro a ha
    cases a with
    | none => rfl
    | some d => exact absurd ha (hno d)
  unfold Dispatch.scan
  simp only [h0]
  exact forEach_nothing _ _

example : Dispatch.scan note taken (fun c => [c]) (after (· != 9) history) bodies [(0, 1)] (some (.obj 5 [])) [] [] = ([], .ok ()) :=
  C97_inherited_false _ _ _ _ _ (b := ⟨some 0, [none]⟩) rfl (fun d h => by cases h with | tail _ h => cases h) _ _ _

end Props.C97
