import Verif.Spec.Listing12
import Verif.Model.Upgraded
import Verif.Proofs.Effective
import Verif.Proofs.Shape12
/-! # Lemmas for C87: from 1.2 documents to records -/

namespace Proofs.Listing12
open Py Tree _root_.Doc Upgrade _root_.Upgraded Spec.Listing12 Spec.Swagger12 Spec.Service
open _root_.Effective (attr toVal toVals text?)
open Props.C85 (Reads number C85_reads C85_operations C85_listing)

/-! ## objects -/

theorem attr_of {fs : List (Str × Tree)} {n : Str} {y : Tree} (h : Dict.get? fs n = some y) : attr fs n = y := by
  unfold attr; rw [h]; rfl

/-- an object as read: what its fields are -/
structure Read (o : Ob) (j : Tree) (q : Dict Str Tree) (fs : List (Str × Tree)) : Prop where
  stands : Stands j q
  value : ∀ n a, (n, .value a) ∈ fields o → attr fs n = (Dict.get? q n).getD a
  filled : ∀ n o', (n, .filled o') ∈ fields o → ReadAs Reads (.filled o') (Dict.get? q n) (attr fs n)
  field : ∀ n h, (n, h) ∈ fields o → j ≠ null → ReadAs Reads h (Dict.get? q n) (attr fs n)
  nothing : ∀ n h, (n, h) ∈ fields o → (∀ a, h ≠ .value a) → j = null → attr fs n = null

theorem null_fields (o : Ob) (ho : o ≠ .declaration) : ∀ e ∈ fields o, ∃ y, Dict.get? (Doc12.v12 (number o)).fields e.1 = some y ∧
    match e.2 with
    | .value a => y = a
    | _ => y = null := by
  have key : ∀ o, o ≠ .declaration → ((fields o).all fun e => match e.2 with
      | .value a => Dict.get? (Doc12.v12 (number o)).fields e.1 = some a
      | _ => Dict.get? (Doc12.v12 (number o)).fields e.1 = some null) = true := by
    intro o
    cases o <;> intro _ <;> decide +kernel
  intro e he
  have := List.all_eq_true.1 (key o ho) e he
  obtain ⟨n, h⟩ := e
  cases h <;> exact ⟨_, of_decide_eq_true this, rfl⟩

theorem read {o : Ob} {j x : Tree} (ho : o ≠ .declaration) (h : Reads o j x) : ∃ q fs, x = .obj (number o) fs ∧ Read o j q fs := by
  rcases Proofs.Shape12.reads_shape h with rfl | ⟨q, rfl⟩
  · have hx := Props.C85.C85_null o ho
    unfold Reads at h hx
    rw [hx] at h
    cases h
    refine ⟨[], _, rfl, .inr ⟨rfl, rfl⟩, fun n a hm => ?_, fun n o' hm => ?_, fun n h hm hn => absurd rfl hn, fun n h hm hv _ => ?_⟩
    · obtain ⟨y, h1, h2⟩ := null_fields o ho _ hm
      rw [attr_of h1]
      exact h2
    · obtain ⟨y, h1, h2⟩ := null_fields o ho _ hm
      rw [attr_of h1]
      simp only at h2
      rw [h2]
      exact .unfilled
    · obtain ⟨y, h1, h2⟩ := null_fields o ho _ hm
      rw [attr_of h1]
      cases h with
      | value a => exact absurd rfl (hv a)
      | _ => exact h2
  · obtain ⟨fs, rfl, -, -, hr, -⟩ := C85_reads o q x h
    have hr' : ∀ n h, (n, h) ∈ fields o → ReadAs Reads h (Dict.get? q n) (attr fs n) := by
      intro n h hm
      obtain ⟨y, h1, h2⟩ := hr n h hm (fun e => ho e.1) (fun e => ho e.1)
      rw [attr_of h1]; exact h2
    refine ⟨q, fs, rfl, .inl rfl, fun n a hm => ?_, fun n o' hm => hr' n _ hm, fun n h hm _ => hr' n h hm,
      fun n h hm _ e => by cases e⟩
    have := hr' n _ hm
    generalize Dict.get? q n = g at this
    generalize attr fs n = y at this
    cases this <;> rfl

/-! ## values -/

section
variable {q : Dict Str Tree} {fs : List (Str × Tree)} {n : Str}

theorem maybe_in (h : attr fs n = (Dict.get? q n).getD null) {s : Option Str} (hs : maybe (attr fs n) = some s) : Maybe q n s := by
  rw [h] at hs
  cases hg : Dict.get? q n with
  | none => rw [hg] at hs; cases hs; exact .inl hg
  | some t =>
    rw [hg, Option.getD_some] at hs
    cases t with
    | atom a =>
      cases a with
      | none => cases hs; exact .inr hg
      | str x => cases hs; exact hg
      | _ => cases hs
    | _ => cases hs

theorem value_in (h : attr fs n = (Dict.get? q n).getD null) : Value q n (toVal (attr fs n)) := by
  rw [h]; exact Proofs.Effective.value_toVal _

theorem allTexts_eq : ∀ {l : List Tree} {m : List Str}, allTexts l = some m → l = m.map text
  | [], m, h => by cases h; rfl
  | t :: l, m, h => by
    cases t with
    | atom a =>
      cases a with
      | str s =>
        rw [allTexts] at h
        obtain ⟨m', h1, rfl⟩ := Option.map_eq_some_iff.1 h
        rw [allTexts_eq h1]; rfl
      | _ => cases h
    | _ => cases h

theorem texts_in (h : attr fs n = (Dict.get? q n).getD null) {l : List Str} (hs : textsOf (attr fs n) = some l) : TextsIn q n l := by
  rw [h] at hs
  cases hg : Dict.get? q n with
  | none => rw [hg] at hs; cases hs; exact .inr ⟨.inl hg, rfl⟩
  | some t =>
    rw [hg, Option.getD_some] at hs
    cases t with
    | atom a => cases a with
      | none => cases hs; exact .inr ⟨.inr hg, rfl⟩
      | _ => cases hs
    | list l' => left; rw [hg, allTexts_eq hs]
    | _ => cases hs
end

theorem each_iff {α β : Type} {f : α → Option β} : ∀ {l : List α} {m : List β}, each f l = some m →
    List.Forall₂ (fun a b => f a = some b) l m
  | [], m, h => by cases h; exact .nil
  | a :: l, m, h => by
    rw [each] at h
    cases h1 : f a with
    | none => rw [h1] at h; cases h
    | some b =>
      cases h2 : each f l with
      | none => rw [h1, h2] at h; cases h
      | some bs => rw [h1, h2] at h; cases h; exact .cons h1 (each_iff h2)

theorem eachOf_iff {β : Type} {f : Tree → Option β} {d : List (Str × Tree)} {e : List (Str × β)} (h : eachOf f d = some e) :
    List.Forall₂ (fun a b => b.1 = a.1 ∧ f a.2 = some b.2) d e := by
  refine (each_iff h).imp ?_
  intro a b hab
  obtain ⟨x, h1, rfl⟩ := Option.map_eq_some_iff.1 hab
  exact ⟨rfl, h1⟩

/-! ## data types -/

/-- the data type fields of an object -/
structure Typed (q : Dict Str Tree) (fs : List (Str × Tree)) : Prop where
  value : ∀ n ∈ [c!"type", c!"$ref", c!"format", c!"defaultValue", c!"enum", c!"minimum", c!"maximum", c!"uniqueItems"],
    attr fs n = (Dict.get? q n).getD null
  items : ReadAs Reads (.filled .items) (Dict.get? q c!"items") (attr fs c!"items")

theorem typed {o : Ob} (ho : o = .parameter ∨ o = .operation ∨ o = .property) {j : Tree} {q : Dict Str Tree} {fs : List (Str × Tree)}
    (h : Read o j q fs) : Typed q fs := by
  have hf : ∀ n ∈ [c!"type", c!"$ref", c!"format", c!"defaultValue", c!"enum", c!"minimum", c!"maximum", c!"uniqueItems"],
      ∃ e ∈ fields o, e.1 = n ∧ e.2 = .value null := by
    have : ∀ o, (o = .parameter ∨ o = .operation ∨ o = .property) → ([c!"type", c!"$ref", c!"format", c!"defaultValue", c!"enum",
      c!"minimum", c!"maximum", c!"uniqueItems"].all fun n => (fields o).any fun e => e.1 = n && (match e.2 with
        | .value a => a = null | _ => false)) = true := by
      rintro o (rfl | rfl | rfl) <;> decide +kernel
    intro n hn
    have := List.all_eq_true.1 (this o ho) n hn
    obtain ⟨e, he, h2⟩ := List.any_eq_true.1 this
    simp only [Bool.and_eq_true, decide_eq_true_eq] at h2
    refine ⟨e, he, h2.1, ?_⟩
    obtain ⟨m, hh⟩ := e
    cases hh <;> simp at h2
    rw [h2.2]
  refine ⟨fun n hn => ?_, h.filled _ _ ?_⟩
  · obtain ⟨⟨m, hh⟩, he, rfl, h2⟩ := hf n hn
    simp only at h2
    subst h2
    exact h.value _ _ he
  · rcases ho with rfl | rfl | rfl <;> simp [fields, Spec.Swagger12.dataType]

theorem items_in {d : Dict Str Tree} {c : Nat} {gs : List (Str × Tree)} (h : Reads .items (.dict d) (.obj c gs)) {i : Items}
    (hi : items12 gs = some i) : ItemsIn d i := by
  obtain ⟨q, fs, e, hr⟩ := read (by decide) h
  cases e
  have hq : q = d := by
    rcases hr.stands with e | ⟨e, -⟩ <;> cases e
    rfl
  subst hq
  simp only [items12, Option.bind_eq_bind, Option.bind_eq_some_iff] at hi
  obtain ⟨r, h1, t, h2, f, h3, e⟩ := hi
  cases e
  exact ⟨maybe_in (hr.value _ _ (Dict.mem_of_get? rfl)) h1, maybe_in (hr.value _ _ (Dict.mem_of_get? rfl)) h2,
    maybe_in (hr.value _ _ (Dict.mem_of_get? rfl)) h3⟩

theorem isNull_iff (t : Tree) : isNull t = true ↔ t = null := by
  cases t with
  | atom a => cases a <;> simp [isNull, null]
  | _ => simp [isNull, null]

theorem blank_not_obj {c : Nat} {gs : List (Str × Tree)} (h : Blank (.obj c gs)) : False := by cases h

theorem type_in {q : Dict Str Tree} {fs : List (Str × Tree)} (h : Typed q fs) {d : DataType} (hd : dataType12 fs = some d) : TypeIn q d := by
  simp only [dataType12, Option.bind_eq_bind, Option.bind_eq_some_iff] at hd
  obtain ⟨t, h1, r, h2, f, h3, its, h4, e⟩ := hd
  cases e
  refine ⟨maybe_in (h.value _ (by simp)) h1, maybe_in (h.value _ (by simp)) h2, maybe_in (h.value _ (by simp)) h3, ?_,
    value_in (h.value _ (by simp)), ?_, value_in (h.value _ (by simp)), value_in (h.value _ (by simp)), value_in (h.value _ (by simp))⟩
  · dsimp only
    have hv := h.value c!"defaultValue" (by simp)
    by_cases hn : isNull (attr fs c!"defaultValue") = true
    · rw [if_pos hn]
      rw [isNull_iff, hv] at hn
      refine .none ?_
      unfold Missing
      cases hg : Dict.get? q c!"defaultValue" with
      | none => exact .inl rfl
      | some x => rw [hg] at hn; exact .inr (congrArg some hn)
    · rw [if_neg hn]
      rw [isNull_iff, hv] at hn
      rw [hv]
      cases hg : Dict.get? q c!"defaultValue" with
      | none => rw [hg] at hn; exact absurd rfl hn
      | some x =>
        rw [hg] at hn
        exact .some hg hn (Proofs.Effective.value_toVal _)
  · dsimp only
    have hi := h.items
    generalize attr fs c!"items" = y at hi h4
    generalize hg : Dict.get? q c!"items" = g at hi
    cases hi with
    | unfilled =>
      cases h4
      exact .none (.inl hg)
    | blank hb =>
      by_cases hv : y = null
      · subst hv
        cases h4
        exact .none (.inr hg)
      · have hits : its = none := by
          cases y with
          | obj c gs => exact absurd hb blank_not_obj
          | _ => cases h4; rfl
        subst hits
        have : isNull y = false := by
          cases hb' : isNull y with
          | false => rfl
          | true => exact absurd ((isNull_iff y).1 hb') hv
        rw [this]
        exact .blank hg hv hb
    | filled hne hr =>
      obtain ⟨fs', rfl⟩ : ∃ fs', y = .obj (number .items) fs' := by
        obtain ⟨_, fs', e, -⟩ := read (by decide) hr
        exact ⟨fs', e⟩
      obtain ⟨i, h5, rfl⟩ := Option.map_eq_some_iff.1 h4
      exact .some hg hne (items_in hr h5)

/-! ## objects by objects -/

theorem Read.get {o : Ob} {j : Tree} {q : Dict Str Tree} {fs : List (Str × Tree)} (h : Read o j q fs) {n : Str} {k : Holds}
    (hm : (n, k) ∈ fields o) (hv : ∀ a, k ≠ .value a) (hne : attr fs n ≠ null) : ReadAs Reads k (Dict.get? q n) (attr fs n) :=
  h.field n k hm fun e => hne (h.nothing n k hm hv e)

theorem list_of {β : Type} {f : Tree → Option β} {t : Tree} {l : List β} (h : listOf f t = some l) :
    ∃ xs, t = .list xs ∧ List.Forall₂ (fun a b => f a = some b) xs l := by
  cases t with
  | list xs => exact ⟨xs, rfl, each_iff h⟩
  | _ => cases h

theorem dict_of {β : Type} {f : Tree → Option β} {t : Tree} {l : List (Str × β)} (h : dictOf f t = some l) :
    ∃ xs, t = .dict xs ∧ List.Forall₂ (fun a b => b.1 = a.1 ∧ f a.2 = some b.2) xs l := by
  cases t with
  | dict xs => exact ⟨xs, rfl, eachOf_iff h⟩
  | _ => cases h

/-- how an object is read as a record -/
def Saying {α : Type} (o : Ob) (f : Tree → Option α) (R : Dict Str Tree → α → Prop) : Prop :=
  ∀ j x a, Reads o j x → f x = some a → ∃ q, Stands j q ∧ R q a

theorem forall₂_comp {α β γ : Type} {R : α → β → Prop} {S : β → γ → Prop} {T : α → γ → Prop} (hT : ∀ a b c, R a b → S b c → T a c) :
    ∀ {l : List α} {m : List β} {n : List γ}, List.Forall₂ R l m → List.Forall₂ S m n → List.Forall₂ T l n
  | _, _, _, .nil, .nil => .nil
  | _, _, _, .cons h t, .cons h' t' => .cons (hT _ _ _ h h') (forall₂_comp hT t t')

section
variable {α : Type} {o : Ob} {f : Tree → Option α} {R : Dict Str Tree → α → Prop}

theorem many_list (hf : Saying o f R) {v y : Tree} {l : List α} (h : ReadList (Reads o) v y) (hl : listOf f y = some l) :
    Many R (some v) l := by
  cases h with
  | text => cases hl; exact .inr ⟨.inr (.inr (.inl rfl)), rfl⟩
  | dict => cases hl; exact .inr ⟨.inr (.inr (.inr rfl)), rfl⟩
  | list h => exact .inl ⟨_, rfl, forall₂_comp (fun a b c h1 h2 => hf a b c h1 h2) h (each_iff hl)⟩

theorem many_in (hf : Saying o f R) {g : Option Tree} {y : Tree} {l : List α} (h : ReadAs Reads (.many o) g y)
    (hl : listOf f y = some l) : Many R g l := by
  cases h with
  | noList => cases hl; exact .inr ⟨.inl rfl, rfl⟩
  | nullList => cases hl; exact .inr ⟨.inr (.inl rfl), rfl⟩
  | list h => exact many_list hf h hl

theorem names_in (hf : Saying o f R) {g : Option Tree} {y : Tree} {l : List (Str × α)} (h : ReadAs Reads (.byName o) g y)
    (hl : dictOf f y = some l) : ByName R g l := by
  cases h with
  | noNames => cases hl; exact .inr ⟨.inl rfl, rfl⟩
  | nullNames => cases hl; exact .inr ⟨.inr rfl, rfl⟩
  | names h => exact .inl ⟨_, rfl, forall₂_comp (fun a b c h1 h2 => ⟨h2.1.trans h1.1, hf _ _ _ h1.2 h2.2⟩) h (eachOf_iff hl)⟩
end

theorem text_in {q : Dict Str Tree} {fs : List (Str × Tree)} {n s : Str} (h : attr fs n = (Dict.get? q n).getD null)
    (hs : text? (attr fs n) = some s) : Dict.get? q n = some (text s) := by
  rw [h] at hs
  cases hg : Dict.get? q n with
  | none => rw [hg] at hs; cases hs
  | some t =>
    rw [hg, Option.getD_some] at hs
    cases t with
    | atom a => cases a <;> cases hs; rfl
    | _ => cases hs

theorem list_ne {β : Type} {f : Tree → Option β} {t : Tree} {l : List β} (h : listOf f t = some l) : t ≠ null := by
  rintro rfl; cases h

theorem dict_ne {β : Type} {f : Tree → Option β} {t : Tree} {l : List (Str × β)} (h : dictOf f t = some l) : t ≠ null := by
  rintro rfl; cases h

/-! ## the records -/

theorem param_in : Saying .parameter param12 ParamIn := by
  intro j x p h hp
  obtain ⟨q, fs, rfl, hr⟩ := read (by decide) h
  simp only [param12, Option.bind_eq_bind, Option.bind_eq_some_iff] at hp
  obtain ⟨d, h1, n, h2, t, h3, e⟩ := hp
  cases e
  exact ⟨q, hr.stands, type_in (typed (.inl rfl) hr) h1, maybe_in (hr.value _ _ (Dict.mem_of_get? rfl)) h2,
    value_in (hr.value _ _ (Dict.mem_of_get? rfl)), value_in (hr.value _ _ (Dict.mem_of_get? rfl)),
    maybe_in (hr.value _ _ (Dict.mem_of_get? rfl)) h3, value_in (hr.value _ _ (Dict.mem_of_get? rfl))⟩

theorem scope_of : Saying .scopeOf scopeOf12 (fun q v => Value q c!"scope" v) := by
  intro j x v h hv
  obtain ⟨q, fs, rfl, hr⟩ := read (by decide) h
  cases hv
  exact ⟨q, hr.stands, value_in (hr.value _ _ (Dict.mem_of_get? rfl))⟩

theorem scopes_in {g : Option Tree} {y : Tree} {d : List (Str × List Val)} (h : ReadAs Reads (.manyByName .scopeOf) g y)
    (hd : dictOf scopes12 y = some d) : ScopesByName g d := by
  cases h with
  | noLists => cases hd; exact .inr ⟨.inl rfl, rfl⟩
  | nullLists => cases hd; exact .inr ⟨.inr rfl, rfl⟩
  | lists h =>
    refine .inl ⟨_, rfl, forall₂_comp (fun a b c h1 h2 => ⟨h2.1.trans h1.1, ?_, many_list scope_of h1.2 h2.2⟩) h (eachOf_iff hd)⟩
    intro e
    have := h1.2
    rw [e] at this
    cases this

theorem attr_more {fs : List (Str × Tree)} {p : Tree} {n : Str} (hn : n ≠ c!"path") : attr (fs ++ [(c!"path", p)]) n = attr fs n := by
  unfold attr
  rw [Dict.get?_append]
  cases h : Dict.get? fs n with
  | some v => rfl
  | none =>
    have : Dict.get? [(c!"path", p)] n = none := (Dict.get?_eq_none_iff _ _).2 (by simpa [Dict.keys] using hn)
    rw [this]; rfl

theorem op_in {j : Tree} {c : Nat} {fs : List (Str × Tree)} {p : Tree} {a : Option Str × Operation} (h : Reads .operation j (.obj c fs))
    (hp : operation12 (.obj c (fs ++ [(c!"path", p)])) = some a) :
    ∃ q, Stands j q ∧ OpIn q a.2 ∧ maybe p = some a.1 ∧ text? (attr fs c!"nickname") = some a.2.nickname := by
  obtain ⟨q, fs', e, hr⟩ := read (by decide) h
  cases e
  have hpath : attr (fs ++ [(c!"path", p)]) c!"path" = p := by
    unfold attr
    have : Dict.get? fs c!"path" = none := by
      rw [Dict.get?_eq_none_iff]
      rcases Proofs.Shape12.reads_shape h with rfl | ⟨d, rfl⟩
      · have hx := Props.C85.C85_null .operation (by decide)
        unfold Reads at h hx
        rw [hx] at h
        cases h
        decide +kernel
      · obtain ⟨_, e, -, hk, -⟩ := C85_reads _ _ _ h
        cases e
        rw [hk]
        rintro (h | ⟨h, -⟩)
        · exact absurd h (by decide +kernel)
        · cases h
    rw [Dict.get?_append, this]; rfl
  have hd : dataType12 (fs ++ [(c!"path", p)]) = dataType12 fs := by
    unfold dataType12
    simp only [attr_more (p := p) (fs := fs) (show c!"type" ≠ c!"path" by decide), attr_more (p := p) (fs := fs) (show c!"$ref" ≠ c!"path" by decide),
      attr_more (p := p) (fs := fs) (show c!"format" ≠ c!"path" by decide), attr_more (p := p) (fs := fs) (show c!"items" ≠ c!"path" by decide),
      attr_more (p := p) (fs := fs) (show c!"defaultValue" ≠ c!"path" by decide), attr_more (p := p) (fs := fs) (show c!"enum" ≠ c!"path" by decide),
      attr_more (p := p) (fs := fs) (show c!"minimum" ≠ c!"path" by decide), attr_more (p := p) (fs := fs) (show c!"maximum" ≠ c!"path" by decide),
      attr_more (p := p) (fs := fs) (show c!"uniqueItems" ≠ c!"path" by decide)]
  simp only [operation12, Option.bind_eq_bind, Option.bind_eq_some_iff, hd, hpath] at hp
  rw [attr_more (by decide), attr_more (by decide), attr_more (by decide), attr_more (by decide), attr_more (by decide),
    attr_more (by decide), attr_more (by decide), attr_more (by decide), attr_more (by decide)] at hp
  obtain ⟨d, h1, pa, h2, m, h3, n, h4, co, h5, pr, h6, au, h7, ps, h8, e⟩ := hp
  cases e
  exact ⟨q, hr.stands, ⟨type_in (typed (.inr (.inl rfl)) hr) h1, maybe_in (hr.value _ _ (Dict.mem_of_get? rfl)) h3,
    text_in (hr.value _ _ (Dict.mem_of_get? rfl)) h4,
    value_in (hr.value _ _ (Dict.mem_of_get? rfl)), value_in (hr.value _ _ (Dict.mem_of_get? rfl)), value_in (hr.value _ _ (Dict.mem_of_get? rfl)),
    texts_in (hr.value _ _ (Dict.mem_of_get? rfl)) h5, texts_in (hr.value _ _ (Dict.mem_of_get? rfl)) h6,
    scopes_in (hr.get (k := .manyByName .scopeOf) (Dict.mem_of_get? rfl) (by simp) (dict_ne h7)) h7,
    many_in param_in (hr.get (k := .many .parameter) (Dict.mem_of_get? rfl) (by simp) (list_ne h8)) h8⟩, h2, h4⟩

theorem property_in : Saying .property property12 PropertyIn := by
  intro j x p h hp
  obtain ⟨q, fs, rfl, hr⟩ := read (by decide) h
  simp only [property12, Option.bind_eq_bind, Option.bind_eq_some_iff] at hp
  obtain ⟨d, h1, e⟩ := hp
  cases e
  exact ⟨q, hr.stands, type_in (typed (.inr (.inr rfl)) hr) h1, value_in (hr.value _ _ (Dict.mem_of_get? rfl))⟩

theorem model_in : Saying .model model12 ModelIn := by
  intro j x p h hp
  obtain ⟨q, fs, rfl, hr⟩ := read (by decide) h
  simp only [model12, Option.bind_eq_bind, Option.bind_eq_some_iff] at hp
  obtain ⟨i, h1, ps, h2, st, h3, e⟩ := hp
  cases e
  refine ⟨q, hr.stands, maybe_in (hr.value _ _ (Dict.mem_of_get? rfl)) h1, ?_,
    names_in property_in (hr.get (k := .byName .property) (Dict.mem_of_get? rfl) (by simp) (dict_ne h2)) h2,
    texts_in (hr.value _ _ (Dict.mem_of_get? rfl)) h3, value_in (hr.value _ _ (Dict.mem_of_get? rfl)),
    value_in (hr.value _ _ (Dict.mem_of_get? rfl))⟩
  dsimp only
  rw [hr.value c!"required" (.list []) (Dict.mem_of_get? rfl)]
  exact Proofs.Effective.value_toVal _

theorem scope_in : Saying .scope scope12 ScopeIn := by
  intro j x p h hp
  obtain ⟨q, fs, rfl, hr⟩ := read (by decide) h
  obtain ⟨s, h1, rfl⟩ := Option.map_eq_some_iff.1 hp
  exact ⟨q, hr.stands, text_in (hr.value _ _ (Dict.mem_of_get? rfl)) h1, value_in (hr.value _ _ (Dict.mem_of_get? rfl))⟩

/-- from object to object as from dict to dict -/
def Deep (o : Ob) (ns : List Str) : Prop := ∀ j x, Reads o j x → inner ns x = deep ns j

theorem deep_value {o : Ob} {n : Str} (ho : o ≠ .declaration) (h : (n, .value null) ∈ fields o) : Deep o [n] := by
  intro j x hx
  obtain ⟨q, fs, rfl, hr⟩ := read ho hx
  have := hr.value _ _ h
  rcases hr.stands with rfl | ⟨rfl, rfl⟩
  · exact this
  · exact this

theorem deep_one {o o' : Ob} {n m : Str} {ns : List Str} (ho : o ≠ .declaration) (h : (n, .one o') ∈ fields o) (hd : Deep o' (m :: ns)) :
    Deep o (n :: m :: ns) := by
  intro j x hx
  obtain ⟨q, fs, rfl, hr⟩ := read ho hx
  rcases hr.stands with rfl | ⟨rfl, rfl⟩
  · have hf := hr.field _ _ h (by simp [null])
    show inner (m :: ns) (attr fs n) = deep (m :: ns) (under q n)
    unfold under
    generalize attr fs n = y at hf
    generalize Dict.get? q n = g at hf
    cases hf with
    | noObject => rfl
    | nullObject => rfl
    | object h => exact hd _ _ h
  · show inner (m :: ns) (attr fs n) = null
    rw [hr.nothing _ _ h (by simp) rfl]; rfl

theorem auth_in : Saying .authorization auth12 AuthIn := by
  intro j x p h hp
  have d1 : Deep .authorization [c!"grantTypes", c!"implicit", c!"loginEndpoint", c!"url"] :=
    deep_one (o' := .grantTypes) (by decide) (Dict.mem_of_get? rfl) (deep_one (o' := .implicit) (by decide) (Dict.mem_of_get? rfl)
      (deep_one (o' := .loginEndpoint) (by decide) (Dict.mem_of_get? rfl) (deep_value (by decide) (Dict.mem_of_get? rfl))))
  have d2 : Deep .authorization [c!"grantTypes", c!"authorization_code", c!"tokenEndpoint", c!"url"] :=
    deep_one (o' := .grantTypes) (by decide) (Dict.mem_of_get? rfl) (deep_one (o' := .authorizationCode) (by decide) (Dict.mem_of_get? rfl)
      (deep_one (o' := .tokenEndpoint) (by decide) (Dict.mem_of_get? rfl) (deep_value (by decide) (Dict.mem_of_get? rfl))))
  have e1 := d1 _ _ h
  have e2 := d2 _ _ h
  obtain ⟨q, fs, rfl, hr⟩ := read (by decide) h
  simp only [auth12, Option.bind_eq_bind, Option.bind_eq_some_iff] at hp
  obtain ⟨t, h1, ss, h2, e⟩ := hp
  cases e
  have hj : j = .dict q := by
    rcases hr.stands with h | ⟨rfl, -⟩
    · exact h
    · exact absurd (hr.nothing c!"scopes" (.many .scope) (Dict.mem_of_get? rfl) (by simp) rfl) (list_ne h2)
  subst hj
  refine ⟨q, .inl rfl, maybe_in (hr.value _ _ (Dict.mem_of_get? rfl)) h1, value_in (hr.value _ _ (Dict.mem_of_get? rfl)),
    value_in (hr.value _ _ (Dict.mem_of_get? rfl)),
    many_in scope_in (hr.get (k := .many .scope) (Dict.mem_of_get? rfl) (by simp) (list_ne h2)) h2, ?_, ?_⟩
  · rw [← e1]; exact Proofs.Effective.value_toVal _
  · rw [← e2]; exact Proofs.Effective.value_toVal _

theorem has_eq {c : Nat} {fs : List (Str × Tree)} {n : Str} {v : Tree} (h : Has (.obj c fs) n v) : attr fs n = v := by
  obtain ⟨_, _, e, h⟩ := h
  cases e
  exact attr_of h

theorem api_in {j x : Tree} {es : List (Str × Tree)} {rs : List (Str × (Option Str × Operation))} (h : Reads .api j x) (he : Entries x es)
    (hrs : List.Forall₂ (fun a b => b.1 = a.1 ∧ operation12 a.2 = some b.2) es rs) : ∃ q, Stands j q ∧ ApiIn q rs := by
  obtain ⟨q, fs, rfl, hr⟩ := read (by decide) h
  obtain ⟨path, l, h1, h2, h3⟩ := he
  have h1 := has_eq h1
  have h2 := has_eq h2
  have hops := hr.get (k := .many .operation) (n := c!"operations") (Dict.mem_of_get? rfl) (by simp) (by rw [h2]; simp [null])
  rw [h2] at hops
  have hpath : ∀ p, maybe path = some p → Maybe q c!"path" p := by
    intro p hp
    rw [← h1] at hp
    exact maybe_in (hr.value _ _ (Dict.mem_of_get? rfl)) hp
  refine ⟨q, hr.stands, ?_⟩
  have key : ∀ {ts : List Tree} {l : List Tree} {es : List (Str × Tree)} {rs : List (Str × (Option Str × Operation))},
      List.Forall₂ (Reads .operation) ts l →
      List.Forall₂ (fun o e => ∃ c fs, o = .obj c fs ∧ Dict.get? fs c!"nickname" = some (.atom (.str e.1)) ∧
        e.2 = .obj c (fs ++ [(c!"path", path)])) l es →
      List.Forall₂ (fun a b => b.1 = a.1 ∧ operation12 a.2 = some b.2) es rs →
      List.Forall₂ (fun t a => ∃ q, Stands t q ∧ OpIn q a) ts (rs.map fun e => e.2.2) ∧
      List.Forall₂ (fun o e => e.1 = o.nickname ∧ Maybe q c!"path" e.2.1 ∧ e.2.2 = o) (rs.map fun e => e.2.2) rs := by
    intro ts l es rs h1 h2 h3
    induction h1 generalizing es rs with
    | nil => cases h2; cases h3; exact ⟨.nil, .nil⟩
    | cons a t ih =>
      cases h2 with
      | cons a2 t2 =>
        cases h3 with
        | cons a3 t3 =>
          obtain ⟨c, fs, rfl, hn, he⟩ := a2
          rw [he] at a3
          obtain ⟨q, hs, hop, hpa, hni⟩ := op_in a a3.2
          rw [attr_of hn] at hni
          obtain ⟨i1, i2⟩ := ih t2 t3
          exact ⟨.cons ⟨q, hs, hop⟩ i1, .cons ⟨a3.1.trans (Option.some.inj hni), hpath _ hpa, rfl⟩ i2⟩
  have nil : l = [] → rs = [] := by
    rintro rfl
    cases h3; cases hrs; rfl
  generalize hg : Dict.get? q c!"operations" = g at hops
  unfold ApiIn
  rw [hg]
  cases hops with
  | noList => rw [nil rfl]; exact ⟨[], .inr ⟨.inl rfl, rfl⟩, .nil⟩
  | nullList => rw [nil rfl]; exact ⟨[], .inr ⟨.inr (.inl rfl), rfl⟩, .nil⟩
  | list h =>
    cases h with
    | text => rw [nil rfl]; exact ⟨[], .inr ⟨.inr (.inr (.inl rfl)), rfl⟩, .nil⟩
    | dict => rw [nil rfl]; exact ⟨[], .inr ⟨.inr (.inr (.inr rfl)), rfl⟩, .nil⟩
    | list h =>
      obtain ⟨k1, k2⟩ := key h h3 hrs
      exact ⟨_, .inl ⟨_, rfl, k1⟩, k2⟩

/-- a list relation over the joined lists -/
theorem forall₂_flatten {α β : Type} {R : α → β → Prop} : ∀ {ess : List (List α)} {rs : List β}, List.Forall₂ R ess.flatten rs →
    ∃ rss, rs = rss.flatten ∧ List.Forall₂ (List.Forall₂ R) ess rss
  | [], rs, h => by
    cases h; exact ⟨[], rfl, .nil⟩
  | es :: ess, rs, h => by
    rw [List.flatten_cons] at h
    have ht := (List.forall₂_take_append _ _ _ h.flip).flip
    have hd := (List.forall₂_drop_append _ _ _ h.flip).flip
    obtain ⟨rss, e, h3⟩ := forall₂_flatten hd
    exact ⟨rs.take es.length :: rss, by rw [List.flatten_cons, ← e, List.take_append_drop], .cons ht h3⟩

theorem apis_in {g : Option Tree} {apis : List Tree} (h : ReadAs Reads (.many .api) g (.list apis)) {ess : List (List (Str × Tree))}
    (he : List.Forall₂ Entries apis ess) {rss : List (List (Str × (Option Str × Operation)))}
    (hr : List.Forall₂ (List.Forall₂ (fun a b => b.1 = a.1 ∧ operation12 a.2 = some b.2)) ess rss) : Many ApiIn g rss := by
  have nil : apis = [] → rss = [] := by
    rintro rfl
    cases he; cases hr; rfl
  cases h with
  | noList => exact .inr ⟨.inl rfl, nil rfl⟩
  | nullList => exact .inr ⟨.inr (.inl rfl), nil rfl⟩
  | list h =>
    cases h with
    | text => exact .inr ⟨.inr (.inr (.inl rfl)), nil rfl⟩
    | dict => exact .inr ⟨.inr (.inr (.inr rfl)), nil rfl⟩
    | list h =>
      refine .inl ⟨_, rfl, ?_⟩
      exact forall₂_comp (S := fun x rs => ∃ es, Entries x es ∧ List.Forall₂ (fun a b => b.1 = a.1 ∧ operation12 a.2 = some b.2) es rs)
        (fun j x rs h1 ⟨es, h2, h3⟩ => api_in h1 h2 h3) h (forall₂_comp (fun x es rs h1 h2 => ⟨es, h1, h2⟩) he hr)

theorem auths_in {q : Dict Str Tree} {fs : List (Str × Tree)} (h : attr fs c!"authorizations" = (Dict.get? q c!"authorizations").getD null)
    {d : List (Str × List Val)} (hd : authsOf (attr fs c!"authorizations") = some d) : ListsByName (Dict.get? q c!"authorizations") d := by
  rw [h] at hd
  cases hg : Dict.get? q c!"authorizations" with
  | none => rw [hg] at hd; cases hd; exact .inr ⟨.inl rfl, rfl⟩
  | some t =>
    rw [hg, Option.getD_some] at hd
    cases t with
    | atom a => cases a <;> cases hd; exact .inr ⟨.inr rfl, rfl⟩
    | dict ts =>
      refine .inl ⟨ts, rfl, (eachOf_iff hd).imp fun a b hab => ⟨hab.1, ?_⟩⟩
      obtain ⟨n, t⟩ := a
      cases t with
      | list l =>
        have := hab.2
        simp only [plainScopes] at this
        rw [← Option.some.inj this]
        exact Proofs.Effective.value_toVal (.list l)
      | _ => cases hab.2
    | _ => cases hd

theorem forall₂_keys {α β : Type} {R : Str × α → Str × β → Prop} : ∀ {l : List (Str × α)} {m : List (Str × β)},
    List.Forall₂ (fun a b => b.1 = a.1 ∧ R a b) l m → Dict.keys m = l.map Prod.fst
  | _, _, .nil => rfl
  | _, _, .cons h t => by
    rw [List.map_cons, ← forall₂_keys t, ← h.1]; rfl

theorem declaration_in {j x : Tree} {r : Resource} (h : Reads .declaration j x) (hr : resource12 x = some r) :
    ∃ d, j = .dict d ∧ DeclarationIn d r := by
  obtain ⟨d, rfl⟩ : ∃ d, j = .dict d := by
    rcases Proofs.Shape12.reads_shape h with rfl | h'
    · cases h
    · exact h'
  refine ⟨d, rfl, ?_⟩
  obtain ⟨fs, apis, ops, rfl, hapis, ⟨hnd, ess, hess, hops⟩, hfs⟩ := C85_operations d x h
  obtain ⟨_, e, -, -, hv, hu⟩ := C85_reads _ _ _ h
  cases e
  have value : ∀ n, (n, .value null) ∈ fields .declaration → ¬ Unread .declaration n → n ≠ c!"apis" → attr fs n = (Dict.get? d n).getD null := by
    intro n hm hun hna
    obtain ⟨y, h1, h2⟩ := hv n _ hm hun fun e => hna e.2
    rw [attr_of h1]
    generalize Dict.get? d n = g at h2
    cases h2 <;> rfl
  simp only [resource12, Option.bind_eq_bind, Option.bind_eq_some_iff, attr_of hfs] at hr
  obtain ⟨as, h1, bp, h2, ms, h3, pr, h4, co, h5, au, h6, e⟩ := hr
  cases e
  have h1 := eachOf_iff h1
  have hkeys : Dict.keys as = ops.map Prod.fst := forall₂_keys h1
  rw [hops] at h1
  obtain ⟨rss, e, h7⟩ := forall₂_flatten h1
  refine ⟨⟨rss, apis_in hapis hess h7, e⟩, by rw [hkeys]; exact hnd, maybe_in (value _ (Dict.mem_of_get? rfl) (by decide) (by decide)) h2, ?_,
    texts_in (value _ (Dict.mem_of_get? rfl) (by decide) (by decide)) h4, texts_in (value _ (Dict.mem_of_get? rfl) (by decide) (by decide)) h5,
    auths_in (attr_of (hu _ (.inl (by decide)))) h6⟩
  obtain ⟨y, h8, h9⟩ := hv c!"models" (.byName .model) (Dict.mem_of_get? rfl) (by decide) (by decide)
  rw [attr_of h8] at h3
  exact names_in model_in h9 h3

theorem listing_in {q rs : Dict Str Tree} {declarations : List (Str × Tree)} {t : Tree} {l : ResourceList}
    (hrs : List.Forall₂ (fun a b => b.1 = a.1 ∧ Reads .declaration a.2 b.2) declarations rs)
    (ht : Doc12.readList (.dict q) rs = some t) (hl : list12 t = some l) : ListingIn q declarations l := by
  obtain ⟨fs, rfl, -, -, hapis, hf⟩ := C85_listing q rs t ht
  simp only [list12, Option.bind_eq_bind, Option.bind_eq_some_iff, attr_of hapis] at hl
  obtain ⟨as, h1, i, h2, au, h3, e⟩ := hl
  cases e
  refine ⟨forall₂_comp (fun a b c h1 h2 => ⟨h2.1.trans h1.1, declaration_in h1.2 h2.2⟩) hrs (eachOf_iff h1), ?_, ?_, ?_⟩
  · obtain ⟨y, h4, h5⟩ := hf c!"apiVersion" (.value null) (Dict.mem_of_get? rfl) (by decide)
    refine value_in ?_
    rw [attr_of h4]
    generalize Dict.get? q c!"apiVersion" = g at h5
    cases h5 <;> rfl
  · obtain ⟨y, h4, h5⟩ := hf c!"info" (.one .info) (Dict.mem_of_get? rfl) (by decide)
    rw [attr_of h4] at h2
    unfold Missing
    generalize Dict.get? q c!"info" = g at h5
    cases h5 with
    | noObject => cases h2; exact .inl ⟨.inl rfl, rfl⟩
    | nullObject => cases h2; exact .inl ⟨.inr rfl, rfl⟩
    | object h =>
      obtain ⟨q', fs', rfl, hr⟩ := read (by decide) h
      cases h2
      rcases hr.stands with e | ⟨e, -⟩
      · cases e
        exact .inr ⟨_, _, rfl, rfl, value_in (hr.value _ _ (Dict.mem_of_get? rfl)), value_in (hr.value _ _ (Dict.mem_of_get? rfl)),
          value_in (hr.value _ _ (Dict.mem_of_get? rfl)), value_in (hr.value _ _ (Dict.mem_of_get? rfl)),
          value_in (hr.value _ _ (Dict.mem_of_get? rfl)), value_in (hr.value _ _ (Dict.mem_of_get? rfl))⟩
      · cases e
  · obtain ⟨y, h4, h5⟩ := hf c!"authorizations" (.byName .authorization) (Dict.mem_of_get? rfl) (by decide)
    rw [attr_of h4] at h3
    exact names_in auth_in h5 h3

/-- the records say what the document says -/
theorem read_in {listing : Dict Str Tree} {declarations : List (Str × Tree)} {l : ResourceList}
    (h : _root_.Upgraded.read listing declarations = some l) : ListingIn listing declarations l := by
  simp only [_root_.Upgraded.read, Option.bind_eq_bind, Option.bind_eq_some_iff] at h
  obtain ⟨rs, h1, t, h2, h3⟩ := h
  exact listing_in (eachOf_iff h1) h2 h3

theorem load_reads {env : Env} {str : Nat → Str} {listing : Dict Str Tree} {declarations : List (Str × Tree)} {T : Tree}
    (h : _root_.Upgraded.load env str listing declarations = some T) :
    ∃ l s, _root_.Upgraded.read listing declarations = some l ∧ upgrade env str l = .ok s ∧ T = tree s := by
  simp only [_root_.Upgraded.load, Option.bind_eq_bind, Option.bind_eq_some_iff] at h
  obtain ⟨l, h3, h4⟩ := h
  cases hu : upgrade env str l with
  | error e => rw [hu] at h4; cases h4
  | ok s =>
    rw [hu] at h4
    cases h4
    exact ⟨l, s, h3, hu, rfl⟩

end Proofs.Listing12
