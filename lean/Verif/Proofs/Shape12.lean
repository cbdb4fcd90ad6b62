import Verif.Props.C85
import Verif.Spec.Pointed
import Verif.Spec.Rules12
import Verif.Proofs.Validate12
/-! # What is read from a 1.2 document has the shape assumed by C60 -/

namespace Proofs.Shape12
open Py Tree _root_.Doc12 Spec.Swagger12 Spec.Pointed Props.C85 Spec.Places
open Spec.Rules12 (Owner)

theorem plain_mem {l : List Tree} (h : PlainList l) {v : Tree} (hv : v ∈ l) : Plain v := by
  induction l with
  | nil => cases hv
  | cons t l ih =>
    rw [PlainList] at h
    rcases List.mem_cons.1 hv with rfl | hv
    · exact h.1
    · exact ih h.2 hv

theorem plain_entry {d : List (Str × Tree)} (h : PlainDict d) {n : Str} {v : Tree} (hv : (n, v) ∈ d) : Plain v := by
  induction d with
  | nil => cases hv
  | cons t l ih =>
    obtain ⟨m, t⟩ := t
    rw [PlainDict] at h
    rcases List.mem_cons.1 hv with hv | hv
    · cases hv; exact h.1
    · exact ih h.2 hv

mutual
theorem plain_wf : ∀ t : Tree, Plain t → WF t
  | .atom _, _ => by rw [WF]; trivial
  | .list l, h => by
    rw [Plain] at h
    rw [WF]
    exact plain_wfL l h
  | .dict d, h => by
    rw [Plain] at h
    rw [WF]
    exact ⟨h.1, plain_wfD d h.2⟩
  | .obj _ _, h => by rw [Plain] at h; exact h.elim
theorem plain_wfL : ∀ l : List Tree, PlainList l → WFList l
  | [], _ => by rw [WFList]; trivial
  | t :: l, h => by
    rw [PlainList] at h
    rw [WFList]
    exact ⟨plain_wf t h.1, plain_wfL l h.2⟩
theorem plain_wfD : ∀ d : List (Str × Tree), PlainDict d → WFDict d
  | [], _ => by rw [WFDict]; trivial
  | (_, t) :: l, h => by
    rw [PlainDict] at h
    rw [WFDict]
    exact ⟨plain_wf t h.1, plain_wfD l h.2⟩
end

theorem wfDict_of {d : List (Str × Tree)} (h : ∀ n v, (n, v) ∈ d → WF v) : WFDict d := by
  induction d with
  | nil => rw [WFDict]; trivial
  | cons p d ih =>
    obtain ⟨n, v⟩ := p
    rw [WFDict]
    exact ⟨h n v (List.mem_cons_self ..), ih fun n v hm => h n v (List.mem_cons_of_mem _ hm)⟩

theorem wfList_of {l : List Tree} (h : ∀ v, v ∈ l → WF v) : WFList l := by
  induction l with
  | nil => rw [WFList]; trivial
  | cons p d ih =>
    rw [WFList]
    exact ⟨h _ (List.mem_cons_self ..), ih fun v hm => h v (List.mem_cons_of_mem _ hm)⟩

theorem of_wfDict {d : List (Str × Tree)} (h : WFDict d) {n : Str} {v : Tree} (hm : (n, v) ∈ d) : WF v := by
  induction d with
  | nil => cases hm
  | cons p d ih =>
    obtain ⟨m, w⟩ := p
    rw [WFDict] at h
    rcases List.mem_cons.1 hm with hm | hm
    · cases hm; exact h.1
    · exact ih h.2 hm

/-- there are no objects in a plain value -/
theorem plain_at {v u : Tree} {ts : List Str} (h : At [] v ts u) (hp : Plain v) : Plain u := by
  induction h with
  | here t => exact hp
  | field => rw [Plain] at hp; exact hp.elim
  | item l i v ts u hi _ ih =>
    rw [Plain] at hp
    exact ih (plain_mem hp (List.mem_of_getElem? hi))
  | key d k v ts u hm _ ih =>
    rw [Plain] at hp
    exact ih (plain_entry hp.2 hm)

theorem plain_no_obj {v : Tree} {ts : List Str} {c : Nat} {fs : List (Str × Tree)} (hp : Plain v)
    (h : At [] v ts (.obj c fs)) : False := by
  have := plain_at h hp
  rw [Plain] at this
  exact this

/-- the fields of an object -/
structure Fine (o : Ob) (fs : List (Str × Tree)) : Prop where
  keys : ∀ n, n ∈ Dict.keys fs ↔ n ∈ Dict.keys (fields o) ∨ Extra o n ∨ (o = .operation ∧ n = c!"path" ∧ n ∈ Dict.keys fs)
  consumes : o = .operation → ∀ v, Dict.get? fs c!"consumes" = some v → v = null ∨ ∃ l, v = .list l
  auths : o = .operation → ∀ v, Dict.get? fs c!"authorizations" = some v → v = null ∨ ∃ d, v = .dict d
  params : o = .operation → ∀ v, Dict.get? fs c!"parameters" = some v → v ≠ null
  apis : o = .declaration ∨ o = .listing → ∀ v, Dict.get? fs c!"apis" = some v → v ≠ null
  notApi : o ≠ .api

/-- the value of the field `n` of an object `o`: objects in it are as they should be, parameters belong
to operations -/
def Slot (o : Ob) (n : Str) (v : Tree) : Prop :=
  WF v ∧ ∀ ts c fs, At [] v ts (.obj c fs) → ∃ o', c = number o' ∧ Fine o' fs ∧
    (o' = .parameter → (∃ op, Owner v ts op) ∨ (o = .operation ∧ n = c!"parameters" ∧
      ∃ l i, v = .list l ∧ ts = [natStr i]))

/-- an object that was read as `o` -/
def Made (o : Ob) (x : Tree) : Prop :=
  WF x ∧ ∀ ts c fs, At [] x ts (.obj c fs) → ∃ o', c = number o' ∧ Fine o' fs ∧
    (o' = .parameter → (∃ op, Owner x ts op) ∨ (ts = [] ∧ o = .parameter))

theorem owner_up {x v op : Tree} {us ts : List Str} (h : Owner v ts op) (hx : At [] x us v) :
    Owner x (us ++ ts) op := by
  obtain ⟨us', i, l, rfl, h1, h2⟩ := h
  exact ⟨us ++ us', i, l, by simp, Validate12.at_append hx h1, h2⟩

theorem made_of_slots {o : Ob} {fs : List (Str × Tree)} (hnd : (Dict.keys fs).Nodup) (he : [] ∉ Dict.keys fs)
    (hf : Fine o fs) (hs : ∀ n v, (n, v) ∈ fs → Slot o n v) : Made o (.obj (number o) fs) := by
  refine ⟨?_, fun ts c fs' h => ?_⟩
  · rw [WF]
    exact ⟨hnd, he, wfDict_of fun n v hm => (hs n v hm).1⟩
  · cases h with
    | here => exact ⟨o, rfl, hf, fun h => Or.inr ⟨rfl, h⟩⟩
    | field c fs n v ts u _ hm hat =>
      obtain ⟨o', e, h1, h2⟩ := (hs n v hm).2 ts c fs' hat
      refine ⟨o', e, h1, fun hp => Or.inl ?_⟩
      have hstep : At [] (Tree.obj (number o) fs) [n] v := .field _ _ _ _ _ _ (by simp) hm (.here v)
      rcases h2 hp with ⟨op, ho⟩ | ⟨rfl, rfl, l, i, rfl, rfl⟩
      · exact ⟨op, owner_up ho hstep⟩
      · exact ⟨_, [], i, l, rfl, .here _, _, _, rfl, Dict.get?_of_mem hnd hm⟩

/-- an object that was read as `o`, field by field -/
structure Built (o : Ob) (fs : List (Str × Tree)) : Prop where
  nodup : (Dict.keys fs).Nodup
  named : [] ∉ Dict.keys fs
  fine : Fine o fs
  slots : ∀ n v, (n, v) ∈ fs → Slot o n v

theorem Built.made {o : Ob} {fs : List (Str × Tree)} (h : Built o fs) : Made o (.obj (number o) fs) :=
  made_of_slots h.nodup h.named h.fine h.slots

theorem slot_plain {o : Ob} {n : Str} {v : Tree} (h : Plain v) : Slot o n v :=
  ⟨plain_wf v h, fun _ _ _ hat => (plain_no_obj h hat).elim⟩

theorem slot_made {o o' : Ob} {n : Str} {v : Tree} (h : Made o' v) (hp : o' ≠ .parameter) : Slot o n v := by
  refine ⟨h.1, fun ts c fs hat => ?_⟩
  obtain ⟨o1, e, h1, h2⟩ := h.2 ts c fs hat
  refine ⟨o1, e, h1, fun hpar => ?_⟩
  rcases h2 hpar with h | h
  · exact Or.inl h
  · exact absurd h.2 hp

theorem slot_list {o o' : Ob} {n : Str} {l : List Tree} (h : ∀ v ∈ l, Made o' v)
    (hp : o' = .parameter → o = .operation ∧ n = c!"parameters") : Slot o n (.list l) := by
  refine ⟨by rw [WF]; exact wfList_of fun v hv => (h v hv).1, fun ts c fs hat => ?_⟩
  cases hat with
  | item l i v ts u hi hat =>
    obtain ⟨o1, e, h1, h2⟩ := (h v (List.mem_of_getElem? hi)).2 ts c fs hat
    refine ⟨o1, e, h1, fun hpar => ?_⟩
    have hstep : At [] (Tree.list l) [natStr i] v := .item _ _ _ _ _ hi (.here v)
    rcases h2 hpar with ⟨op, h⟩ | ⟨rfl, h⟩
    · exact Or.inl ⟨op, owner_up h hstep⟩
    · exact Or.inr ⟨(hp h).1, (hp h).2, l, i, rfl, rfl⟩

theorem slot_dict {o o' : Ob} {n : Str} {d : List (Str × Tree)} (hnd : (Dict.keys d).Nodup)
    (h : ∀ k v, (k, v) ∈ d → Slot o' n v) (hp : o' ≠ .operation) : Slot o n (.dict d) := by
  refine ⟨by rw [WF]; exact ⟨hnd, wfDict_of fun k v hv => (h k v hv).1⟩, fun ts c fs hat => ?_⟩
  cases hat with
  | key d k v ts u hi hat =>
    obtain ⟨o1, e, h1, h2⟩ := (h k v hi).2 ts c fs hat
    refine ⟨o1, e, h1, fun hpar => ?_⟩
    have hstep : At [] (Tree.dict d) [k] v := .key _ _ _ _ _ hi (.here v)
    rcases h2 hpar with ⟨op, h⟩ | ⟨h, _⟩
    · exact Or.inl ⟨op, owner_up h hstep⟩
    · exact absurd h hp

/-- what the tables say about parameters, and that names are not empty -/
theorem table_facts (o : Ob) : [] ∉ Dict.keys (fields o) ∧ ∀ p ∈ fields o,
    (match p.2 with
      | .one o' => o' ≠ .parameter
      | .many o' => o' = .parameter → o = .operation ∧ p.1 = c!"parameters"
      | .byName o' => o' ≠ .parameter
      | .manyByName o' => o' ≠ .parameter
      | .filled o' => o' = .items
      | .value _ => True) := by
  cases o <;> refine ⟨by decide +kernel, ?_⟩ <;>
    simp [fields, plain, Spec.Swagger12.dataType]

/-- where operations and apis stand -/
theorem table_parts (o : Ob) (ho : o ≠ .api) : ∀ p ∈ fields o, ¬ (o = .declaration ∧ p.1 = c!"apis") →
    (match p.2 with
      | .one o' | .many o' | .byName o' | .manyByName o' | .filled o' => (o' ≠ .api ∧ o' ≠ .listing) ∧ o' ≠ .operation
      | .value _ => True) := by
  cases o <;> simp [fields, plain, Spec.Swagger12.dataType] at ho ⊢

theorem plain_value {o : Ob} {n : Str} {a : Tree} (h : (n, .value a) ∈ fields o) : Plain a := by
  have : a = null ∨ a = .list [] := by
    revert h
    cases o <;> simp [fields, plain, Spec.Swagger12.dataType] <;> grind
  rcases this with rfl | rfl
  · rw [null, Plain]; trivial
  · rw [Plain, PlainList]; trivial

/-- `consumes` is a list, null, or not given -/
def Consumes (q : Dict Str Tree) : Prop :=
  ∀ v, Dict.get? q c!"consumes" = some v → v = null ∨ ∃ l, v = .list l

theorem forall₂_left {α β : Type} {R : α → β → Prop} {l : List α} {m : List β} (h : List.Forall₂ R l m) :
    ∀ b ∈ m, ∃ a ∈ l, R a b := by
  induction h with
  | nil => intro b hb; cases hb
  | cons h _ ih =>
    intro b hb
    rcases List.mem_cons.1 hb with rfl | hb
    · exact ⟨_, List.mem_cons_self .., h⟩
    · obtain ⟨a, ha, h⟩ := ih b hb
      exact ⟨a, List.mem_cons_of_mem _ ha, h⟩

theorem built_null {o : Ob} {x : Tree} (h1 : o ≠ .api ∧ o ≠ .listing) (h2 : o ≠ .operation) (h : Reads o null x) :
    ∃ fs, x = .obj (number o) fs ∧ Built o fs ∧ (o = .operation → c!"path" ∉ Dict.keys fs) := by
  have ho : o ≠ .declaration := by
    rintro rfl
    unfold Reads parse null at h
    rw [parseAs, parseAtom] at h
    simp [number] at h
  have := C85_null o ho
  unfold Reads at this h
  rw [this] at h
  cases h
  have hk : ∀ n, n ∈ Dict.keys (v12 (number o)).fields ↔ n ∈ Dict.keys (fields o) := fun n => by
    rw [C85_fields]
    constructor
    · rintro (h | ⟨h, _⟩)
      · exact h
      · exact absurd h ho
    · exact Or.inl
  have hv : ∀ p ∈ (v12 (number o)).fields, p.2 = null ∨ p.2 = .list [] := by
    cases o <;> decide +kernel
  have hop : o = .operation → ∀ p ∈ (v12 (number o)).fields, p.2 = null := by
    rintro rfl; decide +kernel
  refine ⟨_, rfl, ⟨(tables o).2.1, fun h => (table_facts o).1 ((hk _).1 h),
    ⟨fun n => ?_, ?_, ?_, fun h => absurd h h2, fun h => h.elim (absurd · ho) (absurd · h1.2), h1.1⟩, ?_⟩, fun h => absurd h h2⟩
  · rw [hk]
    constructor
    · exact Or.inl
    · rintro (h | ⟨h, _⟩ | ⟨_, _, h⟩)
      · exact h
      · exact absurd h ho
      · exact h
  · intro h v hg
    exact Or.inl (hop h _ (Dict.mem_of_get? hg))
  · intro h v hg
    exact Or.inl (hop h _ (Dict.mem_of_get? hg))
  · intro n v hm
    refine slot_plain ?_
    rcases hv _ hm with h | h
    · rw [show v = null from h, null, Plain]; trivial
    · rw [show v = .list [] from h, Plain, PlainList]; trivial

/-- a field read as the standard says -/
theorem slot_of_reads {o : Ob} {n : Str} {h : Holds} {d : Dict Str Tree} {y : Tree}
    (hm : (n, h) ∈ fields o) (hp : Plain (.dict d)) (hr : ReadAs Reads h (Dict.get? d n) y)
    (hpart : match (generalizing := false) h with
      | .one o' | .many o' | .byName o' | .manyByName o' | .filled o' => (o' ≠ .api ∧ o' ≠ .listing) ∧ o' ≠ .operation
      | .value _ => True)
    (ih : ∀ v o' x, (o' ≠ .api ∧ o' ≠ .listing) ∧ o' ≠ .operation → sizeOf v < sizeOf (Tree.dict d) → Plain v →
      ((∃ o1, (n, .one o1) ∈ fields o ∧ o' = o1 ∧ Dict.get? d n = some v) ∨
        (∃ l, (n, .many o') ∈ fields o ∧ Dict.get? d n = some (.list l) ∧ v ∈ l) ∨
        (∃ e k, (n, .byName o') ∈ fields o ∧ Dict.get? d n = some (.dict e) ∧ (k, v) ∈ e) ∨
        o' = .scopeOf ∨ o' = .items) →
      Reads o' v x → Made o' x) : Slot o n y := by
  rw [Plain] at hp
  have hplain : ∀ v, Dict.get? d n = some v → Plain v := fun v hv => plain_entry hp.2 (Dict.mem_of_get? hv)
  have hsize : ∀ v, Dict.get? d n = some v → sizeOf v < sizeOf (Tree.dict d) := fun v hv => by
    have := List.sizeOf_lt_of_mem (Dict.mem_of_get? hv)
    simp only [Tree.dict.sizeOf_spec]
    simp only [Prod.mk.sizeOf_spec] at this
    omega
  have htab := (table_facts o).2 _ hm
  have nullp : Plain null := by rw [null, Plain]; trivial
  have nilp : Plain (.list []) := by rw [Plain, PlainList]; trivial
  have nodp : Plain (.dict []) := by rw [Plain, PlainDict]; simp
  generalize hv : Dict.get? d n = ov at *
  cases hr with
  | absent => exact slot_plain (plain_value hm)
  | value => exact slot_plain (hplain _ rfl)
  | noObject => exact slot_plain nullp
  | nullObject => exact slot_plain nullp
  | object h => exact slot_made (ih _ _ _ hpart (hsize _ rfl) (hplain _ rfl) (Or.inl ⟨_, hm, rfl, rfl⟩) h) htab
  | noList => exact slot_plain nilp
  | nullList => exact slot_plain nilp
  | list h =>
    cases h with
    | text => exact slot_plain nilp
    | dict => exact slot_plain nilp
    | @list l xs h =>
      have hpl := hplain _ rfl
      rw [Plain] at hpl
      have hsz := hsize _ rfl
      refine slot_list (fun x hx => ?_) htab
      obtain ⟨v, hvm, hr⟩ := forall₂_left h x hx
      have := List.sizeOf_lt_of_mem hvm
      simp only [Tree.list.sizeOf_spec] at hsz
      exact ih v _ x hpart (by omega) (plain_mem hpl hvm) (Or.inr (Or.inl ⟨l, hm, rfl, hvm⟩)) hr
  | noNames => exact slot_plain nodp
  | nullNames => exact slot_plain nodp
  | @names o' e xs h =>
    have hpl := hplain _ rfl
    rw [Plain] at hpl
    have hsz := hsize _ rfl
    have hkeys : Dict.keys xs = e.map Prod.fst := by
      clear hm ih hv hpl hsz hplain hsize htab
      induction h with
      | nil => rfl
      | cons h _ ih => simp only [Dict.keys, List.map_cons] at ih ⊢; rw [ih, h.1]
    refine slot_dict (o' := .listing) (by rw [hkeys]; exact hpl.1) (fun k x hx => ?_) (by decide)
    obtain ⟨⟨k', v⟩, hvm, hr⟩ := forall₂_left h _ hx
    have := List.sizeOf_lt_of_mem hvm
    simp only [Tree.dict.sizeOf_spec, Prod.mk.sizeOf_spec] at hsz this
    refine slot_made (ih v _ x hpart ?_ (plain_entry hpl.2 hvm) (Or.inr (Or.inr (Or.inl ⟨e, _, hm, rfl, hvm⟩))) hr.2) htab
    simp only [Tree.dict.sizeOf_spec]
    omega
  | noLists => exact slot_plain nodp
  | nullLists => exact slot_plain nodp
  | @lists o' e xs h =>
    have hpl := hplain _ rfl
    rw [Plain] at hpl
    have hsz := hsize _ rfl
    have ho' : o' = .scopeOf := by
      revert hm
      cases o <;> simp [fields, plain, Spec.Swagger12.dataType]
    have hkeys : Dict.keys xs = e.map Prod.fst := by
      clear hm ih hv hpl hsz hplain hsize htab
      induction h with
      | nil => rfl
      | cons h _ ih => simp only [Dict.keys, List.map_cons] at ih ⊢; rw [ih, h.1]
    refine slot_dict (o' := .listing) (by rw [hkeys]; exact hpl.1) (fun k x hx => ?_) (by decide)
    obtain ⟨⟨k', v⟩, hvm, _, hr⟩ := forall₂_left h _ hx
    have hpv := plain_entry hpl.2 hvm
    have hs1 := List.sizeOf_lt_of_mem hvm
    simp only [Tree.dict.sizeOf_spec, Prod.mk.sizeOf_spec] at hsz hs1
    dsimp only at hr
    cases hr with
    | text => exact slot_plain nilp
    | dict => exact slot_plain nilp
    | @list l ys h =>
      rw [Plain] at hpv
      refine slot_list (o' := o') (fun x hx => ?_) (fun h => absurd h htab)
      obtain ⟨v, hvm, hr⟩ := forall₂_left h x hx
      have := List.sizeOf_lt_of_mem hvm
      simp only [Tree.list.sizeOf_spec] at hs1
      refine ih v _ x hpart ?_ (plain_mem hpv hvm) (Or.inr (Or.inr (Or.inr (Or.inl ho')))) hr
      simp only [Tree.dict.sizeOf_spec]
      omega
  | unfilled => exact slot_plain nullp
  | blank h => exact slot_plain (hplain _ rfl)
  | filled _ h =>
    have ho : _ = Ob.items := htab
    exact slot_made (ih _ _ _ hpart (hsize _ rfl) (hplain _ rfl) (Or.inr (Or.inr (Or.inr (Or.inr ho)))) h)
      (by rw [ho]; decide)

theorem built_path {fs : List (Str × Tree)} {p : Tree} (h : Built .operation fs) (hn : c!"path" ∉ Dict.keys fs)
    (hp : Plain p) : Built .operation (fs ++ [(c!"path", p)]) := by
  have hget : ∀ n, n ≠ c!"path" → Dict.get? (fs ++ [(c!"path", p)]) n = Dict.get? fs n := by
    intro n hne
    rw [Dict.get?_append]
    cases Dict.get? fs n with
    | some v => rfl
    | none => simp [Dict.get?, Ne.symm hne]
  have hk : Dict.keys (fs ++ [(c!"path", p)]) = Dict.keys fs ++ [c!"path"] := by simp [Dict.keys]
  refine ⟨?_, ?_, ⟨fun n => ?_, fun ho v hv => ?_, fun ho v hv => ?_, fun ho v hv => ?_, (by simp), nofun⟩,
    fun n v hm => ?_⟩
  · rw [hk]
    refine List.nodup_append.2 ⟨h.nodup, by simp, ?_⟩
    intro a ha b hb
    rw [List.mem_singleton] at hb
    subst hb
    rintro rfl
    exact hn ha
  · rw [hk]
    simp only [List.mem_append, List.mem_singleton, not_or]
    exact ⟨h.named, by decide⟩
  · have := h.fine.keys n
    rw [hk, List.mem_append, List.mem_singleton]
    constructor
    · rintro (h1 | h1)
      · rcases this.1 h1 with h2 | h2 | ⟨h2, h3, _⟩
        · exact Or.inl h2
        · exact Or.inr (Or.inl h2)
        · exact Or.inr (Or.inr ⟨rfl, h3, Or.inl h1⟩)
      · exact Or.inr (Or.inr ⟨rfl, h1, Or.inr h1⟩)
    · rintro (h2 | h2 | ⟨_, _, h⟩)
      · exact Or.inl (this.2 (Or.inl h2))
      · exact Or.inl (this.2 (Or.inr (Or.inl h2)))
      · exact h
  · rw [hget _ (by decide)] at hv
    exact h.fine.consumes ho v hv
  · rw [hget _ (by decide)] at hv
    exact h.fine.auths ho v hv
  · rw [hget _ (by decide)] at hv
    exact h.fine.params ho v hv
  · rcases List.mem_append.1 hm with hm | hm
    · exact h.slots n v hm
    · rw [List.mem_singleton] at hm
      cases hm
      exact slot_plain hp

theorem reads_shape {o : Ob} {j x : Tree} (h : Reads o j x) : j = null ∨ ∃ d, j = .dict d := by
  unfold Reads parse at h
  cases j with
  | atom a =>
    rw [parseAs] at h
    cases a <;> first | exact Or.inl rfl | (simp [parseAtom] at h)
  | list l => simp [parseAs] at h
  | dict d => exact Or.inr ⟨d, rfl⟩
  | obj c fs => rw [parseAs] at h; cases h

theorem no_operation {o : Ob} {v u : Tree} (ho : o = .scopeOf ∨ o = .items) (h : Within o v .operation u) : False := by
  cases h with
  | here => rcases ho with h | h <;> cases h
  | one hm => rcases ho with rfl | rfl <;> simp [fields, plain] at hm
  | many hm => rcases ho with rfl | rfl <;> simp [fields, plain] at hm
  | byName hm => rcases ho with rfl | rfl <;> simp [fields, plain] at hm

theorem size_get {d : Dict Str Tree} {n : Str} {v : Tree} (h : Dict.get? d n = some v) :
    sizeOf v < sizeOf (Tree.dict d) := by
  have := List.sizeOf_lt_of_mem (Dict.mem_of_get? h)
  simp only [Tree.dict.sizeOf_spec]
  simp only [Prod.mk.sizeOf_spec] at this
  omega

/-- everything that is read is as it should be -/
theorem built : ∀ s j, sizeOf j < s → ∀ o x, o ≠ .api ∧ o ≠ .listing → (o = .operation → j ≠ null) → Plain j → (∀ q, Within o j .operation (.dict q) → Consumes q) →
    Reads o j x → ∃ fs, x = .obj (number o) fs ∧ Built o fs ∧ (o = .operation → c!"path" ∉ Dict.keys fs) := by
  intro s
  induction s with
  | zero => intro j h; omega
  | succ s IH =>
    intro j hs o x hna hnn hp hw hx
    rcases reads_shape hx with rfl | ⟨d, rfl⟩
    · exact built_null hna (fun h => hnn h rfl) hx
    obtain ⟨fs, rfl, hnd, hkeys, hfields, hplain⟩ := C85_reads o d x hx
    refine ⟨fs, rfl, ⟨hnd, ?_, ⟨fun n => ?_, ?_, ?_, ?_, ?_, hna.1⟩, ?_⟩, ?_⟩
    rotate_right
    · rintro rfl
      rw [hkeys]
      rintro (h | ⟨h, _⟩)
      · exact absurd h (by decide +kernel)
      · cases h
    · rw [hkeys]
      rintro (h | ⟨_, h⟩)
      · exact (table_facts o).1 h
      · cases h
    · rw [hkeys]
      constructor
      · rintro (h | h)
        · exact Or.inl h
        · exact Or.inr (Or.inl h)
      · rintro (h | h | ⟨_, _, h⟩)
        · exact Or.inl h
        · exact Or.inr h
        · exact h
    · rintro rfl v hv
      obtain ⟨y, hy, hr⟩ := hfields c!"consumes" (.value null) (Dict.mem_of_get? (by rfl)) (by decide) (by decide)
      rw [hv] at hy
      cases hy
      generalize hd : Dict.get? d c!"consumes" = ov at hr
      cases hr with
      | absent => exact Or.inl rfl
      | value => exact hw d .here v hd
    · rintro rfl v hv
      obtain ⟨y, hy, hr⟩ := hfields c!"authorizations" (.manyByName .scopeOf) (Dict.mem_of_get? (by rfl)) (by decide) (by decide)
      rw [hv] at hy
      cases hy
      generalize Dict.get? d c!"authorizations" = ov at hr
      cases hr <;> exact Or.inr ⟨_, rfl⟩
    · rintro rfl v hv
      obtain ⟨y, hy, hr⟩ := hfields c!"parameters" (.many .parameter) (Dict.mem_of_get? (by rfl)) (by decide) (by decide)
      rw [hv] at hy
      cases hy
      generalize Dict.get? d c!"parameters" = ov at hr
      cases hr with
      | noList => nofun
      | nullList => nofun
      | list h => cases h <;> nofun
    · rintro (rfl | h) v hv
      rotate_left
      · exact absurd h hna.2
      obtain ⟨fs', apis, ops, e, _, _, h4⟩ := C85_operations d _ hx
      cases e
      rw [hv] at h4
      cases h4
      nofun
    · intro n v hm
      have hg := Dict.get?_of_mem hnd hm
      by_cases hue : Unread o n ∨ Extra o n
      · rw [hplain n hue] at hg
        cases hg
        refine slot_plain ?_
        cases hd : Dict.get? d n with
        | none => rw [null]; simp [Plain]
        | some v => rw [Plain] at hp; exact plain_entry hp.2 (Dict.mem_of_get? hd)
      rw [not_or] at hue
      by_cases ha : o = .declaration ∧ n = c!"apis"
      · obtain ⟨rfl, rfl⟩ := ha
        obtain ⟨fs', apis, ops, e, h1, ⟨h2, es, h3, rfl⟩, h4⟩ := C85_operations d _ hx
        cases e
        rw [hg] at h4
        cases h4
        refine slot_dict (o' := .listing) h2 (fun k op hm => ?_) (by decide)
        obtain ⟨e, he, hmem⟩ := List.mem_flatten.1 hm
        obtain ⟨a, ha, p, l, ⟨c1, f1, rfl, hpath⟩, ⟨c2, f2, e2, hops⟩, h5⟩ := forall₂_left h3 e he
        cases e2
        obtain ⟨op0, hop0, c0, f0, rfl, hnick, e0⟩ := forall₂_left h5 _ hmem
        dsimp only at hnick e0
        subst e0
        -- the api
        have hjson : ∃ lj v, Dict.get? d c!"apis" = some (.list lj) ∧ v ∈ lj ∧ Reads .api v (.obj c1 f1) := by
          generalize Dict.get? d c!"apis" = ov at h1
          cases h1 with
          | noList => cases ha
          | nullList => cases ha
          | list h =>
            cases h with
            | text => cases ha
            | dict => cases ha
            | list h =>
              obtain ⟨v, hv, hr⟩ := forall₂_left h _ ha
              exact ⟨_, v, rfl, hv, hr⟩
        obtain ⟨lj, v, hlj, hv, hr⟩ := hjson
        rcases reads_shape hr with rfl | ⟨da, rfl⟩
        · have := C85_null .api (by decide)
          unfold Reads at this hr
          rw [this] at hr
          cases hr
          rw [show Dict.get? (v12 (number .api)).fields c!"operations" = some null by rfl] at hops
          cases hops
        obtain ⟨fa, ea, _, _, hfa, _⟩ := C85_reads .api da _ hr
        cases ea
        have hsz := size_get hlj
        have hsz2 := List.sizeOf_lt_of_mem hv
        have hpl : Plain (.list lj) := by rw [Plain] at hp; exact plain_entry hp.2 (Dict.mem_of_get? hlj)
        rw [Plain] at hpl
        have hpa := plain_mem hpl hv
        have hpp : Plain p := by
          obtain ⟨y, hy, hr⟩ := hfa c!"path" (.value null) (Dict.mem_of_get? (by rfl)) (by decide) (by decide)
          rw [hpath] at hy
          cases hy
          generalize hd : Dict.get? da c!"path" = ov at hr
          cases hr with
          | absent => rw [null]; simp [Plain]
          | value => rw [Plain] at hpa; exact plain_entry hpa.2 (Dict.mem_of_get? hd)
        have hoj : ∃ lo w, Dict.get? da c!"operations" = some (.list lo) ∧ w ∈ lo ∧ Reads .operation w (.obj c0 f0) := by
          obtain ⟨y, hy, hr⟩ := hfa c!"operations" (.many .operation) (Dict.mem_of_get? (by rfl)) (by decide) (by decide)
          rw [hops] at hy
          cases hy
          generalize hd : Dict.get? da c!"operations" = ov at hr
          cases hr with
          | noList => cases hop0
          | nullList => cases hop0
          | list h =>
            cases h with
            | text => cases hop0
            | dict => cases hop0
            | list h =>
              obtain ⟨v, hv, hr⟩ := forall₂_left h _ hop0
              exact ⟨_, v, rfl, hv, hr⟩
        obtain ⟨lo, w, hlo, hwm, hrw⟩ := hoj
        have hsz3 := size_get hlo
        have hsz4 := List.sizeOf_lt_of_mem hwm
        have hpo : Plain (.list lo) := by rw [Plain] at hpa; exact plain_entry hpa.2 (Dict.mem_of_get? hlo)
        rw [Plain] at hpo
        simp only [Tree.list.sizeOf_spec] at hsz hsz3
        have hwn : Ob.operation = .operation → w ≠ null := by
          rintro - rfl
          have := C85_null .operation (by decide)
          unfold Reads at this hrw
          rw [this] at hrw
          cases hrw
          rw [show Dict.get? (v12 (number .operation)).fields c!"nickname" = some null by rfl] at hnick
          cases hnick
        obtain ⟨f, e, hb, hnp⟩ := IH w (by omega) .operation _ (by decide) hwn (plain_mem hpo hwm) (fun q hq => hw q
          (.many (show (c!"apis", Holds.many .api) ∈ fields .declaration from Dict.mem_of_get? (by rfl)) hlj hv
            (.many (show (c!"operations", Holds.many .operation) ∈ fields .api from Dict.mem_of_get? (by rfl)) hlo hwm hq))) hrw
        cases e
        exact slot_made (built_path hb (hnp rfl) hpp).made (by decide)
      · have hmf : ∃ h, (n, h) ∈ fields o := by
          have := (hkeys n).1 (List.mem_map.2 ⟨_, hm, rfl⟩)
          rcases this with h | h
          · obtain ⟨⟨_, g⟩, hm', rfl⟩ := List.mem_map.1 h
            exact ⟨g, hm'⟩
          · exact absurd h hue.2
        obtain ⟨h, hmf⟩ := hmf
        obtain ⟨y, hy, hr⟩ := hfields n h hmf hue.1 ha
        rw [hg] at hy
        cases hy
        refine slot_of_reads hmf hp hr (table_parts o hna.1 _ hmf ha) fun u o' x hne hsu hpu hin hru => ?_
        have hwu : ∀ q, Within o' u .operation (.dict q) → Consumes q := by
          intro q hq
          rcases hin with ⟨o1, h1, rfl, h2⟩ | ⟨l, h1, h2, h3⟩ | ⟨e, k, h1, h2, h3⟩ | h1
          · exact hw q (.one h1 h2 hq)
          · exact hw q (.many h1 h2 h3 hq)
          · exact hw q (.byName h1 h2 h3 hq)
          · exact (no_operation h1 hq).elim
        obtain ⟨f, rfl, hb, _⟩ := IH u (by omega) o' x hne.1 (fun h => absurd h hne.2) hpu hwu hru
        exact hb.made

end Proofs.Shape12
