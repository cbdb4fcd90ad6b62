import Verif.Props.C88
import Verif.Props.C86Example
/-!
# C88: concrete documents

A document with operations of the same id under different tags, one with an empty tag, and one without id; and one with ids
that hold the end of the separator.
-/

namespace Props.C88
open Py Utils Tree _root_.Doc Spec Spec.Places Spec.Pointed _root_.Loaded Proofs.Loaded Proofs.Origin Proofs.Placed
open Spec.Index (Label Calls)
open Props.C83 (outside)

/-- what a document of this form declares -/
theorem at_mem {sq paths oq : Dict Str Tree} {k m : Str} (h : C86.At sq k m oq) (hp : Dict.get? sq c!"paths" = some (.dict paths)) :
    ∃ iq, (k, .dict iq) ∈ paths ∧ (m, .dict oq) ∈ iq := by
  obtain ⟨-, paths', iq, h1, h2, h3⟩ := h
  rw [hp] at h1; cases h1
  exact ⟨iq, Dict.mem_of_get? h2, Dict.mem_of_get? h3⟩

theorem text_inj : ∀ {l l' : List Str}, l.map Spec.Service.text = l'.map Spec.Service.text → l = l' := by
  intro l l' h
  rw [← C86.texts_text l, ← C86.texts_text l', h]

theorem label_unique {q : Dict Str Tree} {l l' : Label} (h : l.In q) (h' : l'.In q) : l.tags = l'.tags ∧ l.id = l'.id := by
  constructor
  · rcases h.tags with (h1 | ⟨h1, e1⟩) | ⟨h1, e1⟩ <;> rcases h'.tags with (h2 | ⟨h2, e2⟩) | ⟨h2, e2⟩ <;> rw [h1] at h2
    · injection h2 with h2; injection h2 with h2; exact text_inj h2
    all_goals first | (rw [e1, e2]) | cases h2
  · have h1 := h.id
    have h2 := h'.id
    cases e1 : l.id with
    | none =>
      cases e2 : l'.id with
      | none => rfl
      | some s =>
        rw [e1] at h1
        rw [e2, Spec.Service.Maybe] at h2
        rcases h1 with h1 | h1 <;> rw [h1] at h2 <;> cases h2
    | some s =>
      rw [e1, Spec.Service.Maybe] at h1
      cases e2 : l'.id with
      | none =>
        rw [e2] at h2
        rcases h2 with h2 | h2 <;> rw [h1] at h2 <;> cases h2
      | some s' =>
        rw [e2, Spec.Service.Maybe, h1] at h2
        cases h2; rfl

/-- the name by the tags and the id -/
def nameOf (sep : Str) (l : Label) : Option Str :=
  match l.id, l.tags.head? with
  | none, _ | some [], _ => none
  | some i, none | some i, some [] => some i
  | some i, some t => some (t ++ sep ++ i)

theorem calls_name {sep : Str} {q : Dict Str Tree} {l : Label} (h : l.In q) {n : Str} : Calls sep q n ↔ nameOf sep l = some n := by
  constructor
  · intro hc
    cases hc with
    | alone l' i h' hi h0 ht =>
      obtain ⟨e1, e2⟩ := label_unique h h'
      unfold nameOf
      rw [e1, e2, hi]
      cases n with
      | nil => exact absurd rfl h0
      | cons c cs =>
        cases hh : l'.tags.head? with
        | none => rfl
        | some t => rw [ht t hh]
    | tagged l' t i h' hi h0 ht ht0 =>
      obtain ⟨e1, e2⟩ := label_unique h h'
      unfold nameOf
      rw [e1, e2, hi, ht]
      cases i with
      | nil => exact absurd rfl h0
      | cons c cs =>
        cases t with
        | nil => exact absurd rfl ht0
        | cons a as => rfl
  · unfold nameOf
    intro hn
    split at hn
    · cases hn
    · cases hn
    · next i h1 h2 h3 => cases hn; exact .alone l _ h h2 (fun e => h1 e) fun t ht => by rw [h3] at ht; cases ht
    · next i h1 h2 h3 => cases hn; exact .alone l _ h h2 (fun e => h1 e) fun t ht => by rw [h3] at ht; cases ht; rfl
    · next i t h1 h2 h3 h4 => cases hn; exact .tagged l t i h h3 (fun e => h1 e) h4 (fun e => h2 e)

namespace Shelf

def txt (s : Str) : Tree := .atom (.str s)

def idQ : Dict Str Tree := [(c!"name", txt c!"id"), (c!"in", txt c!"path"), (c!"required", .atom (.bool true)), (c!"type", txt c!"string")]
def getQ : Dict Str Tree := [(c!"tags", .list [txt c!"book", txt c!"all"]), (c!"operationId", txt c!"list"), (c!"responses", .dict [])]
def postQ : Dict Str Tree := [(c!"tags", .list [txt []]), (c!"operationId", txt c!"add"), (c!"responses", .dict [])]
def userQ : Dict Str Tree := [(c!"tags", .list [txt c!"user"]), (c!"operationId", txt c!"list"), (c!"responses", .dict [])]
def deleteQ : Dict Str Tree := [(c!"tags", .list [txt c!"user"]), (c!"responses", .dict [])]
def booksQ : Dict Str Tree := [(c!"parameters", .list [.dict idQ]), (c!"get", .dict getQ), (c!"post", .dict postQ)]
def usersQ : Dict Str Tree := [(c!"get", .dict userQ), (c!"delete", .dict deleteQ)]
def paths : Dict Str Tree := [(c!"/books/{id}", .dict booksQ), (c!"/users", .dict usersQ)]
def sq : Dict Str Tree := [(c!"swagger", txt c!"2.0"), (c!"paths", .dict paths),
  (c!"definitions", .dict [(c!"Book", .dict [(c!"type", txt c!"string")])])]

/-- the document -/
def doc : Tree := .dict sq

def url : Str := c!"http://h/s"
def at_ : Url := ⟨c!"http", c!"h", c!"/s", [], [], []⟩

theorem url_eq : urlunparse at_ = url := by decide
theorem self : SelfContained doc url := Proofs.Checked.checked (by decide +kernel)

def read : Tree := (parse v20 cSwagger doc).getD (.atom .none)
def root : Tree := (normalizeRefs url read).getD (.atom .none)

theorem read_eq : parse v20 cSwagger doc = some read := by
  have h : (parse v20 cSwagger doc).isSome = true := by decide +kernel
  unfold read
  cases hp : parse v20 cSwagger doc with
  | none => rw [hp] at h; cases h
  | some t => rfl

theorem root_eq : normalizeRefs url read = some root := by
  have h : (normalizeRefs url read).isSome = true := by decide +kernel
  unfold root
  cases hp : normalizeRefs url read with
  | none => rw [hp] at h; cases h
  | some t => rfl

theorem loads : Loads doc at_ read root := ⟨C86.Notes.canon, rfl, url_eq ▸ self, read_eq, url_eq ▸ root_eq⟩

def getL : Label := ⟨[c!"book", c!"all"], some c!"list"⟩
def postL : Label := ⟨[[]], some c!"add"⟩
def userL : Label := ⟨[c!"user"], some c!"list"⟩
def deleteL : Label := ⟨[c!"user"], none⟩

theorem getIn : getL.In getQ := ⟨.inl (.inl rfl), rfl⟩
theorem postIn : postL.In postQ := ⟨.inl (.inl rfl), rfl⟩
theorem userIn : userL.In userQ := ⟨.inl (.inl rfl), rfl⟩
theorem deleteIn : deleteL.In deleteQ := ⟨.inl (.inl rfl), .inl rfl⟩

/-- the operations of the document -/
theorem operations {k m : Str} {oq : Dict Str Tree} (h : C86.At sq k m oq) :
    (k, m, oq) ∈ [(c!"/books/{id}", c!"get", getQ), (c!"/books/{id}", c!"post", postQ), (c!"/users", c!"get", userQ),
      (c!"/users", c!"delete", deleteQ)] := by
  obtain ⟨iq, h1, h2⟩ := at_mem h (paths := paths) rfl
  simp only [paths, List.mem_cons, List.not_mem_nil, or_false, Prod.mk.injEq, Tree.dict.injEq] at h1
  rcases h1 with ⟨rfl, rfl⟩ | ⟨rfl, rfl⟩
  · simp only [booksQ, List.mem_cons, List.not_mem_nil, or_false, Prod.mk.injEq, Tree.dict.injEq, reduceCtorEq, and_false, false_or] at h2
    rcases h2 with ⟨rfl, rfl⟩ | ⟨rfl, rfl⟩ <;> simp
  · simp only [usersQ, List.mem_cons, List.not_mem_nil, or_false, Prod.mk.injEq, Tree.dict.injEq] at h2
    rcases h2 with ⟨rfl, rfl⟩ | ⟨rfl, rfl⟩ <;> simp

theorem labelled : Labelled sq := by
  intro k m oq h
  have := operations h
  simp only [List.mem_cons, List.not_mem_nil, or_false, Prod.mk.injEq] at this
  rcases this with ⟨-, -, rfl⟩ | ⟨-, -, rfl⟩ | ⟨-, -, rfl⟩ | ⟨-, -, rfl⟩
  · exact ⟨_, getIn⟩
  · exact ⟨_, postIn⟩
  · exact ⟨_, userIn⟩
  · exact ⟨_, deleteIn⟩

theorem inPlace : InPlace sq := by
  intro ps k iq h1 h2
  cases h1
  have := Dict.mem_of_get? h2
  simp only [paths, List.mem_cons, List.not_mem_nil, or_false, Prod.mk.injEq, Tree.dict.injEq] at this
  rcases this with ⟨-, rfl⟩ | ⟨-, rfl⟩ <;> rfl

theorem get_at : C86.At sq c!"/books/{id}" c!"get" getQ := ⟨by decide, _, _, rfl, rfl, rfl⟩
theorem post_at : C86.At sq c!"/books/{id}" c!"post" postQ := ⟨by decide, _, _, rfl, rfl, rfl⟩
theorem user_at : C86.At sq c!"/users" c!"get" userQ := ⟨by decide, _, _, rfl, rfl, rfl⟩

theorem names {k m n : Str} {oq : Dict Str Tree} (h : C86.At sq k m oq) (hc : Calls SCOPE_SEPARATOR oq n) :
    (k, m, n) ∈ [(c!"/books/{id}", c!"get", c!"book!##!list"), (c!"/books/{id}", c!"post", c!"add"), (c!"/users", c!"get", c!"user!##!list")] := by
  have := operations h
  simp only [List.mem_cons, List.not_mem_nil, or_false, Prod.mk.injEq] at this
  rcases this with ⟨rfl, rfl, rfl⟩ | ⟨rfl, rfl, rfl⟩ | ⟨rfl, rfl, rfl⟩ | ⟨rfl, rfl, rfl⟩
  · rw [calls_name getIn] at hc; cases hc; decide
  · rw [calls_name postIn] at hc; cases hc; decide
  · rw [calls_name userIn] at hc; cases hc; decide
  · rw [calls_name deleteIn] at hc; cases hc

/-- preparing the document raises nothing -/
theorem indexed (o : Objects.Outside) : ∃ d, Index.index o root SCOPE_SEPARATOR = some (.ok d) := by
  obtain ⟨r, h1, h2⟩ := C88_index (o := o) loads rfl labelled inPlace SCOPE_SEPARATOR
  rcases h2 with ⟨-, k, m, oq, k', m', oq', n, hne, ha, hb, hc, hd⟩ | ⟨d, rfl, -⟩
  · have e1 := names ha hc
    have e2 := names hb hd
    simp only [List.mem_cons, List.not_mem_nil, or_false, Prod.mk.injEq] at e1 e2
    rcases e1 with ⟨rfl, rfl, rfl⟩ | ⟨rfl, rfl, rfl⟩ | ⟨rfl, rfl, rfl⟩ <;>
      rcases e2 with ⟨rfl, rfl, e⟩ | ⟨rfl, rfl, e⟩ | ⟨rfl, rfl, e⟩ <;> first | exact absurd rfl hne | exact absurd e (by decide)
  · exact ⟨d, h1⟩

/-- both lists are found by their tags -/
example (o : Objects.Outside) {d : Dict Str Nat} (h : Index.index o root SCOPE_SEPARATOR = some (.ok d)) :
    ScopeDict.getitem SCOPE_SEPARATOR d (.tuple [some c!"book", some c!"list"]) = .ok (o.num [c!"paths", c!"/books/{id}", c!"get"]) ∧
    ScopeDict.getitem SCOPE_SEPARATOR d (.tuple [some c!"user", some c!"list"]) = .ok (o.num [c!"paths", c!"/users", c!"get"]) :=
  ⟨C88_tagged loads rfl labelled inPlace h get_at getIn rfl rfl (by decide) (by decide),
    C88_tagged loads rfl labelled inPlace h user_at userIn rfl rfl (by decide) (by decide)⟩

theorem ids {k m : Str} {oq : Dict Str Tree} {l : Label} {i : Str} (h : C86.At sq k m oq) (hin : l.In oq) (hi : l.id = some i) :
    (k, m, i) ∈ [(c!"/books/{id}", c!"get", c!"list"), (c!"/books/{id}", c!"post", c!"add"), (c!"/users", c!"get", c!"list")] := by
  have := operations h
  simp only [List.mem_cons, List.not_mem_nil, or_false, Prod.mk.injEq] at this
  rcases this with ⟨rfl, rfl, rfl⟩ | ⟨rfl, rfl, rfl⟩ | ⟨rfl, rfl, rfl⟩ | ⟨rfl, rfl, rfl⟩
  · rw [(label_unique hin getIn).2] at hi; cases hi; decide
  · rw [(label_unique hin postIn).2] at hi; cases hi; decide
  · rw [(label_unique hin userIn).2] at hi; cases hi; decide
  · rw [(label_unique hin deleteIn).2] at hi; cases hi

/-- the other one by its id alone -/
example (o : Objects.Outside) {d : Dict Str Nat} (h : Index.index o root SCOPE_SEPARATOR = some (.ok d)) :
    ScopeDict.getitem SCOPE_SEPARATOR d (.plain c!"add") = .ok (o.num [c!"paths", c!"/books/{id}", c!"post"]) := by
  refine C88_id_partial loads rfl labelled inPlace h (x := '!') (s := c!"!##") rfl ?_ post_at postIn rfl (by decide) ?_
  · intro k m oq l i ha hin hi
    have := ids ha hin hi
    simp only [List.mem_cons, List.not_mem_nil, or_false, Prod.mk.injEq] at this
    rcases this with ⟨-, -, rfl⟩ | ⟨-, -, rfl⟩ | ⟨-, -, rfl⟩ <;> decide
  · intro k m oq l ha hin hi
    have := ids ha hin hi
    simp only [List.mem_cons, List.not_mem_nil, or_false, Prod.mk.injEq] at this
    rcases this with ⟨rfl, rfl, e⟩ | ⟨rfl, rfl, e⟩ | ⟨rfl, rfl, e⟩
    · exact absurd e (by decide)
    · rfl
    · exact absurd e (by decide)

/-- the definition -/
example (o : Objects.Outside) : ScopeDict.getitem SCOPE_SEPARATOR (Index.models o root) (.plain c!"Book") =
    .ok (o.num [c!"definitions", c!"Book"]) :=
  (C88_models loads rfl SCOPE_SEPARATOR).1 c!"Book" [(c!"type", txt c!"string")]
    ⟨.one cSchema, .inl rfl, .field (.inl rfl) rfl (by rfl : _ = some (Kind.dict cSchema)) (.key rfl .here)⟩

theorem styled : Styled doc := by
  intro ts c q v ⟨k, hk, hp⟩ _ hv
  have key : ((Proofs.Checked.places (.one cSwagger) doc).all fun x =>
      match x.2.2 with
      | .dict q => (Dict.get? q c!"collectionFormat").isNone
      | _ => true) = true := by decide +kernel
  have := List.all_eq_true.1 key _ (Proofs.Checked.place_mem hp)
  dsimp only at this
  rw [hv] at this
  cases this

theorem item_written : Written doc [c!"paths", c!"/books/{id}"] cPathItem booksQ :=
  ⟨.one cPathItem, .inl rfl, .field (.inl rfl) rfl (by rfl : _ = some (Kind.dict cPathItem)) (.key rfl .here)⟩

theorem getAsked : C83.Asked doc at_ [c!"paths", c!"/books/{id}"] c!"get" booksQ getQ [] [idQ] where
  item := item_written
  inPlace := rfl
  operation := ⟨rfl, by decide⟩
  forOp := .nil
  forItem := by
    have h : elements [c!"paths", c!"/books/{id}"] c!"parameters" booksQ = [[c!"paths", c!"/books/{id}", c!"parameters", natStr 0]] := rfl
    rw [h]
    refine .cons ⟨0, .inline ⟨.one cParameter, .inl rfl, .field (.inl rfl) rfl (by rfl : _ = some (Kind.dict cPathItem)) (.key rfl (.field (.inl rfl) rfl
      (by rfl : _ = some (Kind.list cParameter)) (.item (i := 0) rfl .here)))⟩ rfl⟩ .nil
  texts q hq := by cases List.mem_singleton.1 hq; exact ⟨⟨_, rfl⟩, _, rfl⟩
  distinct := by decide

/-- a call of the operation found works with the parameter of the path item -/
example {w : Prim.World.Outside} (hw : C74.Sound w) (o : Objects.Outside) : ∃ d, Index.index o root SCOPE_SEPARATOR = some (.ok d) ∧
    ∃ n, ScopeDict.getitem SCOPE_SEPARATOR d (.tuple [some c!"book", some c!"list"]) = .ok n ∧
    ∃ mfuel op p, Index.operation o url root id mfuel (fun n => .ok n) n = some (op, [p]) ∧ op.method = c!"get" ∧
      op.path = c!"/books/{id}" ∧ op.url = c!"//h/books/{id}" := by
  obtain ⟨d, hd⟩ := indexed o
  refine ⟨d, hd, _, C88_tagged loads rfl labelled inPlace hd get_at getIn rfl rfl (by decide) (by decide), ?_⟩
  obtain ⟨b, hb⟩ := C88_operation (o := o) (s := {}) (a := {}) loads rfl styled (order := id) (fun l => List.Perm.refl _)
    ⟨.inl rfl, .inl rfl, .inr ⟨rfl, rfl⟩, .inr ⟨rfl, rfl⟩, .inr ⟨rfl, rfl⟩, .inl rfl⟩ getAsked
    ⟨.inr ⟨rfl, rfl⟩, .inr ⟨rfl, rfl⟩, .inr ⟨rfl, rfl⟩, .inl rfl⟩ hw get_at (fun n => .ok n)
  obtain ⟨op, ps, h1, h2, -, h3⟩ := hb b (Nat.le_refl _) b (Nat.le_refl _)
  have hf : List.Forall₂ _ ps [idQ] := h3 C82.Pets.env0
  cases hf with
  | cons hp hn =>
    cases hn
    refine ⟨b, op, _, url_eq ▸ h1, h2.method, h2.path, ?_⟩
    obtain ⟨h, hh, hu⟩ := h2.url
    rw [hu]
    have : h = c!"h" := by
      generalize ho : ({} : Spec.Service.Common).host = x at hh
      cases hh with
      | own h' _ _ => cases ho
      | loaded _ _ _ _ => rfl
    rw [this]
    rfl

end Shelf

/-! ## ids with the end of the separator -/

namespace Odd
open Shelf (txt url at_ url_eq)

def aQ : Dict Str Tree := [(c!"tags", .list [txt c!"t"]), (c!"operationId", txt c!"##!b"), (c!"responses", .dict [])]
def bQ : Dict Str Tree := [(c!"tags", .list [txt c!"u"]), (c!"operationId", txt c!"b"), (c!"responses", .dict [])]
def itemQ : Dict Str Tree := [(c!"get", .dict aQ), (c!"put", .dict bQ)]
def paths : Dict Str Tree := [(c!"/x", .dict itemQ)]
def sq : Dict Str Tree := [(c!"swagger", txt c!"2.0"), (c!"paths", .dict paths)]
def doc : Tree := .dict sq

theorem self : SelfContained doc url := Proofs.Checked.checked (by decide +kernel)

def read : Tree := (parse v20 cSwagger doc).getD (.atom .none)
def root : Tree := (normalizeRefs url read).getD (.atom .none)

theorem read_eq : parse v20 cSwagger doc = some read := by
  have h : (parse v20 cSwagger doc).isSome = true := by decide +kernel
  unfold read
  cases hp : parse v20 cSwagger doc with
  | none => rw [hp] at h; cases h
  | some t => rfl

theorem root_eq : normalizeRefs url read = some root := by
  have h : (normalizeRefs url read).isSome = true := by decide +kernel
  unfold root
  cases hp : normalizeRefs url read with
  | none => rw [hp] at h; cases h
  | some t => rfl

theorem loads : Loads doc at_ read root := ⟨C86.Notes.canon, rfl, url_eq ▸ self, read_eq, url_eq ▸ root_eq⟩

def aL : Label := ⟨[c!"t"], some c!"##!b"⟩
def bL : Label := ⟨[c!"u"], some c!"b"⟩
theorem aIn : aL.In aQ := ⟨.inl (.inl rfl), rfl⟩
theorem bIn : bL.In bQ := ⟨.inl (.inl rfl), rfl⟩

theorem operations {k m : Str} {oq : Dict Str Tree} (h : C86.At sq k m oq) :
    (k, m, oq) ∈ [(c!"/x", c!"get", aQ), (c!"/x", c!"put", bQ)] := by
  obtain ⟨iq, h1, h2⟩ := at_mem h (paths := paths) rfl
  simp only [paths, List.mem_cons, List.not_mem_nil, or_false, Prod.mk.injEq, Tree.dict.injEq] at h1
  obtain ⟨rfl, rfl⟩ := h1
  simp only [itemQ, List.mem_cons, List.not_mem_nil, or_false, Prod.mk.injEq, Tree.dict.injEq] at h2
  rcases h2 with ⟨rfl, rfl⟩ | ⟨rfl, rfl⟩ <;> simp

theorem labelled : Labelled sq := by
  intro k m oq h
  have := operations h
  simp only [List.mem_cons, List.not_mem_nil, or_false, Prod.mk.injEq] at this
  rcases this with ⟨-, -, rfl⟩ | ⟨-, -, rfl⟩
  · exact ⟨_, aIn⟩
  · exact ⟨_, bIn⟩

theorem inPlace : InPlace sq := by
  intro ps k iq h1 h2
  cases h1
  have := Dict.mem_of_get? h2
  simp only [paths, List.mem_cons, List.not_mem_nil, or_false, Prod.mk.injEq, Tree.dict.injEq] at this
  obtain ⟨-, rfl⟩ := this
  rfl

theorem a_at : C86.At sq c!"/x" c!"get" aQ := ⟨by decide, _, _, rfl, rfl, rfl⟩
theorem b_at : C86.At sq c!"/x" c!"put" bQ := ⟨by decide, _, _, rfl, rfl, rfl⟩

theorem names {k m n : Str} {oq : Dict Str Tree} (h : C86.At sq k m oq) (hc : Calls SCOPE_SEPARATOR oq n) :
    (k, m, n) ∈ [(c!"/x", c!"get", c!"t!##!##!b"), (c!"/x", c!"put", c!"u!##!b")] := by
  have := operations h
  simp only [List.mem_cons, List.not_mem_nil, or_false, Prod.mk.injEq] at this
  rcases this with ⟨rfl, rfl, rfl⟩ | ⟨rfl, rfl, rfl⟩
  · rw [calls_name aIn] at hc; cases hc; decide
  · rw [calls_name bIn] at hc; cases hc; decide

end Odd

/-- **C88, by id (refuted part).** With an id that holds the last character of the separator, an id that no other operation
has is not enough: `app.op['##!b']` raises `ValueError` next to the operation `b`. -/
theorem C88_id_false : ¬ ∀ (D T R : Tree) (p : Url) (sq : Dict Str Tree) (o : Objects.Outside) (d : Dict Str Nat), Loads D p T R →
    D = .dict sq → Labelled sq → InPlace sq → Index.index o R SCOPE_SEPARATOR = some (.ok d) →
    ∀ k m oq l i, C86.At sq k m oq → Label.In l oq → l.id = some i → i ≠ [] →
      (∀ k' m' oq' l', C86.At sq k' m' oq' → Label.In l' oq' → l'.id = some i → (k', m') = (k, m)) →
      ScopeDict.getitem SCOPE_SEPARATOR d (.plain i) = .ok (o.num [c!"paths", k, m]) := by
  intro H
  obtain ⟨r, h1, h2⟩ := C88_index (o := outside) Odd.loads rfl Odd.labelled Odd.inPlace SCOPE_SEPARATOR
  rcases h2 with ⟨-, k, m, oq, k', m', oq', n, hne, ha, hb, hc, hd⟩ | ⟨d, rfl, hwf, h3, -⟩
  · have e1 := Odd.names ha hc
    have e2 := Odd.names hb hd
    simp only [List.mem_cons, List.not_mem_nil, or_false, Prod.mk.injEq] at e1 e2
    rcases e1 with ⟨rfl, rfl, rfl⟩ | ⟨rfl, rfl, rfl⟩ <;>
      rcases e2 with ⟨rfl, rfl, e⟩ | ⟨rfl, rfl, e⟩ <;> first | exact absurd rfl hne | exact absurd e (by decide)
  · have h := H _ _ _ _ _ outside d Odd.loads rfl Odd.labelled Odd.inPlace h1 _ _ _ _ c!"##!b" Odd.a_at Odd.aIn rfl (by decide) (by
      intro k' m' oq' l' hat hin hi
      have := Odd.operations hat
      simp only [List.mem_cons, List.not_mem_nil, or_false, Prod.mk.injEq] at this
      rcases this with ⟨rfl, rfl, rfl⟩ | ⟨rfl, rfl, rfl⟩
      · rfl
      · rw [(label_unique hin Odd.bIn).2] at hi; cases hi)
    have hkeys : ∀ a ∈ d.keys, a = c!"t!##!##!b" ∨ a = c!"u!##!b" := by
      intro a ha
      obtain ⟨v, hv⟩ := Option.isSome_iff_exists.1 ((Dict.get?_isSome_iff d a).2 ha)
      obtain ⟨k, m, oq, hat, hc, -⟩ := (h3 _ _).1 hv
      have := Odd.names hat hc
      simp only [List.mem_cons, List.not_mem_nil, or_false, Prod.mk.injEq] at this
      rcases this with ⟨-, -, e⟩ | ⟨-, -, e⟩
      · exact .inl e
      · exact .inr e
    have k1 : c!"t!##!##!b" ∈ d.keys := (Dict.get?_isSome_iff d _).1 (by
      rw [(h3 c!"t!##!##!b" _).2 ⟨_, _, _, Odd.a_at, (calls_name Odd.aIn).2 rfl, rfl⟩]; rfl)
    have k2 : c!"u!##!b" ∈ d.keys := (Dict.get?_isSome_iff d _).1 (by
      rw [(h3 c!"u!##!b" _).2 ⟨_, _, _, Odd.b_at, (calls_name Odd.bIn).2 rfl, rfl⟩]; rfl)
    have := C05.C05_ambiguous SCOPE_SEPARATOR (by decide) d c!"##!b" c!"##!b" (fun hm => by
        rcases hkeys _ hm with e | e <;> exact absurd e (by decide))
      ((Proofs.Scope.rsplitLast_iff (by decide) _ _).1 (by decide)) _ _ (by decide) k1 k2 (by decide) (by decide)
      (.inl fun a ha _ hz => by
        rw [← Proofs.Scope.rsplitLast_iff (by decide)] at hz
        rcases hkeys a ha with rfl | rfl <;> exact absurd hz (by decide))
    rw [this] at h
    cases h

end Props.C88
