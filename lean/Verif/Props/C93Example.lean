import Verif.Props.C93
/-!
# C93: concrete documents

A resource listing with two API declarations, in sixteen versions: the operation of the first one asks for an authorisation that is not
there or for one that is, the authorisation is complete or not, the two operations have the same name or not, a model refers to itself
or not.
-/

namespace Props.C93
namespace Pets
open Py Utils Tree _root_.Doc Upgrade Spec.Upgrade12 Spec.Pointed Spec.Model12 Props.C55 Props.C56 Props.C87 Props.C89 _root_.Create
open Spec.Rules12 (UnknownAuth FileUnconsumed)
open Spec.Refused12 (Circular Kinds)
open Props.C60 (ReadFrom ConsumesOk)
open Validate12 (className)
open Proofs.Closed12 (Closed)
open Spec.Service (text)

section
variable (a i s r : Bool)

def listing : Dict Str Tree :=
  [(c!"swaggerVersion", text c!"1.2"), (c!"apiVersion", text c!"1"),
   (c!"apis", .list [.dict [(c!"path", text c!"/pet")], .dict [(c!"path", text c!"/dog")]]),
   (c!"info", .dict [(c!"title", text c!"t"), (c!"description", text c!"d")]),
   (c!"authorizations", .dict [(c!"key", .dict
     [(c!"type", text c!"apiKey"), (c!"passAs", text c!"header"), (c!"keyname", if i then .atom .none else text c!"k")])])]

def auth : Str := if a then c!"other" else c!"key"
def friend : Str := if r then c!"Pet" else c!"string"
def second : Str := if s then c!"pet!##!a" else c!"dog"

def pets : Dict Str Tree :=
  [(c!"swaggerVersion", text c!"1.2"), (c!"basePath", text c!"https://h.com/api"),
   (c!"apis", .list [.dict [(c!"path", text c!"/pet"), (c!"operations", .list [.dict
     [(c!"method", text c!"GET"), (c!"nickname", text c!"a!##!b"), (c!"type", text c!"Pet"),
      (c!"authorizations", .dict [(auth a, .list [])]), (c!"parameters", .list [])]])]]),
   (c!"models", .dict [(c!"Pet", .dict [(c!"id", text c!"Pet"), (c!"properties", .dict [(c!"friend", .dict [(c!"type", text (friend r))])])])])]

def dogs : Dict Str Tree :=
  [(c!"swaggerVersion", text c!"1.2"), (c!"basePath", text c!"https://h.com/api"),
   (c!"apis", .list [.dict [(c!"path", text c!"/dog"), (c!"operations", .list [.dict
     [(c!"method", text c!"GET"), (c!"nickname", text c!"b"), (c!"type", text c!"string"), (c!"parameters", .list [])]])]])]

def declarations : List (Str × Tree) := [(c!"pet", .dict (pets a r)), (second s, .dict dogs)]

def pet : Model := { id := some c!"Pet", properties := [(c!"friend", { type := some (friend r) })] }
def getPet : Operation := { nickname := c!"a!##!b", method := some c!"GET", type := some c!"Pet", authorizations := [(auth a, [])] }
def getDog : Operation := { nickname := c!"b", method := some c!"GET", type := some c!"string" }
def petR : Resource :=
  { basePath := some c!"https://h.com/api", apis := [(c!"a!##!b", some c!"/pet", getPet a)], models := [(c!"Pet", pet r)] }
def dogR : Resource := { basePath := some c!"https://h.com/api", apis := [(c!"b", some c!"/dog", getDog)] }
def list : ResourceList :=
  { apiVersion := .str c!"1", info := some { title := .str c!"t", description := .str c!"d" },
    authorizations := [(c!"key", { type := some c!"apiKey", passAs := .str c!"header", keyname := if i then .none else .str c!"k" })],
    apis := [(c!"pet", petR a r), (second s, dogR)] }
end

variable {a i s r : Bool}

theorem read : _root_.Upgraded.read (listing i) (declarations a s r) = some (list a i s r) := by
  cases a <;> cases i <;> cases s <;> cases r <;> rfl

theorem declares {n : Str} {x : Resource} {p : Option Str} {op : Operation} (h : Declares (list a i s r) n x p op) :
    n = c!"pet" ∧ x = petR a r ∧ p = some c!"/pet" ∧ op = getPet a ∨ n = second s ∧ x = dogR ∧ p = some c!"/dog" ∧ op = getDog := by
  obtain ⟨h1, k, h2⟩ := h
  simp only [list, List.mem_cons, List.not_mem_nil, or_false, Prod.mk.injEq] at h1
  rcases h1 with ⟨rfl, rfl⟩ | ⟨rfl, rfl⟩
  · simp only [petR, List.mem_singleton, Prod.mk.injEq] at h2
    exact .inl ⟨rfl, rfl, h2.2.1, h2.2.2⟩
  · simp only [dogR, List.mem_singleton, Prod.mk.injEq] at h2
    exact .inr ⟨rfl, rfl, h2.2.1, h2.2.2⟩

theorem at_pet {url m : Str} (h : At env0.lower (petR a r) (some c!"/pet") (getPet a) url m) :
    url = c!"https" ++ c!"://" ++ c!"h.com" ++ c!"/api/pet" ∧ m = c!"get" := by
  obtain ⟨b, q, x, hb, hq, rfl, hx, rfl⟩ := h
  cases hb
  cases hq
  cases hx
  exact ⟨rfl, by decide⟩

theorem at_dog {url m : Str} (h : At env0.lower dogR (some c!"/dog") getDog url m) :
    url = c!"https" ++ c!"://" ++ c!"h.com" ++ c!"/api/dog" ∧ m = c!"get" := by
  obtain ⟨b, q, x, hb, hq, rfl, hx, rfl⟩ := h
  cases hb
  cases hq
  cases hx
  exact ⟨rfl, by decide⟩

theorem has : Has (list a i s r) c!"pet" (pet r) := ⟨petR a r, c!"Pet", by simp [list], by simp [petR]⟩

theorem model {n : Str} {m : Model} (h : Has (list a i s r) n m) : n = c!"pet" ∧ m = pet r := by
  obtain ⟨x, k, h1, h2⟩ := h
  simp only [list, List.mem_cons, List.not_mem_nil, or_false, Prod.mk.injEq] at h1
  rcases h1 with ⟨rfl, rfl⟩ | ⟨rfl, rfl⟩
  · simp only [petR, List.mem_singleton, Prod.mk.injEq] at h2
    exact ⟨rfl, h2.2⟩
  · simp [dogR] at h2

theorem closed : Closed env0 (list a i s r) where
  responses n x p op hd _ := by
    rcases declares hd with ⟨rfl, rfl, rfl, rfl⟩ | ⟨rfl, rfl, rfl, rfl⟩
    · refine ⟨⟨?_, by rintro x ⟨⟩⟩, by rintro i ⟨⟩⟩
      rintro t ⟨⟩ - -
      exact ⟨_, has, rfl⟩
    · refine ⟨⟨?_, by rintro x ⟨⟩⟩, by rintro i ⟨⟩⟩
      rintro t ⟨⟩ - h
      exact absurd h (by decide)
  bodies n x p op hd y hy hb := by
    rcases declares hd with ⟨rfl, rfl, rfl, rfl⟩ | ⟨rfl, rfl, rfl, rfl⟩ <;> cases hy
  properties n m hm e he := by
    obtain ⟨rfl, rfl⟩ := model hm
    simp only [pet, List.mem_singleton] at he
    subst he
    refine ⟨⟨?_, by rintro x ⟨⟩⟩, by rintro i ⟨⟩⟩
    rintro t ht - h
    cases ht
    cases r
    · exact absurd h (by decide)
    · exact ⟨_, has, rfl⟩
  resources n x hn := by
    simp only [list, List.mem_cons, List.not_mem_nil, or_false, Prod.mk.injEq] at hn
    rcases hn with ⟨rfl, rfl⟩ | ⟨rfl, rfl⟩
    · exact ⟨by decide, by decide⟩
    · cases s <;> exact ⟨by decide, by decide⟩
  ids n m i hm hi := by
    obtain ⟨rfl, rfl⟩ := model hm
    cases hi; exact ⟨by decide, by decide⟩
  sep := ⟨by decide, by decide⟩
  methods n x p op url m hd ha := by
    rcases declares hd with ⟨rfl, rfl, rfl, rfl⟩ | ⟨rfl, rfl, rfl, rfl⟩
    · rw [(at_pet ha).2]; decide
    · rw [(at_dog ha).2]; decide

theorem upgrades : ∃ T, Upgrades env0 str0 (listing i) (declarations a s r) (list a i s r) T := by
  have h : (_root_.Upgraded.load env0 str0 (listing i) (declarations a s r)).isSome = true := by
    cases a <;> cases i <;> cases s <;> cases r <;> decide +kernel
  obtain ⟨T, hT⟩ := Option.isSome_iff_exists.1 h
  refine ⟨T, ?_, ?_, read, hT, closed⟩
  · cases i <;> simp [listing, text, Spec.Pointed.Plain, PlainDict, PlainList]
  · cases a <;> cases s <;> cases r <;>
      simp [declarations, pets, dogs, auth, friend, second, text, Spec.Pointed.Plain, PlainDict, PlainList]

theorem onSite : OnSite env0 (list a i s r) c!"https" c!"h.com" := by
  refine ⟨⟨by decide, by decide, by decide, by decide, by decide⟩, fun n x p op url m hd ha => ?_⟩
  rcases declares hd with ⟨rfl, rfl, rfl, rfl⟩ | ⟨rfl, rfl, rfl, rfl⟩
  · exact ⟨_, (at_pet ha).1, .inr ⟨_, rfl⟩⟩
  · exact ⟨_, (at_dog ha).1, .inr ⟨_, rfl⟩⟩

theorem distinct : Distinct env0 (list a i s r) where
  resources n x hn := by
    simp only [list, List.mem_cons, List.not_mem_nil, or_false, Prod.mk.injEq] at hn
    rcases hn with ⟨rfl, rfl⟩ | ⟨rfl, rfl⟩
    · decide
    · cases s <;> decide
  nicknames n x p op hd := by
    rcases declares hd with ⟨rfl, rfl, rfl, rfl⟩ | ⟨rfl, rfl, rfl, rfl⟩ <;> simp [getPet, getDog]
  alone n x p op url m hd ha := by
    intro n' x' p' op' hd' ha'
    rcases declares hd with ⟨rfl, rfl, rfl, rfl⟩ | ⟨rfl, rfl, rfl, rfl⟩ <;>
      rcases declares hd' with ⟨rfl, rfl, rfl, rfl⟩ | ⟨rfl, rfl, rfl, rfl⟩
    · exact ⟨rfl, rfl, rfl⟩
    · exact absurd ((at_pet ha).1.symm.trans (at_dog ha').1) (by decide)
    · exact absurd ((at_dog ha).1.symm.trans (at_pet ha').1) (by decide)
    · exact ⟨rfl, rfl, rfl⟩
  models n m n' m' h h' _ := by
    obtain ⟨rfl, rfl⟩ := model h
    obtain ⟨rfl, rfl⟩ := model h'
    exact ⟨rfl, rfl⟩

theorem kinds : Kinds (list a i s r) := fun n m h => by
  obtain ⟨rfl, rfl⟩ := model h
  exact ⟨⟨_, rfl⟩, trivial, trivial⟩

/-- no parameter -/
def plainly (_ : List Str) : Tree → Bool
  | .obj c _ => decide (className c ≠ c!"Parameter")
  | _ => true

/-- what the checks find; there are no parameters -/
theorem checks {raw : Tree} (h : ReadFrom (listing i) (declarations a s r) raw) : Validate12.errors (fun _ => []) raw =
    (if a then .error .KeyError else
      .ok (if i then [((c!"#/authorizations/key", c!"Authorization"), c!"need \"keyname\" for apiKey")] else [])) ∧
    C60.every plainly [] raw = true := by
  obtain ⟨rs, hf, hx⟩ := h
  have hall : ((_root_.Upgraded.eachOf (Doc12.parse Validate12.resource) (declarations a s r)).bind fun rs =>
      (Doc12.readList (.dict (listing i)) rs).map (Validate12.errors fun _ => [])) =
      some (if a then .error .KeyError else
        .ok (if i then [((c!"#/authorizations/key", c!"Authorization"), c!"need \"keyname\" for apiKey")] else [])) := by
    cases a <;> cases i <;> cases s <;> cases r <;> decide +kernel
  have hnone : ((_root_.Upgraded.eachOf (Doc12.parse Validate12.resource) (declarations a s r)).bind fun rs =>
      (Doc12.readList (.dict (listing i)) rs).map (C60.every plainly [])) = some true := by
    cases a <;> cases i <;> cases s <;> cases r <;> decide +kernel
  have he : _root_.Upgraded.eachOf (Doc12.parse Validate12.resource) (declarations a s r) = some rs := by
    clear hall hnone hx
    generalize declarations a s r = js at hf
    induction hf with
    | nil => rfl
    | @cons x y l m hxy _ ih =>
      obtain ⟨k, j⟩ := x
      obtain ⟨k', v⟩ := y
      obtain ⟨rfl, hr⟩ := hxy
      have hr : Doc12.parse Validate12.resource j = some v := hr
      unfold _root_.Upgraded.eachOf at ih ⊢
      simp only [_root_.Upgraded.each, ih, hr, Option.map_some]
  rw [he] at hall hnone
  simp only [Option.bind_some] at hall hnone
  have hx : Doc12.readList (.dict (listing i)) rs = some raw := hx
  rw [hx] at hall hnone
  exact ⟨Option.some.inj hall, Option.some.inj hnone⟩

theorem not_clash : ¬ Clash env0 (list a i false r) c!"https" c!"h.com" := by
  obtain ⟨T, h⟩ := upgrades (a := a) (i := i) (s := false) (r := r)
  refine C93_apart h (c := '!') (rest := c!"##!") rfl fun n x hn => ?_
  simp only [list, List.mem_cons, List.not_mem_nil, or_false, Prod.mk.injEq] at hn
  rcases hn with ⟨rfl, rfl⟩ | ⟨rfl, rfl⟩ <;> decide

theorem declared_pet : Declared12 env0 (list a i s r) c!"https" c!"h.com" c!"pet" (getPet a) c!"/api/pet" c!"get" :=
  ⟨petR a r, some c!"/pet", ⟨by simp [list], c!"a!##!b", by simp [petR]⟩, _, _, _, rfl, rfl, rfl, rfl, rfl⟩

theorem declared_dog : Declared12 env0 (list a i s r) c!"https" c!"h.com" (second s) getDog c!"/api/dog" c!"get" :=
  ⟨dogR, some c!"/dog", ⟨by simp [list], c!"b", by simp [dogR]⟩, _, _, _, rfl, rfl, rfl, rfl, rfl⟩

/-- the resource `pet` with the nickname `a!##!b`, and the resource `pet!##!a` with the nickname `b` -/
theorem clash : Clash env0 (list a i true r) c!"https" c!"h.com" :=
  ⟨_, _, _, _, _, _, _, _, declared_pet, declared_dog, by decide, by simp only [getPet]; decide⟩

theorem circular : Circular env0 (list a i s true) :=
  ⟨(c!"pet", pet true), .single (.property (k := c!"friend") (p := { type := some c!"Pet" }) has has rfl rfl
    ⟨by decide, .inl ⟨rfl, by decide⟩⟩)⟩

theorem not_circular : ¬ Circular env0 (list a i s false) := by
  have hno : ∀ x y, ¬ Spec.Refused12.Uses env0 (list a i s false) x y := by
    intro x y h
    cases h with
    | @property n m m' k p i h1 h2 h3 h4 h5 =>
      obtain ⟨rfl, rfl⟩ := model h1
      obtain ⟨-, rfl⟩ := model h2
      have := Dict.mem_of_get? h4
      simp only [pet, List.mem_singleton, Prod.mk.injEq] at this
      obtain ⟨rfl, rfl⟩ := this
      rcases h5 with ⟨-, ⟨h, h'⟩ | ⟨-, h⟩⟩
      · cases h
        exact absurd h' (by decide)
      · cases h
    | @items n m m' k p it i h1 h2 h3 h4 h5 h6 =>
      obtain ⟨rfl, rfl⟩ := model h1
      have := Dict.mem_of_get? h4
      simp only [pet, List.mem_singleton, Prod.mk.injEq] at this
      obtain ⟨rfl, rfl⟩ := this
      cases h5
    | @base n m n' m' h1 h2 =>
      obtain ⟨h, t, ht, -⟩ := h2
      obtain ⟨-, rfl⟩ := model h
      cases ht
  rintro ⟨x, h⟩
  cases h with
  | single h => exact hno _ _ h
  | tail _ h => exact hno _ _ h

section
variable [LinearOrder Str] {o : Objects.Outside} {u : Py.Url}

/-- all sixteen documents, strict or not -/
theorem outcome (hu : Canon u) (hf : u.fragment = []) (order : List Atom → List Atom) (a i s r strict : Bool) : ∃ f0, ∀ fuel ≥ f0, ∀ c,
    c = create12 env0 str0 (fun _ => []) o (urlunparse u) (listing i) (declarations a s r) order fuel strict →
    if a then c = some (.error .KeyError)
    else if strict && i then c = some (.error .ValidationError)
    else if s then c = some (.error .SchemaError)
    else if strict && r then c = some (.error .CycleDetectionError)
    else ∃ op m, c = some (.ok (op, m)) ∧ Dict.get? op c!"pet!##!a!##!b" = some (o.num [c!"paths", c!"/api/pet", c!"get"]) ∧
      Dict.get? op c!"dog!##!b" = some (o.num [c!"paths", c!"/api/dog", c!"get"]) ∧ Dict.get? op c!"dog!##!a" = none ∧
      ScopeDict.getitem env0.sep m (.tuple [some c!"pet", some c!"Pet"]) = .ok (o.num [c!"definitions", c!"pet!##!Pet"]) := by
  obtain ⟨T, h⟩ := upgrades (a := a) (i := i) (s := s) (r := r)
  obtain ⟨raw, f0, hraw, hall⟩ := C93_create (o := o) h onSite distinct kinds hu hf (fun _ => []) order
  refine ⟨f0, fun fuel hfuel c hc => ?_⟩
  obtain ⟨p0, p1⟩ := hall fuel hfuel strict c hc
  obtain ⟨hck, hpl⟩ := checks hraw
  have hin := Proofs.Listing12.read_in h.read
  have S := C60.C60_shaped h.plain (fun k j hm => ⟨by
    have := h.plains
    rw [Spec.Pointed.Plain] at this
    exact Proofs.Placed.plainDict_iff.1 this.2 _ hm, consumes_ok hin hm⟩) (by
    have := h.plains
    rw [Spec.Pointed.Plain] at this
    exact this.1) hraw
  cases a with
  | true =>
    rw [if_pos rfl] at hck
    rcases C60.C60_exception S hck with ⟨-, h⟩ | ⟨h, -⟩
    · rcases p0 (.inl h) with ⟨h, -⟩ | ⟨-, h⟩
      · exact h
      · exfalso
        obtain ⟨ts, c, fs, op, hat, hc, -⟩ := h
        have := C60.every_at hat hpl rfl
        exact of_decide_eq_true this hc
    · cases h
  | false =>
    rw [if_neg (by decide)] at hck
    have hno : ¬ (UnknownAuth className raw ∨ FileUnconsumed className raw) := by
      intro hh
      obtain ⟨e, he⟩ := (C60.C60_raises (str := fun _ => []) S).2 hh
      rw [hck] at he
      cases he
    rw [not_or] at hno
    obtain ⟨q1, q2, q3, q4⟩ := p1 hno.1 hno.2
    obtain ⟨errs, he, -, hmem⟩ := C60.C60_errors (str := fun _ => []) S hno.1 hno.2
    rw [hck] at he
    have he := Except.ok.inj he
    have hinv : Invalid (fun _ => []) raw ↔ i = true := by
      constructor
      · rintro ⟨ts, c, fs, m, b1, b2⟩
        have := (hmem _).2 ⟨ts, c, fs, m, b1, b2, rfl⟩
        rw [← he] at this
        cases i
        · cases this
        · rfl
      · rintro rfl
        obtain ⟨ts, c, fs, m, b1, b2, -⟩ := (hmem _).1 (by rw [← he]; exact List.mem_singleton.2 rfl)
        exact ⟨ts, c, fs, m, b1, b2⟩
    rw [if_neg (by decide)]
    rw [hinv] at q1 q2 q3 q4
    by_cases h1 : (strict && i) = true
    · rw [if_pos h1]
      rw [Bool.and_eq_true] at h1
      exact q1 h1.1 h1.2
    · rw [if_neg h1]
      rw [Bool.and_eq_true] at h1
      cases s with
      | true => exact q2 h1 clash
      | false =>
        rw [if_neg (by decide)]
        by_cases h2 : (strict && r) = true
        · rw [if_pos h2]
          rw [Bool.and_eq_true] at h2
          obtain ⟨rfl, rfl⟩ := h2
          exact q3 (fun h => h1 ⟨rfl, h⟩) not_clash rfl circular
        · rw [if_neg h2]
          rw [Bool.and_eq_true] at h2
          obtain ⟨op, m, e, -, g1, g2, -⟩ := q4 (by
            rintro ⟨rfl, h | h⟩
            · exact h1 ⟨rfl, h⟩
            · cases r
              · exact not_circular h
              · exact h2 ⟨rfl, rfl⟩) not_clash
          refine ⟨op, m, e, (g1 _ _).2 ⟨_, _, _, _, declared_pet, rfl, rfl⟩, (g1 _ _).2 ⟨_, _, _, _, declared_dog, rfl, rfl⟩, ?_,
            g2 _ _ _ has rfl (by decide)⟩
          cases hg : Dict.get? op c!"dog!##!a" with
          | none => rfl
          | some x =>
            obtain ⟨n, op', k, v, ⟨y, p, hd, -⟩, e, -⟩ := (g1 _ _).1 hg
            rcases declares hd with ⟨rfl, rfl, rfl, rfl⟩ | ⟨rfl, rfl, rfl, rfl⟩
            · exact absurd e (by simp only [getPet]; decide)
            · exact absurd e (by simp only [getDog]; decide)

end

/-- a listing without the Info Object -/
def bare : Dict Str Tree := [(c!"swaggerVersion", text c!"1.2"), (c!"apis", .list [])]

/-- **C93, documents that cannot be converted**: one without Info Object -/
example [LinearOrder Str] {o : Objects.Outside} (url : Str) (order : List Atom → List Atom) (fuel : Nat) (strict : Bool) :
    create12 env0 str0 (fun _ => []) o url bare [] order fuel strict = some (.error .AttributeError) :=
  C93_upgrade (l := { }) rfl rfl _ _ _ _ _

end Pets

open Py Utils Tree Props.C55

/-- **C93** refuted for applications that are not strict: a document with an operation that asks for an authorisation the listing does
not have is refused with a `KeyError`, though nothing was to be checked. -/
theorem C93_lenient_false [LinearOrder Str] {o : Objects.Outside} {u : Py.Url} (hu : Canon u) (hf : u.fragment = [])
    (order : List Atom → List Atom) :
    ∃ listing declarations f0, ∀ fuel ≥ f0,
      _root_.Create.create12 env0 str0 (fun _ => []) o (urlunparse u) listing declarations order fuel false = some (.error .KeyError) := by
  obtain ⟨f0, h⟩ := Pets.outcome (o := o) hu hf order true false false false false
  exact ⟨_, _, f0, fun fuel hfuel => h fuel hfuel _ rfl⟩

end Props.C93
