import Verif.Props.C91
import Verif.Props.C89Example
/-!
# C91: a concrete 1.2 document

Dogs are animals; the discriminator is declared for animals. An operation takes a dog and returns one.
-/

namespace Props.C91
open Py Utils Tree _root_.Doc Upgrade Spec.Upgrade12 Spec.Listing12 Spec.Document20 Spec.Pointed Spec.Data12 Spec.Model12 Props.C55 Props.C56 Props.C87 Props.C89
open Proofs.Closed12 (Closed)
open Spec.Service (text)
open Spec (rfcEscape)

namespace Zoo
open Props.C89.Items (envI python)

def listing : Dict Str Tree :=
  [(c!"swaggerVersion", text c!"1.2"), (c!"apis", .list [.dict [(c!"path", text c!"/zoo")]]),
   (c!"info", .dict [(c!"title", text c!"t"), (c!"description", text c!"d")])]

def animalQ (rest : Dict Str Tree) : Dict Str Tree :=
  [(c!"id", text c!"Animal"), (c!"discriminator", text c!"kind"), (c!"required", .list [text c!"kind"]), (c!"subTypes", .list [text c!"Dog"]),
   (c!"properties", .dict ([(c!"kind", .dict [(c!"type", text c!"string")])] ++ rest))]
def dogQ : Dict Str Tree :=
  [(c!"id", text c!"Dog"), (c!"required", .list [text c!"bark"]), (c!"properties", .dict [(c!"bark", .dict [(c!"type", text c!"integer"), (c!"minimum", text c!"1")])])]

def declaration (rest : Dict Str Tree) : Dict Str Tree :=
  [(c!"swaggerVersion", text c!"1.2"), (c!"basePath", text c!"https://h.com/api"),
   (c!"apis", .list [.dict [(c!"path", text c!"/dogs"), (c!"operations", .list [.dict
     [(c!"method", text c!"POST"), (c!"nickname", text c!"add"), (c!"type", text c!"Dog"), (c!"parameters", .list [.dict
       [(c!"name", text c!"dog"), (c!"paramType", text c!"body"), (c!"type", text c!"Dog")]])]])]]),
   (c!"models", .dict [(c!"Animal", .dict (animalQ rest)), (c!"Dog", .dict dogQ)])]

def kind : Property := { type := some c!"string" }
def bark : Property := { type := some c!"integer", minimum := .str c!"1" }
def animal : Model :=
  { id := some c!"Animal", required := .list [.str c!"kind"], properties := [(c!"kind", kind)], subTypes := [c!"Dog"],
    discriminator := .str c!"kind" }
def dog : Model := { id := some c!"Dog", required := .list [.str c!"bark"], properties := [(c!"bark", bark)] }
def body : Param := { name := some c!"dog", paramType := some c!"body", type := some c!"Dog" }
def op : Operation := { nickname := c!"add", method := some c!"POST", type := some c!"Dog", parameters := [body] }
def resource : Resource :=
  { basePath := some c!"https://h.com/api", apis := [(c!"add", some c!"/dogs", op)],
    models := [(c!"Animal", animal), (c!"Dog", dog)] }
def list : ResourceList :=
  { info := some { title := .str c!"t", description := .str c!"d" }, apis := [(c!"zoo", resource)] }

theorem read : _root_.Upgraded.read listing [(c!"zoo", .dict (declaration []))] = some list := by rfl

theorem declares {n : Str} {r : Resource} {p : Option Str} {o : Operation} (h : Declares list n r p o) :
    n = c!"zoo" ∧ r = resource ∧ p = some c!"/dogs" ∧ o = op := by
  obtain ⟨h1, k, h2⟩ := h
  simp only [list, List.mem_singleton, Prod.mk.injEq] at h1
  obtain ⟨rfl, rfl⟩ := h1
  simp only [resource, List.mem_singleton, Prod.mk.injEq] at h2
  exact ⟨rfl, rfl, h2.2.1, h2.2.2⟩

theorem at_op {url m : Str} (h : At envI.lower resource (some c!"/dogs") op url m) :
    url = c!"https" ++ c!"://" ++ c!"h.com" ++ c!"/api/dogs" ∧ m = c!"post" := by
  obtain ⟨b, q, x, hb, hq, rfl, hx, rfl⟩ := h
  cases hb
  cases hq
  cases hx
  exact ⟨rfl, by decide⟩

theorem models {n : Str} {m : Model} (h : HasModel list n m) : n = c!"zoo" ∧ (m = animal ∨ m = dog) := by
  obtain ⟨r, k, h1, h2⟩ := h
  simp only [list, List.mem_singleton, Prod.mk.injEq] at h1
  obtain ⟨rfl, rfl⟩ := h1
  simp only [resource, List.mem_cons, List.not_mem_nil, or_false, Prod.mk.injEq] at h2
  exact ⟨rfl, h2.imp And.right And.right⟩

theorem has_animal : HasModel list c!"zoo" animal := ⟨resource, c!"Animal", by simp [list], by simp [resource]⟩
theorem has_dog : HasModel list c!"zoo" dog := ⟨resource, c!"Dog", by simp [list], by simp [resource]⟩

theorem refers_dog {d : DataType} (h1 : d.type = some c!"Dog") (h2 : d.ref = none) (h3 : d.items = none) :
    Proofs.Closed12.Refers envI list c!"zoo" d := by
  refine ⟨⟨fun t ht _ _ => ?_, fun x hx => ?_⟩, fun i hi => ?_⟩
  · rw [h1] at ht; cases ht; exact ⟨dog, has_dog, rfl⟩
  · rw [h2] at hx; cases hx
  · rw [h3] at hi; cases hi

theorem closed : Closed envI list where
  responses n r p o hd _ := by
    obtain ⟨rfl, rfl, rfl, rfl⟩ := declares hd
    exact refers_dog rfl rfl rfl
  bodies n r p o hd x hx hb := by
    obtain ⟨rfl, rfl, rfl, rfl⟩ := declares hd
    simp only [op, List.mem_singleton] at hx
    subst hx
    exact refers_dog rfl rfl rfl
  properties n m hm e he := by
    obtain ⟨rfl, rfl | rfl⟩ := models hm
    · simp only [animal, List.mem_singleton] at he
      subst he
      refine ⟨⟨?_, by rintro x ⟨⟩⟩, by rintro i ⟨⟩⟩
      rintro t ⟨⟩ - h
      exact absurd h (by decide)
    · simp only [dog, List.mem_singleton] at he
      subst he
      refine ⟨⟨?_, by rintro x ⟨⟩⟩, by rintro i ⟨⟩⟩
      rintro t ⟨⟩ - h
      exact absurd h (by decide)
  resources n r hn := by
    simp only [list, List.mem_singleton, Prod.mk.injEq] at hn
    rw [hn.1]; exact ⟨by decide, by decide⟩
  ids n m i hm hi := by
    obtain ⟨rfl, rfl | rfl⟩ := models hm <;> cases hi <;> exact ⟨by decide, by decide⟩
  sep := ⟨by decide, by decide⟩
  methods n r p o url m hd ha := by
    obtain ⟨rfl, rfl, rfl, rfl⟩ := declares hd
    rw [(at_op ha).2]; decide

theorem upgrades : ∃ T, Upgrades envI str0 listing [(c!"zoo", .dict (declaration []))] list T := by
  have h : (_root_.Upgraded.load envI str0 listing [(c!"zoo", .dict (declaration []))]).isSome = true := by decide +kernel
  obtain ⟨T, hT⟩ := Option.isSome_iff_exists.1 h
  exact ⟨T, by simp [listing, text, Spec.Pointed.Plain, PlainDict, PlainList],
    by simp [declaration, animalQ, dogQ, text, Spec.Pointed.Plain, PlainDict, PlainList], read, hT, closed⟩

theorem onSite : OnSite envI list c!"https" c!"h.com" := by
  refine ⟨⟨by decide, by decide, by decide, by decide, by decide⟩, fun n r p op url m hd ha => ?_⟩
  obtain ⟨rfl, rfl, rfl, rfl⟩ := declares hd
  exact ⟨_, (at_op ha).1, .inr ⟨_, rfl⟩⟩

theorem operation : Op12 envI list c!"https" c!"h.com" c!"zoo" resource op c!"/api/dogs" c!"post" :=
  ⟨⟨some c!"/dogs", ⟨by simp [list], c!"add", by simp [resource]⟩, _, _, _, rfl, rfl, rfl, rfl, rfl⟩,
    fun n' r' p' op' hd' _ => by obtain ⟨rfl, rfl, -, rfl⟩ := declares hd'; exact ⟨rfl, rfl, rfl⟩⟩

theorem parameters : Parameters12 op where
  names x hx := by
    simp only [op, List.mem_singleton] at hx
    subst hx; decide
  locations x hx := by
    simp only [op, List.mem_singleton] at hx
    subst hx; decide
  distinct := by decide

/-! models -/

theorem one : Limit envI (.str c!"1") ((1 : Int) : Rat) := Props.C89.Items.one

theorem reach_bark : Spec.Model12.Reach envI False bark.toDataType := by
  refine .basic c!"integer" rfl (by decide) (.inl rfl) rfl (.integer (by decide) (by rintro l ⟨⟩)) (.inr ⟨by simp [Falsy, bark], ?_⟩) (.inl rfl) (by rintro v ⟨⟩)
  intro _ m hm
  have : (Except.ok (PyFloat.fin m) : Except Exc PyFloat) = .ok (.fin ((1 : Int) : Rat)) := hm.symm.trans one
  cases this; exact ⟨1, rfl⟩

theorem reach_kind : Spec.Model12.Reach envI False kind.toDataType :=
  .basic c!"string" rfl (by decide) (.inl rfl) rfl (.string (by decide) (by rintro f ⟨⟩)) (.inl rfl) (.inl rfl) (by rintro v ⟨⟩)

theorem base {n n' : Str} {m b : Model} (h : Base envI list n m n' b) (hm : HasModel list n m) : m = dog ∧ b = animal ∧ n' = c!"zoo" := by
  obtain ⟨hb, t, ht, hk⟩ := h
  obtain ⟨rfl, rfl | rfl⟩ := models hb
  · simp only [animal, List.mem_singleton] at ht
    subst ht
    obtain ⟨rfl, rfl | rfl⟩ := models hm
    · exact absurd hk (by decide)
    · exact ⟨rfl, rfl, rfl⟩
  · cases ht

theorem modelled {n : Str} {m : Model} (hm : Has list n m) : Modelled envI list False n m where
  id := by obtain ⟨rfl, rfl | rfl⟩ := models hm <;> exact ⟨_, rfl, by decide⟩
  alone n' m' hm' e := by
    obtain ⟨rfl, rfl | rfl⟩ := models hm <;> obtain ⟨rfl, rfl | rfl⟩ := models hm' <;>
      first | exact ⟨rfl, rfl⟩ | exact absurd e (by decide)
  properties e he := by
    obtain ⟨rfl, rfl | rfl⟩ := models hm
    · simp only [animal, List.mem_singleton] at he
      subst he; exact reach_kind
    · simp only [dog, List.mem_singleton] at he
      subst he; exact reach_bark
  discriminator k hk := by
    obtain ⟨rfl, rfl | rfl⟩ := models hm
    · cases hk
      exact ⟨kind, c!"string", rfl, rfl, by decide, by decide, .inl rfl, rfl, by rintro l ⟨⟩⟩
    · cases hk
  subTypes t ht := by
    obtain ⟨rfl, rfl | rfl⟩ := models hm
    · simp only [animal, List.mem_singleton] at ht
      subst ht; decide
    · cases ht
  kept := by
    rintro ⟨n', b, hb⟩
    obtain ⟨rfl, -⟩ := base hb hm
    exact ⟨c!"bark", bark, ⟨_, rfl, by simp⟩, rfl⟩
  flat n' b hb n'' c hc := by
    obtain ⟨-, rfl, rfl⟩ := base hb hm
    obtain ⟨e, -⟩ := base hc has_animal
    cases e
  apart n' b hb k p hk := by
    obtain ⟨rfl, rfl, rfl⟩ := base hb hm
    simp only [dog, Dict.get?] at hk
    split at hk
    · rename_i e; subst e; rfl
    · cases hk
  apart' n' b n'' c hb hc := by
    obtain ⟨-, rfl, rfl⟩ := base hb hm
    obtain ⟨-, rfl, rfl⟩ := base hc hm
    exact .inl ⟨rfl, rfl⟩

theorem all : All envI list False := fun _ _ h => modelled h

theorem separate : Separate envI list where
  sep := by decide
  resources n r hn := by
    simp only [list, List.mem_singleton, Prod.mk.injEq] at hn
    rw [hn.1]; decide
  ids n m i hm hi := by
    obtain ⟨rfl, rfl | rfl⟩ := models hm <;> cases hi <;> decide

theorem is_dog {d : DataType} (h : d.type = some c!"Dog") : Is envI d c!"Dog" := ⟨by decide, .inl ⟨h, by decide⟩⟩

theorem body12 : Body12 envI list c!"https" c!"h.com" c!"zoo" resource op c!"/api/dogs" c!"post" body c!"dog" False where
  operation := operation
  parameters := parameters
  scopes := by intro x hx; cases hx
  parameter := by simp [op]
  name := rfl
  location := rfl
  only y hy _ := by simpa [op] using hy
  reach := .model c!"Dog" (is_dog rfl) (by rintro v ⟨⟩)
  models := all
  python := python

theorem result12 : Result12 envI list c!"https" c!"h.com" c!"zoo" resource op c!"/api/dogs" c!"post" False where
  operation := operation
  value := by decide
  reach := .model c!"Dog" (is_dog rfl) (by rintro v ⟨⟩)
  models := all
  python := python

theorem only_dog {d : DataType} {i : Str} (h : Is envI d i) (h1 : d.type = some c!"Dog") : i = c!"Dog" := by
  obtain ⟨-, ⟨e, -⟩ | ⟨e, -⟩⟩ := h
  · rw [h1] at e; exact (Option.some.inj e).symm
  · exact absurd (e _ h1).1 (by decide)

/-- what is allowed for dogs: they bark, once at least -/
theorem barks {form : Str → Str → Prop} {d : DataType} {val : Val} (h1 : d.type = some c!"Dog") (h : Instance envI list form False c!"zoo" d val) :
    ∃ es k, val = .dict es ∧ Dict.get? es c!"bark" = some (.int k) ∧ 1 ≤ k := by
  cases h with
  | null h => exact h.elim
  | integer e h => rw [h1] at e; cases e; exact absurd h (by decide)
  | number e h => rw [h1] at e; cases e; exact absurd h (by decide)
  | boolean e h => rw [h1] at e; cases e; exact absurd h (by decide)
  | string e h => rw [h1] at e; cases e; exact absurd h (by decide)
  | array e h => rw [h1] at e; cases e; exact absurd h (by decide)
  | @model _ i m es hi hm hid _ hreq hprop _ =>
    have := only_dog hi h1
    subst this
    obtain ⟨-, rfl | rfl⟩ := models hm
    · cases hid
    · obtain ⟨v, hv⟩ := hreq c!"bark" ⟨_, rfl, by simp⟩
      have hb := hprop c!"bark" bark v rfl hv
      refine ⟨es, ?_⟩
      cases hb with
      | null h => exact h.elim
      | @integer _ _ k _ _ hbet => exact ⟨k, rfl, hv, Rat.intCast_le_intCast.1 (hbet.min _ one)⟩
      | number e h => cases e; exact absurd h (by decide)
      | boolean e h => cases e; exact absurd h (by decide)
      | string e h => cases e; exact absurd h (by decide)
      | array e h => cases e; exact absurd h (by decide)
      | model h => exact absurd (h.2.resolve_right (fun h => absurd (h.1 _ rfl).1 (by decide))).2 (by
          rw [← (Option.some.inj (h.2.resolve_right (fun h => absurd (h.1 _ rfl).1 (by decide))).1)]; decide)

section
open Prim Call Io Core Ask Spec.Described Spec.Conform Spec.Wire Proofs.Wire Props.C79
variable {w : World.Outside} {e : Prim.Env World.Atom} {form : Str → Str → Prop}

/-- whatever is given for the body, what is sent is a dog and says so -/
example (hw : C74.Sound w) (he : ∀ l, (e.order l).Perm l) {enc : Prim.Json.Enc World.Atom} (hf : Forms (World.env w e) enc.toJson form) {o : Objects.Outside}
    (hver : o.version12 = true) {u : Py.Url} (hu : Canon u) (hfr : u.fragment = []) {leaf : Prim World.Atom → Except Exc Str}
    {renv : Io.Env (Prim World.Atom) Nat Str} {files : FileArg World.Atom → FileVal} {k : Dict Str Val} {v : Val}
    (hk : Dict.get? k c!"dog" = some v) (hv : Proper False v) : ∃ T s sq R, Service12 envI str0 list T s sq u R c!"https" c!"h.com" ∧
    ∃ b, ∀ mfuel, b ≤ mfuel → ∀ rounds, b ≤ rounds → ∀ deref, ∃ y ps,
      Index.operation o (urlunparse u) R id mfuel deref (o.num [c!"paths", c!"/api/dogs", c!"post"]) = some (y, ps) ∧
      ∀ {fuel : Nat} {rq : Req (Prim World.Atom) Str} {c : Client} {opt : Dict Str (Option Str)} {hs : HeadersArg}
        {res : SendResult (Prim World.Atom) Str},
      ask (World.env w (Objects.env o (urlunparse u) R id mfuel rounds e)) leaf fuel ps files y k = .ok rq →
      send renv y c opt hs rq = .ok res → rq.p.file = [] → rq.p.formData = [] →
      (∀ b d, renv.marshal (C24.bodyType y.consumes rq.consume) b d = Prim.Json.marshal enc b) →
      ∃ z, ∀ val, C70.jsonOf enc.toJson z = .ok val → Spec.Json.Plain enc.repr val →
          ∃ body es n, res.sent.data = .payload body ∧ Spec.Json.readJson body = some (.dict es) ∧
            Dict.get? es c!"kind" = some (.str c!"Dog") ∧ Dict.get? es c!"bark" = some (.int n) ∧ 1 ≤ n := by
  obtain ⟨T, hT⟩ := upgrades
  obtain ⟨s, sq, R, h⟩ := service hT onSite hu hfr
  refine ⟨T, s, sq, R, h, ?_⟩
  obtain ⟨b, hb⟩ := C91_body (o := o) (order := id) (files := files) (leaf := leaf) (renv := renv) h (fun _ => List.Perm.refl _) he body12 hw hf hk hv
  refine ⟨b, fun mfuel hm rounds hr deref => ?_⟩
  obtain ⟨y, ps, h1, -, h2⟩ := hb mfuel hm rounds hr deref
  refine ⟨y, ps, h1, fun hask hsend hfile hfd hmar => ?_⟩
  obtain ⟨j, z, -, -, h3⟩ := h2 hask hsend hfile hfd hmar
  refine ⟨z, fun val hval hpl => ?_⟩
  obtain ⟨body, k1, k2, k3, k4⟩ := h3 val hval hpl
  obtain ⟨es, n, rfl, g1, g2⟩ := barks rfl k3
  refine ⟨body, es, n, k1, k2, ?_, g1, g2⟩
  have := k4 hver separate
  cases this with
  | single _ h => exact absurd rfl (h es)
  | model hi _ _ _ htag =>
    have := only_dog hi rfl
    subst this
    exact htag animal c!"kind" has_animal (by simp [animal]) rfl

/-- what is returned is a dog -/
example {ω : Type} {penv : Prim.Env ω} {out : Reply.Outside} {toJson : AtomKind → ω → Except Exc Str} (he : ∀ l, (penv.order l).Perm l)
    (hreg : penv.reg = builtins) (hform : Forms penv toJson form) {T R : Tree} {s : Swagger} {sq : Dict Str Tree} {u : Py.Url}
    (h : Service12 envI str0 list T s sq u R c!"https" c!"h.com") {o : Objects.Outside}
    (hlow : out.text.lower c!"content-type" = c!"content-type") {raw : Bytes ⊕ Str} (status : Int) (hd : Option (List (Str × Str)))
    (hval : ∀ ct v, Codec.withCodec out.text out.codecs ct (out.unmarshal raw) = .ok v → Proper False v) :
    ∃ b, ∀ mfuel, b ≤ mfuel → ∀ rounds, b ≤ rounds → ∃ table,
      Objects.table o (urlunparse u) R id mfuel [(c!"default", o.num [c!"paths", c!"/api/dogs", c!"post", c!"responses", c!"default"])] = some table ∧
      ∀ stack rv, rv = Reply.renv out (Objects.env o (urlunparse u) R id mfuel rounds penv) stack →
        (applyWith rv table { Resp.init with rawBodyOnly := false } ⟨some status, some raw, hd⟩).2 = none →
        ∃ x, (applyWith rv table { Resp.init with rawBodyOnly := false } ⟨some status, some raw, hd⟩).1.data = some x ∧
          ∀ val, C70.jsonOf toJson x = .ok val → Spec.Json.nonfinite val = false →
            ∃ es n, val = .dict es ∧ Dict.get? es c!"bark" = some (.int n) ∧ 1 ≤ n := by
  obtain ⟨b, hb⟩ := C91_data (o := o) (order := id) h (fun _ => List.Perm.refl _) he hreg result12 hform hlow [] ⟨some status, some raw, hd⟩ rfl (z := status) rfl hval
  refine ⟨b, fun mfuel hm rounds hr => ?_⟩
  obtain ⟨table, e1, e2⟩ := hb mfuel hm rounds hr
  refine ⟨table, e1, fun stack rv hrv hok => ?_⟩
  obtain ⟨x, k1, k2⟩ := e2 stack rv hrv hok
  exact ⟨x, k1, fun val hval hfin => barks rfl (k2 val hval hfin)⟩

end

/-- a property with a limit of `0` -/
def odd : Dict Str Tree := [(c!"age", .dict [(c!"type", text c!"integer"), (c!"minimum", .atom (.int 0))])]

end Zoo

/-- **C91** refuted for limits of `0`: the limit is dropped, so that any integer passes. -/
theorem C91_limits_false : ∃ l s d sc, _root_.Upgraded.read Zoo.listing [(c!"zoo", .dict (Zoo.declaration Zoo.odd))] = some l ∧
    upgrade Items.envI str0 l = .ok s ∧ Dict.get? s.definitions c!"zoo!##!Animal" = some d ∧ Dict.get? d.properties c!"age" = some sc ∧
    sc.type = some c!"integer" ∧ sc.minimum = .none :=
  ⟨_, _, _, _, rfl, rfl, rfl, rfl, by decide +kernel, by decide +kernel⟩

/-- **C91** refuted for ids with a separator of scopes: what follows the last separator is sent under the discriminator. -/
theorem C91_names_false : ∃ (m : Model) (i : Str), m.id = some i ∧
    Objects.nameAt true [c!"definitions", name Items.envI c!"zoo" m] = some c!"Dog" ∧ i ≠ c!"Dog" :=
  ⟨{ id := some c!"big!##!Dog" }, _, rfl, by decide +kernel, by decide⟩

end Props.C91
