import Verif.Props.C89
import Verif.Py.Number
/-!
# C89: a concrete 1.2 document

One resource with one operation; its parameters have limits of every kind.
-/

namespace Props.C89
open Py Utils Tree _root_.Doc Upgrade Spec.Upgrade12 Spec.Listing12 Spec.Document20 Spec.Pointed Spec.Data12 Props.C55 Props.C56 Props.C87
open Proofs.Closed12 (Closed)
open Spec.Service (text)

namespace Items

/-- `float` and `int` of Python -/
def envI : Env :=
  { env0 with
    float := fun
      | .str s => match floatOfText s with
        | some x => .ok x
        | none => .error .ValueError
      | .int n => .ok (.fin n)
      | .float x => .ok x
      | _ => .error .TypeError
    int := fun
      | .fin r => .ok (Int.tdiv r.num r.den)
      | _ => .error .ValueError }

theorem python : Python envI where
  null x h := by cases h
  whole k := by
    show Except.ok (Int.tdiv (k : Rat).num (k : Rat).den) = Except.ok k
    rw [Rat.num_intCast, Rat.den_intCast]
    simp
  small := by decide

def listing : Dict Str Tree :=
  [(c!"swaggerVersion", text c!"1.2"), (c!"apis", .list [.dict [(c!"path", text c!"/item")]]),
   (c!"info", .dict [(c!"title", text c!"t"), (c!"description", text c!"d")])]

def param (name type : Str) (rest : Dict Str Tree) : Tree :=
  .dict ([(c!"name", text name), (c!"paramType", text c!"query"), (c!"type", text type)] ++ rest)

def declaration (params : List Tree) : Dict Str Tree :=
  [(c!"swaggerVersion", text c!"1.2"), (c!"basePath", text c!"https://h.com/api"),
   (c!"apis", .list [.dict [(c!"path", text c!"/items"), (c!"operations", .list [.dict
     [(c!"method", text c!"GET"), (c!"nickname", text c!"list"), (c!"type", text c!"string"), (c!"parameters", .list params)]])]])]

def yes : Tree := .atom (.bool true)

def params : List Tree :=
  [param c!"limit" c!"integer" [(c!"minimum", text c!"1"), (c!"maximum", text c!"50")],
   param c!"tag" c!"string" [(c!"allowMultiple", yes), (c!"enum", .list [text c!"new", text c!"old"])]]

def limit : Param :=
  { name := some c!"limit", paramType := some c!"query", type := some c!"integer", minimum := .str c!"1", maximum := .str c!"50" }
def tag : Param :=
  { name := some c!"tag", paramType := some c!"query", type := some c!"string", allowMultiple := .bool true,
    enum := .list [.str c!"new", .str c!"old"] }

def op : Operation := { nickname := c!"list", method := some c!"GET", type := some c!"string", parameters := [limit, tag] }
def resource : Resource := { basePath := some c!"https://h.com/api", apis := [(c!"list", some c!"/items", op)] }
def list : ResourceList :=
  { info := some { title := .str c!"t", description := .str c!"d" }, apis := [(c!"item", resource)] }

theorem read : _root_.Upgraded.read listing [(c!"item", .dict (declaration params))] = some list := by rfl

theorem declares {n : Str} {r : Resource} {p : Option Str} {o : Operation} (h : Declares list n r p o) :
    n = c!"item" ∧ r = resource ∧ p = some c!"/items" ∧ o = op := by
  obtain ⟨h1, k, h2⟩ := h
  simp only [list, List.mem_singleton, Prod.mk.injEq] at h1
  obtain ⟨rfl, rfl⟩ := h1
  simp only [resource, List.mem_singleton, Prod.mk.injEq] at h2
  exact ⟨rfl, rfl, h2.2.1, h2.2.2⟩

theorem at_op {url m : Str} (h : At envI.lower resource (some c!"/items") op url m) :
    url = c!"https" ++ c!"://" ++ c!"h.com" ++ c!"/api/items" ∧ m = c!"get" := by
  obtain ⟨b, q, x, hb, hq, rfl, hx, rfl⟩ := h
  cases hb
  cases hq
  cases hx
  exact ⟨rfl, by decide⟩

theorem no_model {n : Str} {m : Model} : ¬ HasModel list n m := by
  rintro ⟨r, k, h1, h2⟩
  simp only [list, List.mem_singleton, Prod.mk.injEq] at h1
  obtain ⟨rfl, rfl⟩ := h1
  simp [resource] at h2

theorem closed : Closed envI list where
  responses n r p o hd _ := by
    obtain ⟨rfl, rfl, rfl, rfl⟩ := declares hd
    refine ⟨⟨?_, by rintro x ⟨⟩⟩, by rintro i ⟨⟩⟩
    rintro t ⟨⟩ - h
    exact absurd h (by decide)
  bodies n r p o hd x hx hb := by
    obtain ⟨rfl, rfl, rfl, rfl⟩ := declares hd
    simp only [op, List.mem_cons, List.not_mem_nil, or_false] at hx
    rcases hx with rfl | rfl <;> exact absurd hb (by decide)
  properties n m hm := absurd hm no_model
  resources n r hn := by
    simp only [list, List.mem_singleton, Prod.mk.injEq] at hn
    rw [hn.1]; exact ⟨by decide, by decide⟩
  ids n m i hm := absurd hm no_model
  sep := ⟨by decide, by decide⟩
  methods n r p o url m hd ha := by
    obtain ⟨rfl, rfl, rfl, rfl⟩ := declares hd
    rw [(at_op ha).2]; decide

theorem upgrades : ∃ T, Upgrades envI str0 listing [(c!"item", .dict (declaration params))] list T := by
  have h : (_root_.Upgraded.load envI str0 listing [(c!"item", .dict (declaration params))]).isSome = true := by decide +kernel
  obtain ⟨T, hT⟩ := Option.isSome_iff_exists.1 h
  exact ⟨T, by simp [listing, text, Spec.Pointed.Plain, PlainDict, PlainList],
    by simp [declaration, params, param, yes, text, Spec.Pointed.Plain, PlainDict, PlainList], read, hT, closed⟩

theorem onSite : OnSite envI list c!"https" c!"h.com" := by
  refine ⟨⟨by decide, by decide, by decide, by decide, by decide⟩, fun n r p op url m hd ha => ?_⟩
  obtain ⟨rfl, rfl, rfl, rfl⟩ := declares hd
  exact ⟨_, (at_op ha).1, .inr ⟨_, rfl⟩⟩

theorem operation : Op12 envI list c!"https" c!"h.com" c!"item" resource op c!"/api/items" c!"get" :=
  ⟨⟨some c!"/items", ⟨by simp [list], c!"list", by simp [resource]⟩, _, _, _, rfl, rfl, rfl, rfl, rfl⟩,
    fun n' r' p' op' hd' _ => by obtain ⟨rfl, rfl, -, rfl⟩ := declares hd'; exact ⟨rfl, rfl, rfl⟩⟩

theorem parameters : Parameters12 op where
  names x hx := by
    simp only [op, List.mem_cons, List.not_mem_nil, or_false] at hx
    rcases hx with rfl | rfl <;> decide
  locations x hx := by
    simp only [op, List.mem_cons, List.not_mem_nil, or_false] at hx
    rcases hx with rfl | rfl <;> decide
  distinct := by decide

theorem one : Limit envI (.str c!"1") ((1 : Int) : Rat) := by
  show (_ : Except Exc PyFloat) = _
  decide +kernel
theorem fifty : Limit envI (.str c!"50") ((50 : Int) : Rat) := by
  show (_ : Except Exc PyFloat) = _
  decide +kernel

theorem reach_limit : Reach envI limit := by
  refine .one c!"integer" (.inl (by rintro (h | h | h) <;> cases h)) rfl rfl (.integer (by decide) (by rintro l ⟨⟩)) (.inr ⟨by simp [Falsy, limit], ?_⟩)
    (.inr ⟨by simp [Falsy, limit], ?_⟩)
  · intro _ m hm
    have : (Except.ok (PyFloat.fin m) : Except Exc PyFloat) = .ok (.fin ((1 : Int) : Rat)) := hm.symm.trans one
    cases this; exact ⟨1, rfl⟩
  · intro _ m hm
    have : (Except.ok (PyFloat.fin m) : Except Exc PyFloat) = .ok (.fin ((50 : Int) : Rat)) := hm.symm.trans fifty
    cases this; exact ⟨50, rfl⟩

theorem reach_tag : Reach envI tag :=
  .multiple c!"string" (.inl rfl) rfl rfl rfl (.string (by decide) (by rintro f ⟨⟩)) rfl rfl (.inl rfl)

section
open Prim Call Io Core Ask Spec.Described Spec.Conform Spec.Wire Proofs.Wire Props.C79
variable {w : World.Outside} {e : Prim.Env World.Atom} {other : Prim World.Atom → Str} {form : Str → Str → Prop}

theorem case_limit (hw : C74.Sound w) (hf : Forms (World.env w e) (C81.inUrl w other) form) :
    Case envI list c!"https" c!"h.com" c!"item" resource op c!"/api/items" c!"get" limit c!"limit" w e other form where
  operation := operation
  parameters := parameters
  scopes := by intro x hx; cases hx
  parameter := by simp [op]
  name := rfl
  reach := reach_limit
  python := python
  sound := hw
  forms := hf

/-- the operation is found, and called with its parameters, the last one first -/
example (hw : C74.Sound w) {o : Objects.Outside} {u : Py.Url} (hu : Canon u) (hf : u.fragment = []) : ∃ T s sq R,
    Service12 envI str0 list T s sq u R c!"https" c!"h.com" ∧
    ∃ d, Index.index o R envI.sep = some (.ok d) ∧
    ∃ i, ScopeDict.getitem envI.sep d (.tuple [some c!"item", some c!"list"]) = .ok i ∧
    ∃ mfuel x p1 p2, Index.operation o (urlunparse u) R id mfuel (fun n => .ok n) i = some (x, [p1, p2]) ∧
      x.url = c!"//h.com/api/items" ∧ p1.name = c!"tag" ∧ p2.name = c!"limit" := by
  obtain ⟨T, hT⟩ := upgrades
  obtain ⟨s, sq, R, h⟩ := service hT onSite hu hf
  refine ⟨T, s, sq, R, h, ?_⟩
  rcases C89_clash (o := o) h (by
    intro n r hn
    simp only [list, List.mem_singleton, Prod.mk.injEq] at hn
    rw [hn.1]; decide) with ⟨d, hd⟩ | ⟨-, n, op1, q, m, n', op2, q', m', ⟨r, p, h1, h2⟩, ⟨r', p', h3, h4⟩, hne, -⟩
  · refine ⟨d, hd, _, C89_named h hd operation (by decide) (by decide), ?_⟩
    obtain ⟨b, hb⟩ := C89_operation (o := o) (order := id) h (fun _ => List.Perm.refl _) operation parameters
      (by intro x hx; cases hx) hw C82.Pets.env0 (fun n => .ok n)
    obtain ⟨x, ps, h1, h2, h3⟩ := hb b (Nat.le_refl b)
    have h3 : List.Forall₂ _ ps [tag, limit] := h3
    cases h3 with
    | cons g1 h3 =>
      cases h3 with
      | cons g2 h3 =>
        cases h3
        exact ⟨b, x, _, _, h1, by rw [h2.url]; rfl, (Option.some.inj g1.1).symm, (Option.some.inj g2.1).symm⟩
  · obtain ⟨rfl, rfl, rfl, rfl⟩ := declares h1
    obtain ⟨rfl, rfl, rfl, rfl⟩ := declares h3
    have e1 := at_op h2
    have e2 := at_op h4
    refine absurd ?_ hne
    rw [Prod.mk.injEq]
    exact ⟨(List.append_cancel_left e1.1).trans (List.append_cancel_left e2.1).symm, e1.2.trans e2.2.symm⟩

/-- whatever is given for `limit`, a request that is sent asks for 1 to 50 items -/
example (hw : C74.Sound w) (hf : Forms (World.env w e) (C81.inUrl w other) form) {T R : Tree} {s : Swagger} {sq : Dict Str Tree} {u : Py.Url}
    (h : Service12 envI str0 list T s sq u R c!"https" c!"h.com") {o : Objects.Outside} {k : Dict Str Val} {a : Val}
    (hk : Dict.get? k c!"limit" = some a) (ha : a ≠ .none)
    {π : Type} {renv : Io.Env (Prim World.Atom) Nat π} {files : FileArg World.Atom → FileVal} :
    ∃ b, ∀ mfuel, b ≤ mfuel → ∀ rounds, b ≤ rounds → ∀ deref, ∃ y ps,
      Index.operation o (urlunparse u) R id mfuel deref (o.num [c!"paths", c!"/api/items", c!"get"]) = some (y, ps) ∧
      ∀ {fuel : Nat} {rq : Req (Prim World.Atom) π} {c : Client} {opt : Dict Str (Option Str)} {hs : HeadersArg}
        {res : SendResult (Prim World.Atom) π},
      ask (World.env w (Objects.env o (urlunparse u) R id mfuel rounds e)) (World.leaf w other) fuel ps files y k = .ok rq →
      send renv y c opt hs rq = .ok res → c.security = some (C18.after (_root_.Service.defs R) []) →
      ∃ t n, (res.sent.query.filter fun y => y.1 = c!"limit").map Prod.snd = [t] ∧
        Spec.Json.readJson t = some (.int n) ∧ 1 ≤ n ∧ n ≤ 50 := by
  obtain ⟨b1, h1⟩ := C89_query (o := o) (order := id) (files := files) (renv := renv) h (fun _ => List.Perm.refl _) (case_limit hw hf) rfl (.inl (by rw [hk]; simp))
  obtain ⟨b2, h2⟩ := C89_clear (o := o) (order := id) h (case_limit hw hf) (by decide)
  refine ⟨b1 + b2 + Proofs.Made.bound R, fun mfuel hm rounds hr deref => ?_⟩
  obtain ⟨y, ps, g1, g2⟩ := h1 mfuel (by omega) rounds (by omega) deref
  refine ⟨y, ps, g1, fun {fuel rq c opt hs res} ha' hsend hsec => ?_⟩
  obtain ⟨pq, d, v, z, hs', hd, hv, hz, hleg⟩ := g2 ha' hsend hsec (by intro i cr hcr; cases hcr)
  have hdef : C81.Definite z := by
    have hva : v = a := by
      rcases hv with hv | ⟨hv, -⟩
      · rw [hk] at hv; exact (Option.some.inj hv).symm
      · rw [hk] at hv; cases hv
    subst hva
    have hty : textAt pq c!"type" = some c!"integer" := by
      obtain ⟨-, y, hy, hof⟩ := hs'
      have := Proofs.Data12.maybe_text hy.type
      cases hof with
      | body _ h => exact absurd h (by decide)
      | multiple _ _ _ _ _ h => rcases h.1 with h | h | h <;> cases h
      | single _ _ _ _ _ _ _ _ _ _ ht => cases ht; rw [this]; rfl
      | array _ _ _ _ _ _ _ _ _ _ h => cases h
    have hl := limits hd.object
    cases fuel with
    | zero => cases hz
    | succ fuel =>
    obtain ⟨j, rfl, -⟩ := Proofs.Conform.convert_int (env := World.env w (Objects.env o (urlunparse u) R id mfuel rounds e)) (i := d.obj)
      (Proofs.Made.direct (by omega) hl.isSchema)
      (typed rfl (by decide) ((Proofs.Conform.text_eq hl.type).trans hty) rfl (get_integer _)) hl.allOf (by unfold effective; split <;> simp_all) hz
    exact ⟨by simp, by rintro y ⟨⟩⟩
  obtain ⟨val, hsn⟩ := hleg (.inl ((h2 mfuel rounds (by omega) pq d v z fuel hs' hd hz).1 c!"integer"
    (.inl (by rintro (h | h | h) <;> cases h)) rfl rfl (by decide) hdef))
  generalize (res.sent.query.filter fun y => y.1 = c!"limit").map Prod.snd = ts at hsn
  cases hsn with
  | @one ty t v _ _ hty hsc =>
    cases hty
    cases hsc with
    | @integer n _ hr hbet =>
      exact ⟨_, n, rfl, hr, Rat.intCast_le_intCast.1 (hbet.min _ one), Rat.intCast_le_intCast.1 (hbet.max _ fifty)⟩
    | number h => exact absurd h (by decide)
    | boolean h => exact absurd h (by decide)
    | string h => exact absurd h (by decide)
  | multiple h => rcases h with h | h | h <;> cases h
  | array _ _ h => cases h

end

/-- parameters with limits that are lost or cut -/
def odd : List Tree :=
  [param c!"zero" c!"integer" [(c!"minimum", .atom (.int 0))], param c!"half" c!"integer" [(c!"minimum", text c!"1.5")],
   param c!"many" c!"integer" [(c!"minimum", text c!"1"), (c!"allowMultiple", yes)]]

end Items

/-- **C89** refuted for some limits: one of `0` is dropped, and so are those of several values; one of integers is cut to an
integer, so that 1 passes for a minimum of 1.5. -/
theorem C89_limits_false : ∃ l s o, _root_.Upgraded.read Items.listing [(c!"item", .dict (Items.declaration Items.odd))] = some l ∧
    upgrade Items.envI str0 l = .ok s ∧ lookup s.paths c!"/api/items" c!"get" = some o ∧
    o.parameters.map (fun p => (p.name, p.minimum)) = [(some c!"many", .none), (some c!"half", .int 1), (some c!"zero", .none)] :=
  ⟨_, _, _, rfl, rfl, rfl, by decide +kernel⟩

end Props.C89
