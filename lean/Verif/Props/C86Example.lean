import Verif.Props.C86
import Verif.Props.C83Example
/-!
# C86: concrete documents

A service with a host, a base path and two security schemes, of which one operation asks for both and another for none; and
the document of `Props/C82Example.lean`, with a request as it is sent.
-/

namespace Props.C86
open Py Utils Tree _root_.Doc Spec Spec.Places Spec.Pointed _root_.Loaded Proofs.Loaded Proofs.Origin Proofs.Placed
open Io Core Spec.Server
open Props.C51 (Host rooted orElse)

theorem host_own {h n x : Str} (hne : h ≠ []) (hh : Host (some h) n x) : x = h := by
  generalize ho : some h = o at hh
  cases hh with
  | own h' _ _ => exact (Option.some.inj ho).symm
  | loaded _ _ h1 _ =>
    subst ho
    rcases h1 with h1 | h1
    · cases h1
    · exact absurd (Option.some.inj h1) hne
  | local_ _ h1 =>
    subst ho
    rcases h1 with h1 | h1
    · cases h1
    · exact absurd (Option.some.inj h1) hne

namespace Notes

def txt (s : Str) : Tree := .atom (.str s)

def keyQ : Dict Str Tree := [(c!"type", txt c!"apiKey"), (c!"name", txt c!"api_key"), (c!"in", txt c!"query")]
def loginQ : Dict Str Tree := [(c!"type", txt c!"basic")]
def idQ : Tree := .dict [(c!"name", txt c!"id"), (c!"in", txt c!"path"), (c!"required", .atom (.bool true)), (c!"type", txt c!"string")]
def postQ : Dict Str Tree := [(c!"parameters", .list [idQ]), (c!"produces", .list [txt c!"text/plain", txt c!"text/html"]),
  (c!"schemes", .list [txt c!"https", txt c!"wss"]), (c!"responses", .dict [])]
def getQ : Dict Str Tree := [(c!"parameters", .list [idQ]), (c!"security", .list []), (c!"responses", .dict [])]
def itemQ : Dict Str Tree := [(c!"get", .dict getQ), (c!"post", .dict postQ)]
def key : Str := c!"/pets/{id}/notes"

def sq : Dict Str Tree := [(c!"swagger", txt c!"2.0"), (c!"host", txt c!"api.org"), (c!"basePath", txt c!"/v1"),
  (c!"produces", .list [txt c!"application/json"]),
  (c!"security", .list [.dict [(c!"key", .list [])], .dict [(c!"login", .list []), (c!"unknown", .list [txt c!"all"])]]),
  (c!"securityDefinitions", .dict [(c!"login", .dict loginQ), (c!"key", .dict keyQ)]),
  (c!"paths", .dict [(key, .dict itemQ)])]

/-- the document -/
def doc : Tree := .dict sq

def service : Spec.Service.Common where
  host := some c!"api.org"
  basePath := some c!"/v1"
  produces := [c!"application/json"]
  security := some [[(c!"key", [])], [(c!"login", []), (c!"unknown", [c!"all"])]]

theorem service_in : service.In sq := ⟨rfl, rfl, .inr ⟨rfl, rfl⟩, .inr ⟨rfl, rfl⟩, .inl rfl, rfl⟩

def post : Spec.Service.Own where
  produces := [c!"text/plain", c!"text/html"]
  schemes := [c!"https", c!"wss"]

def get : Spec.Service.Own where
  security := some []

theorem post_in : post.In postQ := ⟨.inl rfl, .inr ⟨rfl, rfl⟩, .inl rfl, .inl rfl⟩
theorem get_in : get.In getQ := ⟨.inr ⟨rfl, rfl⟩, .inr ⟨rfl, rfl⟩, .inr ⟨rfl, rfl⟩, rfl⟩

theorem post_at : At sq key c!"post" postQ := ⟨by decide, _, _, rfl, rfl, rfl⟩
theorem get_at : At sq key c!"get" getQ := ⟨by decide, _, _, rfl, rfl, rfl⟩

def url : Str := c!"http://h/s"
def at_ : Url := ⟨c!"http", c!"h", c!"/s", [], [], []⟩

theorem canon : Canon at_ :=
  have : urlparse url = at_ := by decide
  this ▸ canon_urlparse (this ▸ ⟨by decide, Or.inl (by decide)⟩)

theorem url_eq : urlunparse at_ = url := by decide

theorem self : SelfContained doc url := Proofs.Checked.checked (by decide +kernel)

def read : Tree := (parse v20 cSwagger doc).getD (.atom .none)
def root : Tree := (normalizeRefs url read).getD (.atom .none)

theorem read_eq : parse v20 cSwagger doc = some read := by
  have h : (parse v20 cSwagger doc).isSome = true := by decide +kernel
  unfold read
  cases hp : parse v20 cSwagger doc with
  | none => rw [hp] at h; cases h
  | some t => rfl

theorem root_eq : normalizeRefs url read = some root := by
  have h : (normalizeRefs url read).isSome = true := by decide +kernel
  unfold root
  cases hp : normalizeRefs url read with
  | none => rw [hp] at h; cases h
  | some t => rfl

theorem loads : Loads doc at_ read root := ⟨canon, rfl, url_eq ▸ self, read_eq, url_eq ▸ root_eq⟩

/-! the credentials of the document; the second registration of `key` counts, the one of `other` fails -/

def regs : List (Str × SecurityInfo) :=
  [(c!"key", .str c!"old"), (c!"login", .tuple [c!"u", c!"p"]), (c!"other", .str c!"x"), (c!"key", .str c!"new")]

theorem key_defined : Defined sq c!"key" (.key false c!"api_key") := ⟨_, _, rfl, rfl, rfl, rfl, rfl⟩
theorem login_defined : Defined sq c!"login" .basic := ⟨_, _, rfl, rfl, rfl⟩

theorem key_last : Last regs c!"key" (.str c!"new") :=
  ⟨[(c!"key", .str c!"old"), (c!"login", .tuple [c!"u", c!"p"]), (c!"other", .str c!"x")], [], rfl, by simp⟩

theorem login_last : Last regs c!"login" (.tuple [c!"u", c!"p"]) :=
  ⟨[(c!"key", .str c!"old")], [(c!"other", .str c!"x"), (c!"key", .str c!"new")], rfl, by simp⟩

example : ∃ c, Carries (.key false c!"api_key") (.str c!"new") c ∧
    Dict.get? (C18.after (_root_.Service.defs root) regs) c!"key" = some c :=
  C86_registered loads rfl key_defined key_last trivial

example : ∃ c, Carries .basic (.tuple [c!"u", c!"p"]) c ∧
    Dict.get? (C18.after (_root_.Service.defs root) regs) c!"login" = some c :=
  C86_registered loads rfl login_defined login_last ⟨[117, 58, 112], by decide⟩

def held : Dict Str Cred := C18.after (_root_.Service.defs root) regs

theorem held_eq : held = [(c!"key", ⟨false, c!"api_key", c!"new"⟩), (c!"login", ⟨true, c!"Authorization", c!"Basic dTpw"⟩)] := by
  decide +kernel

/-! a request: the operations and arguments of `Props/C72.lean`, with a client that knows both schemes -/

def client : Client := ⟨[c!"http", c!"https"], true, true, some held⟩

def renv : Io.Env (Prim.Prim Nat) Nat Str := ⟨fun _ b _ => Prim.Json.marshal C70.enc b, List.map Char.toLower,
  fun _ _ => .ok [], fun s => .ok (utf8 s), fun _ => .ok [], c!"b"⟩

def operation (m : Str) : Option (Op Nat) := _root_.Service.operation url root [c!"paths", key] m .ok C72.theParams

def asked_ (op : Op Nat) : Except Exc (Req (Prim.Prim Nat) Str) :=
  Ask.ask (C33.world C72.theObjs) C31.leaf 9 C72.theParams C72.theFiles op C72.theArgs

def result (m : Str) : Option (SendResult (Prim.Prim Nat) Str) :=
  match operation m with
  | none => none
  | some op =>
    match asked_ op with
    | .error _ => none
    | .ok r => (send renv op client [] .none r).toOption

example : (result c!"post").map (fun r => (r.sent.method, r.sent.url)) =
    some (c!"post", c!"https://api.org/v1/pets/a%2Fb+c/notes") := by decide +kernel
example : (result c!"post").map (fun r => r.sent.query) =
    some [(c!"tag", c!"x"), (c!"tag", c!"y"), (c!"api_key", c!"new")] := by decide +kernel
example : (result c!"post").map (fun r => [c!"authorization", c!"accept", c!"content-type", c!"x"].map fun n =>
      (CIDict.getitem renv.lower r.req.header n).toOption) =
    some [some c!"Basic dTpw", some c!"text/plain", some c!"application/json", some c!"1"] := by decide +kernel
example : (result c!"get").map (fun r => (r.sent.method, r.sent.url)) =
    some (c!"get", c!"http://api.org/v1/pets/a%2Fb+c/notes") := by decide +kernel
example : (result c!"get").map (fun r => r.sent.query) = some [(c!"tag", c!"x"), (c!"tag", c!"y")] := by decide +kernel
example : (result c!"get").map (fun r => [c!"authorization", c!"accept"].map fun n =>
      (CIDict.getitem renv.lower r.req.header n).toOption) =
    some [none, some c!"application/json"] := by decide +kernel

/-! the hypotheses of the theorems are met by this request -/

theorem sent (m : Str) (h : (result m).isSome = true) : ∃ op r res, operation m = some op ∧ asked_ op = .ok r ∧
    send renv op client [] .none r = .ok res := by
  unfold result at h
  cases ho : operation m with
  | none => rw [ho] at h; cases h
  | some op =>
    rw [ho] at h
    dsimp only at h
    cases ha : asked_ op with
    | error e => rw [ha] at h; cases h
    | ok r =>
      rw [ha] at h
      dsimp only at h
      cases hs : send renv op client [] .none r with
      | error e => rw [hs] at h; cases h
      | ok res => exact ⟨op, r, res, rfl, ha, hs⟩

def route : List Seg := [.lit c!"v1", .lit c!"pets", .hole c!"id", .lit c!"notes"]

theorem says_post : ∃ op, operation c!"post" = some op ∧ Says service post at_ key c!"post" op := by
  obtain ⟨op, h1, h2, -⟩ := C86_operation loads rfl service_in post_at post_in .ok C72.theParams
  rw [url_eq] at h1
  exact ⟨op, h1, h2⟩

example : ∃ op r res, operation c!"post" = some op ∧ asked_ op = .ok r ∧ send renv op client [] .none r = .ok res ∧
    (∃ scheme path l, res.sent.url = scheme ++ c!"://" ++ c!"api.org" ++ path ∧ scheme ∈ [c!"https", c!"wss"] ∧
      readPath true route path = some l ∧ l.map Prod.fst = [c!"id"]) ∧
    ((c!"api_key", c!"new") ∈ res.sent.query ∧ ∀ y, (c!"api_key", y) ∈ res.sent.query → y = c!"new") ∧
    CIDict.getitem renv.lower res.req.header c!"AUTHORIZATION" = .ok c!"Basic dTpw" ∧
    CIDict.getitem renv.lower res.req.header c!"accept" = .ok c!"text/plain" := by
  obtain ⟨op, r, res, h1, h2, h3⟩ := sent c!"post" (by decide +kernel)
  obtain ⟨op', e1, hop⟩ := says_post
  rw [h1] at e1
  cases e1
  have hk : Dict.get? held c!"key" = some ⟨false, c!"api_key", c!"new"⟩ := by rw [held_eq]; rfl
  have hlg : Dict.get? held c!"login" = some ⟨true, c!"Authorization", c!"Basic dTpw"⟩ := by rw [held_eq]; rfl
  have hno : Dict.get? held c!"unknown" = none := by rw [held_eq]; rfl
  refine ⟨op, r, res, h1, h2, h3, ?_, ?_, ?_, ?_⟩
  · obtain ⟨-, scheme, host, path, l, g1, g2, g3, g4, g5, g6, -⟩ := C86_address hop h2 h3 (by decide) ⟨rfl, rfl⟩
      (fun h hh => by
        have : h = c!"api.org" := host_own (by decide) hh
        subst this
        decide) true (t := route)
      (fun g hg => by
        simp only [route, List.mem_cons, List.not_mem_nil, or_false] at hg
        rcases hg with rfl | rfl | rfl | rfl <;> decide) (by decide) (fun n hn x hx => .inl rfl)
    have : host = c!"api.org" := host_own (by decide) g2
    subst this
    exact ⟨scheme, path, l, g1, g4, g5, g6⟩
  · refine C86_query_credential (n := c!"key") hop (show client.security = some held from rfl) h3 (by decide) (cr := ⟨false, c!"api_key", c!"new"⟩) hk rfl ?_
    intro n' hn' c' hc' hh _
    simp only [show asked service post = [c!"key", c!"login", c!"unknown"] by decide, List.mem_cons, List.not_mem_nil, or_false] at hn'
    rcases hn' with rfl | rfl | rfl
    · rfl
    · rw [show C18.after (_root_.Service.defs root) regs = held from rfl, hlg] at hc'
      cases hc'
      cases hh
    · rw [show C18.after (_root_.Service.defs root) regs = held from rfl, hno] at hc'
      cases hc'
  · have hh : r.p.header = [(c!"X", c!"1")] := by
      have : (asked_ op).toOption.map (fun r => r.p.header) = some [(c!"X", c!"1")] := by
        have hx : ∀ op op' : Op Nat, (asked_ op).toOption.map (fun r => r.p.header) = (asked_ op').toOption.map (fun r => r.p.header) := by
          intro op op'
          unfold asked_ Ask.ask
          cases Call.call (C33.world C72.theObjs) C31.leaf 9 C72.theParams C72.theArgs <;> rfl
        rw [hx op ⟨[], [], [], [], [], [], none, []⟩]
        decide +kernel
      rw [h2] at this
      exact Option.some.inj this
    refine C86_header_credential (n := c!"login") hop (show client.security = some held from rfl) h3 (by decide)
      (cr := ⟨true, c!"Authorization", c!"Basic dTpw"⟩) hlg rfl ?_ (by rw [hh]; decide) (by rw [hh]; decide) (by decide) (by decide)
    intro n' hn' c' hc' hh _
    simp only [show asked service post = [c!"key", c!"login", c!"unknown"] by decide, List.mem_cons, List.not_mem_nil, or_false] at hn'
    rcases hn' with rfl | rfl | rfl
    · rw [show C18.after (_root_.Service.defs root) regs = held from rfl, hk] at hc'
      cases hc'
      cases hh
    · rfl
    · rw [show C18.after (_root_.Service.defs root) regs = held from rfl, hno] at hc'
      cases hc'
  · obtain ⟨sn, -, rfl⟩ := C72.ask_ok h2
    exact C86_accept hop h3 rfl (x := c!"text/plain") rfl (by decide) (by decide)

/-- an operation with `security: []` -/
example (op : Op Nat) (r : Req (Prim.Prim Nat) Str) (h : operation c!"get" = some op) :
    send renv op client [] .none r = send renv op { client with security := none } [] .none r := by
  obtain ⟨op', h1, h2, -⟩ := C86_operation loads rfl service_in get_at get_in .ok C72.theParams
  rw [url_eq, show _root_.Service.operation url root [c!"paths", key] c!"get" .ok C72.theParams = some op from h] at h1
  cases h1
  exact C86_open h2 rfl

end Notes

/-! the document of `Props/C82Example.lean`, with a request as it is sent -/

namespace Pets
open Prim Spec.Described Spec.SchemaDoc Spec.Conform Spec.Wire Spec.Reply Proofs.Wire Proofs.Effective Props.C78 Props.C79
open Props.C82.Pets Props.C83.Pets Props.C83
open Call Ask

def sq : Dict Str Tree := [(c!"swagger", txt c!"2.0"), (c!"host", txt c!"h"),
  (c!"paths", .dict [(c!"/pets", .dict itemQ)]), (c!"parameters", .dict [(c!"Limit", .dict limitQ)]),
  (c!"responses", .dict [(c!"Many", .dict manyQ)]), (c!"definitions", .dict [(c!"List", .dict C82.Pets.listQ)])]

def service : Spec.Service.Common where
  host := some c!"h"

theorem service_in : service.In sq := ⟨rfl, .inl rfl, .inr ⟨rfl, rfl⟩, .inr ⟨rfl, rfl⟩, .inr ⟨rfl, rfl⟩, .inl rfl⟩
theorem get_in : ({} : Spec.Service.Own).In getQ := ⟨.inr ⟨rfl, rfl⟩, .inr ⟨rfl, rfl⟩, .inr ⟨rfl, rfl⟩, .inl rfl⟩
theorem get_at : At sq c!"/pets" c!"get" getQ := ⟨by decide, _, _, rfl, rfl, rfl⟩

def client : Client := ⟨[c!"http"], true, true, some (C18.after (_root_.Service.defs root) [])⟩

def io : Io.Env (Prim World.Atom) Nat Str := ⟨fun _ _ _ => .ok [], List.map Char.toLower,
  fun _ _ => .ok [], fun s => .ok (utf8 s), fun _ => .ok [], c!"b"⟩

variable {w : World.Outside} {other : Prim World.Atom → Str}

example (hw : C74.Sound w) (hr : Real w) (hn : ∀ k t, w.obj k ≠ .datetime t) : ∃ mfuel rounds fuel ps op r res val,
    Objects.decls C83.outside url root id mfuel ((elements [c!"paths", c!"/pets", c!"get"] c!"parameters" getQ).map C83.outside.num)
      ((elements [c!"paths", c!"/pets"] c!"parameters" itemQ).map C83.outside.num) = some ps ∧
    _root_.Service.operation url root [c!"paths", c!"/pets"] c!"get" .ok ps = some op ∧
    ask (World.env w (Objects.env C83.outside url root id mfuel rounds env0)) (World.leaf w other) fuel ps (fun _ => .many [])
      op [(c!"limit", .str c!"30")] = .ok r ∧
    send io op client [] .none r = .ok res ∧
    ReadsAll limitQ ((res.sent.query.filter fun x => x.1 = c!"limit").map Prod.snd) val ∧
    Conforms (fun _ => none) (C81.UrlTexts fun _ => true = true) False limitQ val := by
  obtain ⟨b1, h1⟩ := C83_parameters (o := C83.outside) (order := id) loads styled (fun l => List.Perm.refl _) getAsked hw
  obtain ⟨b2, h2⟩ := C86_query (o := C83.outside) (order := id) (other := other) (e := env0) loads styled (fun l => List.Perm.refl _) getAsked hw limit_within
    (form := C81.UrlTexts fun _ => true = true) (C81.C81_formats hr hn env0)
    (q := limitQ) (by simp only [inForce, unnamed]; exact List.mem_singleton.2 rfl) rfl rfl rfl
    (k := [(c!"limit", .str c!"30")]) (.inl (by simp [Dict.get?])) (files := fun _ => .many [])
    (renv := io) (sq := sq) rfl service_in get_at get_in
  obtain ⟨b3, h3⟩ := C83_operation (o := C83.outside) (order := id) loads styled (fun l => List.Perm.refl _) getAsked hw
  obtain ⟨ps, e1, g1⟩ := h1 (b1 + b2 + b3) (by omega) (b1 + b2 + b3) (by omega)
  obtain ⟨ps', op, e2, eop, hop, g2⟩ := h2 (b1 + b2 + b3) (by omega) (b1 + b2 + b3) (by omega) .ok
  obtain ⟨ps'', e3, g3⟩ := h3 (b1 + b2 + b3) (by omega) (b1 + b2 + b3) (by omega)
  rw [e1] at e3
  cases e3
  have e2 := e1.symm.trans e2
  cases e2
  have hf := g1 env0
  obtain ⟨d, l, hd, hl, rfl⟩ : ∃ d l, Declared (World.env w (Objects.env C83.outside (urlunparse at_) root id (b1 + b2 + b3)
      (b1 + b2 + b3) env0)) d limitQ ∧ l = [] ∧ ps = d :: l := by
    have hf : List.Forall₂ _ ps [limitQ] := hf
    cases hf with
    | cons h1 h2 => cases h2; exact ⟨_, _, h1, rfl, rfl⟩
  subst hl
  have hdir := (g3 env0).direct
  obtain ⟨F, hacc⟩ := C81.C81_accepted (w := w) (e := Objects.env C83.outside (urlunparse at_) root id (b1 + b2 + b3)
      (b1 + b2 + b3) env0) (toJson := World.toJson) (form := Kept fun _ => true = true) (N := False) (S := (· = limitQ)) hdir limit_within
    (by rintro q rfl; exact ⟨by decide, fun h => (by cases h)⟩)
    (C79_back w _) rfl hd.object (t := c!"30") (v := .int 30) (.integer rfl (by decide +kernel))
    (.integer (.stop rfl) rfl ⟨fun m hm => (by
      have : m = ((50 : Int) : Rat) := by
        have h : some ((50 : Int) : Rat) = some m := hm
        cases h; rfl
      subst this
      exact ⟨Rat.intCast_le_intCast.2 (by decide), fun h => by cases h⟩), fun m hm => (by cases hm), fun m hm => (by cases hm)⟩ (.inl rfl))
  obtain ⟨x, v', hc, hj, hs⟩ := hacc.mono (Nat.le_succ F) false
  have hx : x = .int 30 := by
    have hl := limits hd.object
    obtain ⟨k, rfl, -⟩ := Proofs.Conform.convert_int (env := World.env w (Objects.env C83.outside (urlunparse at_) root id
      (b1 + b2 + b3) (b1 + b2 + b3) env0)) (i := d.obj) (hdir _ hl.isSchema)
      (typed rfl (by decide) (Proofs.Conform.text_eq hl.type) rfl (get_integer _)) hl.allOf (by simp [effective]) hc
    cases hj
    cases hs with
    | refl => rfl
    | number h1 h2 =>
      rcases h1 with h1 | ⟨a, h1, rfl⟩
      · cases h1
      · rcases h2 with h2 | ⟨b, h2, h3⟩
        · cases h2
        · cases h1
          cases h2
          rw [Rat.intCast_inj.1 h3]
  subst hx
  have hask := called (w := w) (other := other) hd hc
  obtain ⟨r, hask'⟩ : ∃ r : Req (Prim World.Atom) Str, ask (World.env w (Objects.env C83.outside (urlunparse at_) root id (b1 + b2 + b3)
      (b1 + b2 + b3) env0)) (World.leaf w other) (F + 1) [d] (fun _ => .many [])
      op [(c!"limit", .str c!"30")] = .ok r := by
    unfold ask
    rw [hask]
    exact ⟨_, rfl⟩
  obtain ⟨res, hp⟩ : ∃ res, send io op client [] .none r = .ok res := by
    unfold ask at hask'
    rw [hask] at hask'
    cases hask'
    obtain ⟨o1, o2, o3, o4, o5, o6, o7, o8⟩ := op
    obtain ⟨q1, q2, ⟨h, q3, q4⟩, q5, q6, q7, q8⟩ := hop
    have := host_own (by decide) q3
    subst this
    dsimp only at q1 q2 q4 q5 q6 q7 q8
    subst q1 q2 q4 q5 q6 q7 q8
    exact ⟨_, rfl⟩
  obtain ⟨v, c, hv, ⟨d', hd', hc'⟩, h⟩ := g2 hask' hp rfl (fun n hn => by cases hn)
  have hv : v = .str c!"30" := by
    rcases hv with hv | ⟨hv, -⟩
    · exact (Option.some.inj hv).symm
    · cases hv
  subst hv
  have hl := limits hd'.object
  obtain ⟨k, rfl, -⟩ := Proofs.Conform.convert_int (env := World.env w (Objects.env C83.outside (urlunparse at_) root id
      (b1 + b2 + b3) (b1 + b2 + b3) env0)) (i := d'.obj) (hdir _ hl.isSchema)
    (typed rfl (by decide) (Proofs.Conform.text_eq hl.type) rfl (get_integer _)) hl.allOf (by simp [effective]) hc'
  obtain ⟨val, h1, h2⟩ := h (.inl .int)
  rw [url_eq] at hask' e1 eop
  exact ⟨_, _, F + 1, [d], op, r, res, val, e1, eop, hask', hp, h1, h2⟩

end Pets
end Props.C86
