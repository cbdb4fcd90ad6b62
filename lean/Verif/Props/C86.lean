import Verif.Model.Service
import Verif.Spec.Service
import Verif.Proofs.Origin
import Verif.Props.C51
import Verif.Props.C18
import Verif.Props.C20
import Verif.Props.C25
import Verif.Props.C72
import Verif.Props.C83
import Verif.Props.C84
/-!
# C86: a request goes where and how the document says

C51 takes the fields of the Swagger object and of an operation as given, C72, C82 and C83 the operation of a request. Here
both are made from the JSON document: the address, the method, the media types, the schemes and the security requirements
of a request are the ones written in the document, and the credentials it carries are those the document asks for.
-/

namespace Props.C86
open Py Utils Tree _root_.Doc Spec Spec.Places Spec.Pointed _root_.Loaded Proofs.Loaded Proofs.Origin Proofs.Placed
open Io Core Spec.Server
open _root_.Effective (attr text? listed)
open Schemas (texts entries)
open Props.C51 (Host rooted orElse)

variable {D T R : Tree} {p : Url}

/-! ## what is read from the document -/

theorem requirements_map (f : Str → Str) (l : List (Dict Str (List Str))) :
    mapRefs f (Spec.Service.requirements l) = Spec.Service.requirements l := by
  have h1 : ∀ l : List Str, mapRefs f (.list (l.map Spec.Service.text)) = .list (l.map Spec.Service.text) := by
    intro l
    rw [mapRefs, mapList_eq, List.map_map]
    congr 1
  unfold Spec.Service.requirements
  rw [mapRefs, mapList_eq, List.map_map]
  congr 1
  apply List.map_congr_left
  intro d _
  simp only [Function.comp_def]
  rw [mapRefs, mapDict_eq, List.map_map]
  congr 1
  apply List.map_congr_left
  intro x _
  simp only [Function.comp_def, h1]

theorem texts_map (f : Str → Str) (l : List Str) : mapRefs f (.list (l.map Spec.Service.text)) = .list (l.map Spec.Service.text) := by
  rw [mapRefs, mapList_eq, List.map_map]
  congr 1

theorem texts_text (l : List Str) : texts (l.map Spec.Service.text) = l := by
  induction l with
  | nil => rfl
  | cons s l ih => simp only [texts, List.map_cons, Spec.Service.text, List.filterMap_cons, text?] at ih ⊢; rw [ih]

theorem requirements_read (l : List (Dict Str (List Str))) :
    _root_.Service.requirements (Spec.Service.requirements l) = some l := by
  unfold _root_.Service.requirements Spec.Service.requirements
  simp only [isNull, listed, List.map_map, Bool.false_eq_true, if_false, Option.some.injEq]
  conv => rhs; rw [← List.map_id l]
  apply List.map_congr_left
  intro d _
  simp only [Function.comp_def, _root_.Service.requirement, entries, List.map_map, id]
  conv => rhs; rw [← List.map_id d]
  apply List.map_congr_left
  intro x _
  simp only [Function.comp_def, listed, texts_text, id]

/-- an object of the prepared document: its plain fields are those written -/
theorem fields_written (hl : Loads D p T R) {ts : List Str} {c : Nat} {q : Dict Str Tree} (hw : Written D ts c q) :
    ∃ gs, Tree.resolve ts R = .ok (.obj c gs) ∧
      ∀ n dflt, n ≠ c!"$ref" → Dict.get? (v20 c).fields n = some dflt → Dict.get? (v20 c).child n = none →
        attr gs n = mapRefs (absolute (urlunparse p)) ((Dict.get? q n).getD dflt) := by
  obtain ⟨fs, h1, h2, -⟩ := written_parse hl.read hw
  have h3 := object_map (f := absolute (urlunparse p)) (filled hl) h2
  rw [← normal_form hl, mapRefs] at h3
  refine ⟨_, h3, fun n dflt hn hf hc => ?_⟩
  obtain ⟨fs', e, -, hp⟩ := C42.C42_fields c q _ h1
  cases e
  unfold attr
  rw [get_mapFields, hp n dflt hf hc]
  simp [mapField, hn]

section
variable {gs : List (Str × Tree)} {q : Dict Str Tree} {n : Str} {f : Str → Str}

theorem texts_of {dflt : Tree} (hd : dflt = .list []) (h : attr gs n = mapRefs f ((Dict.get? q n).getD dflt)) {l : List Str}
    (hl : Spec.Service.Texts q n l) : texts (listed (attr gs n)) = l := by
  subst hd
  rcases hl with hl | ⟨hl, rfl⟩
  · rw [h, hl, Option.getD_some, texts_map]
    exact texts_text l
  · rw [h, hl, Option.getD_none, mapRefs, mapList]
    rfl

theorem maybe_of {dflt : Tree} (hd : dflt = .atom .none) (h : attr gs n = mapRefs f ((Dict.get? q n).getD dflt))
    {s : Option Str} (hs : Spec.Service.Maybe q n s) : text? (attr gs n) = s := by
  subst hd
  rw [h]
  cases s with
  | some s => rw [show Dict.get? q n = _ from hs]; rfl
  | none => rcases hs with hs | hs <;> rw [hs] <;> rfl

theorem requires_of {dflt : Tree} (hd : dflt = .atom .none)
    (h : attr gs c!"security" = mapRefs f ((Dict.get? q c!"security").getD dflt))
    {s : Option (List (Dict Str (List Str)))} (hs : Spec.Service.Requires q s) :
    _root_.Service.requirements (attr gs c!"security") = s := by
  subst hd
  rw [h]
  cases s with
  | some l =>
    rw [show Dict.get? q c!"security" = _ from hs, Option.getD_some, requirements_map]
    exact requirements_read l
  | none => rcases hs with hs | hs <;> rw [hs] <;> rfl
end

/-! ## operations -/

/-- the operation `oq` is written in the document `sq` for the method `m` of the path `k` -/
structure At (sq : Dict Str Tree) (k m : Str) (oq : Dict Str Tree) : Prop where
  method : m ∈ [c!"get", c!"put", c!"post", c!"delete", c!"options", c!"head", c!"patch"]
  written : ∃ paths iq, Dict.get? sq c!"paths" = some (.dict paths) ∧ Dict.get? paths k = some (.dict iq) ∧
    Dict.get? iq m = some (.dict oq)

/-- what a request needs of an operation is what the document says: `s` for the service as a whole, `a` for the
operation, at the URL `u` -/
structure Says {δ : Type} (s : Spec.Service.Common) (a : Spec.Service.Own) (u : Url) (k m : Str) (op : Op δ) : Prop where
  method : op.method = m
  path : op.path = k
  url : ∃ h, Host s.host u.netloc h ∧ op.url = c!"//" ++ h ++ rooted (s.basePath.getD [] ++ k)
  consumes : op.consumes = orElse a.consumes s.consumes
  produces : op.produces = orElse a.produces s.produces
  schemes : op.schemes = orElse a.schemes (orElse s.schemes [u.scheme])
  security : op.security = Spec.Service.inForce a.security s.security

theorem at_written {sq oq : Dict Str Tree} {k m : Str} (h : At sq k m oq) :
    Written (.dict sq) [c!"paths", k, m] cOperation oq := by
  obtain ⟨hm, paths, iq, h1, h2, h3⟩ := h
  refine ⟨.one cOperation, .inl rfl, .field (.inl rfl) h1 (by decide : _ = some (.dict cPathItem)) (.key h2 (.field (.inl rfl) h3 ?_ .here))⟩
  revert hm
  clear h3
  revert m
  decide

theorem root_written (sq : Dict Str Tree) : Written (.dict sq) [] cSwagger sq := ⟨.one cSwagger, .inl rfl, .here⟩

/-- the Swagger object of the prepared document -/
theorem root_read (hl : Loads D p T R) {sq : Dict Str Tree} (hD : D = .dict sq) {s : Spec.Service.Common} (hs : s.In sq) :
    ∃ gs, R = .obj cSwagger gs ∧ _root_.Service.rootOf gs =
      ⟨s.host, s.basePath, s.schemes, s.consumes, s.produces, s.security⟩ := by
  subst hD
  obtain ⟨gs, h1, h2⟩ := fields_written hl (root_written sq)
  rw [Tree.resolve] at h1
  cases h1
  refine ⟨gs, rfl, ?_⟩
  unfold _root_.Service.rootOf
  rw [maybe_of rfl (h2 c!"host" (.atom .none) (by decide) (by rfl) (by decide)) hs.host,
    maybe_of rfl (h2 c!"basePath" (.atom .none) (by decide) (by rfl) (by decide)) hs.basePath,
    texts_of rfl (h2 c!"schemes" (.list []) (by decide) (by rfl) (by decide)) hs.schemes,
    texts_of rfl (h2 c!"consumes" (.list []) (by decide) (by rfl) (by decide)) hs.consumes,
    texts_of rfl (h2 c!"produces" (.list []) (by decide) (by rfl) (by decide)) hs.produces,
    requires_of rfl (h2 c!"security" (.atom .none) (by decide) (by rfl) (by decide)) hs.security]

/-- **C86, operations.** The operation that a request is made for is the one the document writes. -/
theorem C86_operation (hl : Loads D p T R) {sq oq : Dict Str Tree} (hD : D = .dict sq) {s : Spec.Service.Common}
    (hs : s.In sq) {k m : Str} (hat : At sq k m oq) {a : Spec.Service.Own} (ha : a.In oq) (deref : Nat → Except Exc Nat)
    (ps : List Call.Decl) :
    ∃ op, _root_.Service.operation (urlunparse p) R [c!"paths", k] m deref ps = some op ∧ Says s a p k m op ∧
      op.parameters.map (fun d => (d.name, d.in_)) = ps.map fun d => (d.name, d.in_) := by
  obtain ⟨gs, hR, hroot⟩ := root_read hl hD hs
  subst hD
  obtain ⟨os, h1, h2⟩ := fields_written hl (at_written hat)
  have hop : _root_.Service.opOf os = { consumes := a.consumes, produces := a.produces, schemes := a.schemes, security := a.security } := by
    unfold _root_.Service.opOf
    rw [texts_of rfl (h2 c!"schemes" (.list []) (by decide) (by rfl) (by decide)) ha.schemes,
      texts_of rfl (h2 c!"consumes" (.list []) (by decide) (by rfl) (by decide)) ha.consumes,
      texts_of rfl (h2 c!"produces" (.list []) (by decide) (by rfl) (by decide)) ha.produces,
      requires_of rfl (h2 c!"security" (.atom .none) (by decide) (by rfl) (by decide)) ha.security]
  have happ : _root_.Service.app (urlunparse p) R =
      ⟨some ⟨s.host, s.basePath, s.schemes, s.consumes, s.produces, s.security⟩, urlunparse p,
        Patch.schemesOf (some (⟨s.host, s.basePath, s.schemes, s.consumes, s.produces, s.security⟩ : Patch.Root _)) (urlunparse p)⟩ := by
    unfold _root_.Service.app
    rw [hR]
    simp only [_root_.Service.root?, if_true, hroot]
  have hpath : _root_.Service.pathOf [c!"paths", k] = pointer ([c!"paths"] ++ [k]) := by
    unfold _root_.Service.pathOf
    rw [show c!"#" = ['#'] from rfl, Proofs.ScanTree.pointer_eq]
    rfl
  have hm : m ∈ Patch.methods := hat.method
  have hpat : _root_.Service.patched (urlunparse p) R [c!"paths", k] m =
      some (C51.prepared (fun _ => none) (_root_.Service.app (urlunparse p) R) (pointer ([c!"paths"] ++ [k])) m (_root_.Service.opOf os)) := by
    unfold _root_.Service.patched
    rw [show [c!"paths", k] ++ [m] = [c!"paths", k, m] from rfl, h1]
    simp only [if_true, hpath, Patch.pathItem, List.map_cons, List.map_nil, if_pos hm, Dict.get?]
    rfl
  rw [happ, hop] at hpat
  refine ⟨_, by unfold _root_.Service.operation; rw [hpat, Option.map_some], ?_, ?_⟩
  · have hplace := C51.C51_place (fun _ : Unit => none)
      (⟨s.host, s.basePath, s.schemes, s.consumes, s.produces, s.security⟩ : Patch.Root (Dict Str (List Str))) p hl.canon
      (Patch.schemesOf (some (⟨s.host, s.basePath, s.schemes, s.consumes, s.produces, s.security⟩ : Patch.Root _)) (urlunparse p))
      [c!"paths"] k m { consumes := a.consumes, produces := a.produces, schemes := a.schemes, security := a.security }
    obtain ⟨e1, e2, -, h, e3, e4⟩ := hplace
    have hmedia := (C51.C51_media (fun _ : Unit => none)
      (⟨some ⟨s.host, s.basePath, s.schemes, s.consumes, s.produces, s.security⟩, urlunparse p,
        Patch.schemesOf (some (⟨s.host, s.basePath, s.schemes, s.consumes, s.produces, s.security⟩ : Patch.Root _)) (urlunparse p)⟩ : Patch.App (Dict Str (List Str)))
      (pointer ([c!"paths"] ++ [k])) m { consumes := a.consumes, produces := a.produces, schemes := a.schemes, security := a.security }).1 _ rfl
    have hsch := C51.C51_schemes (fun _ : Unit => none)
      (⟨s.host, s.basePath, s.schemes, s.consumes, s.produces, s.security⟩ : Patch.Root (Dict Str (List Str))) p hl.canon
      (pointer ([c!"paths"] ++ [k])) m { consumes := a.consumes, produces := a.produces, schemes := a.schemes, security := a.security }
    refine ⟨by simp only [e2, Option.getD_some], by simp only [e1, Option.getD_some], ⟨h, e3, by simp only [e4, Option.getD_some]⟩,
      hmedia.1, hmedia.2, hsch, ?_⟩
    simp only [C51.prepared, Patch.operation, Patch.locate, Spec.Service.inForce]
    cases a.security <;> rfl
  · simp [_root_.Service.paramDecl, Function.comp_def]

/-! ## sending -/

section
variable {β δ π ω : Type} {renv : Io.Env β δ π} {op : Op δ} {c : Client} {opt : Dict Str (Option Str)} {hs : HeadersArg}
  {r : Req β π} {res : SendResult β π} {s : Spec.Service.Common} {a : Spec.Service.Own} {k m : Str}

/-- **C86, credentials.** They change nothing but headers and query: what a client sends otherwise is the request as it
is prepared without them. -/
theorem C86_transfer (hr : reset op r = r) (h : send renv op c opt hs r = .ok res) :
    ∃ l r', prepareSchemes c.schemes op.schemes = .ok l ∧ prepare renv op (.list l) c.handleFiles r = .ok r' ∧
      res.sent.method = op.method ∧ res.sent.url = (patch opt r'.url).1 ∧ res.sent.path = r'.path ∧
      res.sent.data = r'.data ∧ res.sent.files = r'.p.file ∧
      res.sent.query = (C63.authorised c op r).query ∧ r'.p.query = r.p.query := by
  obtain ⟨l, r2, hh, hl, h2, h3, rfl⟩ := C20.send_ok.1 h
  rw [hr] at h2
  obtain ⟨sc, path, url, ct, data, files, acc, e1, e2, e3, e4, e5, rfl⟩ := prepare_ok.1 h2
  have hp : ∀ x : Params β, x.path = r.p.path → pathParams x = pathParams r.p := by
    intro x hx
    unfold pathParams
    rw [hx]
  cases hc : c.security with
  | none =>
    rw [hc] at h2
    simp only [authorise] at h2
    rw [hc] at e1 e2 e3 e4 e5
    simp only [authorise] at e1 e2 e3 e4 e5
    refine ⟨l, _, hl, prepare_ok.2 ⟨sc, path, url, ct, data, files, acc, e1, e2, e3, e4, e5, rfl⟩, rfl, rfl, rfl, rfl, rfl, ?_, rfl⟩
    simp only [C63.authorised, hc, authorise]
  | some info =>
    rw [hc] at e1 e2 e3 e4 e5
    simp only [authorise] at e1 e2 e3 e4 e5
    change format _ (pathParams r.p) _ = _ at e2
    change format _ (pathParams r.p) _ = _ at e3
    have e4' : prepareData renv op r.p r.consume c.handleFiles = .ok (ct, data, files) := by
      rw [← e4]
      obtain ⟨p, u1, u2, u3, u4, u5, u6, u7⟩ := r
      obtain ⟨p1, p2, p3, p4, p5, p6⟩ := p
      unfold prepareData prepareFiles prepareForms prepareBody
      have : ∀ ds : List (ParamDecl δ), ∀ ct hd qy, bodyLoop renv ct ⟨p1, p2, p3, p4, p5, p6⟩ ds = bodyLoop renv ct ⟨hd, qy, p3, p4, p5, p6⟩ ds := by
        intro ds ct hd qy
        induction ds with
        | nil => rfl
        | cons d ds ih => simp only [bodyLoop, ih]
      simp only [← this]
    refine ⟨l, _, hl, prepare_ok.2 ⟨sc, path, url, ct, data, files, acc, e1, e2, e3, e4', e5, rfl⟩, rfl, rfl, rfl, rfl, rfl, ?_, rfl⟩
    simp only [C63.authorised, hc, authorise]

/-- **C86, address.** A request made by calling the operation and sent by a client goes with the method the document
has for it, to the host the document names (else that of the URL the document was loaded from, else `localhost`), by a
scheme that the client knows and the document allows, and from its path a server with the route written in the document,
below the base path, reads the path arguments of the call. -/
theorem C86_address {env : Prim.Env ω} {leaf : Prim.Prim ω → Except Exc Str} {fuel : Nat} {ps : List Call.Decl}
    {files : Call.FileArg ω → FileVal} {args : Dict Str Val} {renv : Io.Env (Prim.Prim ω) δ π} {r : Req (Prim.Prim ω) π}
    {res : SendResult (Prim.Prim ω) π} (hop : Says s a p k m op)
    (ha : Ask.ask env leaf fuel ps files op args = .ok r) (h : send renv op c opt hs r = .ok res) (hw : Dict.WF opt)
    (ho : C26.given opt c!"url_netloc" = none ∧ C26.given opt c!"url_scheme" = none)
    (hh : ∀ h, Host s.host p.netloc h → '{' ∉ h ∧ '}' ∉ h) (plus : Bool) {t : List Seg} (ht : C72.Plain t)
    (hk : rooted (s.basePath.getD [] ++ k) = written t)
    (hb : ∀ n ∈ holes t, ∀ x, Dict.get? r.p.path n = some x → plus = true ∨ ' ' ∉ x) :
    res.sent.method = m ∧ ∃ scheme host path l, res.sent.url = scheme ++ c!"://" ++ host ++ path ∧
      Host s.host p.netloc host ∧ scheme ∈ c.schemes ∧ scheme ∈ orElse a.schemes (orElse s.schemes [p.scheme]) ∧
      readPath plus t path = some l ∧ l.map Prod.fst = holes t ∧
      ∀ q v, C72.Supplied env ps args q v → q.in_ = c!"path" → ∃ c x, Call.prim env fuel q v = .ok c ∧
        Call.text leaf c = .ok x ∧ ∀ y, (q.name, y) ∈ l → y = x := by
  have hr : reset op r = r := by
    obtain ⟨s, -, rfl⟩ := C72.ask_ok ha
    rfl
  obtain ⟨l, r', hl, hp, e1, e2, -⟩ := C86_transfer hr h
  obtain ⟨host, h1, h2⟩ := hop.url
  rw [hk] at h2
  obtain ⟨scheme, path, x, f1, f2, f3, f4, f5⟩ := C72.C72_url plus ha hp (hh host h1) ht h2 hb
  have hch := C25.C25_choice _ _ _ _ _ hl f2
  refine ⟨e1.trans hop.method, scheme, host, path, x, ?_, h1, hch.1.1, hop.schemes ▸ hch.1.2, f3, f4, f5⟩
  rw [e2, f1]
  exact C26.C26_unchanged opt hw _ ho.1 ho.2

/-- **C86, accepted media type.** The header `Accept` of a request for which none was chosen is the first media type the
document lists. -/
theorem C86_accept (hop : Says s a p k m op) (h : send renv op c opt hs r = .ok res) (hn : r.produce = none) {x : Str}
    {l : List Str} (hx : orElse a.produces s.produces = x :: l) (hne : x ≠ []) {n : Str}
    (hl : renv.lower n = renv.lower c!"Accept") : CIDict.getitem renv.lower res.req.header n = .ok x := by
  obtain ⟨sl, r2, hh, -, h2, -, rfl⟩ := C20.send_ok.1 h
  have hp : (authorise c.security op (reset op r)).produce = none ∧ (authorise c.security op (reset op r)).header = [] := by
    unfold authorise
    cases c.security <;> exact ⟨hn, rfl⟩
  obtain ⟨ct, d, fs, -, -, -, hk⟩ := C63.C63_headers renv op _ _ _ _ hp.2 h2
  have hacc : C24.acceptType op.produces none = some x := by
    rw [hop.produces, hx]
    cases x with
    | nil => exact absurd rfl hne
    | cons c x => rfl
  have := hk n
  rw [hp.1, hacc, if_pos ⟨hl, by simp⟩] at this
  exact this

/-- **C86, announced media type.** If a request carries a payload of which the media type is announced, the document
lists this type (or lists none). -/
theorem C86_content (hop : Says s a p k m op) (h : send renv op c opt hs r = .ok res) :
    (r.p.file ≠ [] → c.handleFiles = true → C24.declared (orElse a.consumes s.consumes) c!"multipart/form-data") ∧
    (r.p.file = [] → r.p.formData ≠ [] → C24.declared (orElse a.consumes s.consumes) c!"application/x-www-form-urlencoded") ∧
    (r.p.file = [] → r.p.formData = [] → r.p.body ≠ [] →
      C24.declared (orElse a.consumes s.consumes) (C24.bodyType (orElse a.consumes s.consumes) r.consume)) := by
  obtain ⟨sl, r2, hh, -, h2, -, rfl⟩ := C20.send_ok.1 h
  obtain ⟨sc, path, url, ct, data, files, acc, -, -, -, e4, -, -⟩ := prepare_ok.1 h2
  have hp : (authorise c.security op (reset op r)).p.file = r.p.file ∧
      (authorise c.security op (reset op r)).p.formData = r.p.formData ∧
      (authorise c.security op (reset op r)).p.body = r.p.body ∧ (authorise c.security op (reset op r)).consume = r.consume := by
    unfold authorise
    cases c.security <;> exact ⟨rfl, rfl, rfl, rfl⟩
  obtain ⟨p1, p2, p3, p4⟩ := hp
  have hrej := C24.C24_rejected renv op (authorise c.security op (reset op r)).p (authorise c.security op (reset op r)).consume c.handleFiles
  rw [p1, p2, p3, p4, hop.consumes] at hrej
  rw [p4] at e4
  refine ⟨fun h1 h2 => ?_, fun h1 h2 => ?_, fun h1 h2 h3 => ?_⟩
  · by_cases hd : C24.declared (orElse a.consumes s.consumes) c!"multipart/form-data"
    · exact hd
    · have := hrej.1 h1 h2 hd
      rw [this] at e4; cases e4
  · by_cases hd : C24.declared (orElse a.consumes s.consumes) c!"application/x-www-form-urlencoded"
    · exact hd
    · have := hrej.2.1 h1 h2 hd
      rw [this] at e4; cases e4
  · by_cases hd : C24.declared (orElse a.consumes s.consumes) (C24.bodyType (orElse a.consumes s.consumes) r.consume)
    · exact hd
    · have := hrej.2.2 h1 h2 h3 hd
      rw [this] at e4; cases e4

/-- **C86, no security.** If the document asks for no credentials (the operation says `security: []`, or neither it nor
the document says anything), none are sent. -/
theorem C86_open (hop : Says s a p k m op) (hreq : Spec.Service.required (Spec.Service.inForce a.security s.security) = []) :
    send renv op c opt hs r = send renv op { c with security := none } opt hs r := by
  have : authorise c.security op (reset op r) = reset op r := by
    unfold authorise
    cases hc : c.security with
    | none => rfl
    | some info =>
      simp only []
      rw [hop.security, C18.C18_unchanged info _ _ ?_]
      intro l hl d hd n hn
      rw [hl] at hreq
      simp only [Spec.Service.required, List.flatMap_eq_nil_iff] at hreq
      have := hreq d hd
      unfold Dict.keys at hn
      rw [this] at hn
      cases hn
  unfold send
  simp only [this]
  rfl
end

/-! ## credentials -/

/-- what a request carries for a kind of credentials, made from what the user registers -/
def Carries : Spec.Service.Kind → SecurityInfo → Cred → Prop
  | .basic, .tuple [u, w], c => c.header = true ∧ c.key = c!"Authorization" ∧ ∃ b t, latin1 (u ++ c!":" ++ w) = .ok b ∧
      c.cred = c!"Basic " ++ t ∧ Spec.b64decode false t = some b
  | .key h n, .str t, c => c = ⟨h, n, t⟩
  | .oauth2, .str t, c => c = ⟨true, c!"access_token", t⟩
  | _, _, _ => False

/-- what a user can register for a kind of credentials -/
def Apt : Spec.Service.Kind → SecurityInfo → Prop
  | .basic, .tuple [u, w] => ∃ b, latin1 (u ++ c!":" ++ w) = .ok b
  | .key _ _, .str _ => True
  | .oauth2, .str _ => True
  | _, _ => False

/-- the last registration of `n` is `i` -/
def Last (regs : List (Str × SecurityInfo)) (n : Str) (i : SecurityInfo) : Prop :=
  ∃ l1 l2, regs = l1 ++ (n, i) :: l2 ∧ ∀ x ∈ l2, x.1 ≠ n

/-- the document defines the security scheme `n` -/
def Defined (sq : Dict Str Tree) (n : Str) (kd : Spec.Service.Kind) : Prop :=
  ∃ sd dq, Dict.get? sq c!"securityDefinitions" = some (.dict sd) ∧ Dict.get? sd n = some (.dict dq) ∧ Spec.Service.Defines dq kd

theorem get_filterMap {α β : Type} (g : α → Option β) (d : List (Str × α)) {n : Str} {x : α} {y : β}
    (h : Dict.get? d n = some x) (hy : g x = some y) :
    Dict.get? (d.filterMap fun e => (g e.2).map fun z => (e.1, z)) n = some y := by
  induction d with
  | nil => cases h
  | cons e d ih =>
    obtain ⟨k, v⟩ := e
    unfold Dict.get? at h
    by_cases hk : k = n
    · rw [if_pos hk] at h
      cases h
      simp only [List.filterMap_cons, hy, Option.map_some]
      unfold Dict.get?
      rw [if_pos hk]
    · rw [if_neg hk] at h
      simp only [List.filterMap_cons]
      cases g v with
      | none => exact ih h
      | some z =>
        simp only [Option.map_some]
        unfold Dict.get?
        rw [if_neg hk]
        exact ih h

/-- the security scheme of a name is the one the document defines -/
theorem defs_get (hl : Loads D p T R) {sq : Dict Str Tree} (hD : D = .dict sq) {n : Str} {kd : Spec.Service.Kind}
    (h : Defined sq n kd) : ∃ sc, Dict.get? (_root_.Service.defs R) n = some sc ∧
      match kd with
      | .basic => sc.type = some c!"basic"
      | .key h x => sc.type = some c!"apiKey" ∧ sc.name = x ∧ sc.in_ = some (if h then c!"header" else c!"query")
      | .oauth2 => sc.type = some c!"oauth2" := by
  subst hD
  obtain ⟨sd, dq, h1, h2, h3⟩ := h
  have hw : Written (.dict sq) [c!"securityDefinitions", n] cSecurityScheme dq :=
    ⟨.one cSecurityScheme, .inl rfl, .field (.inl rfl) h1 (by decide : _ = some (.dict cSecurityScheme)) (.key h2 .here)⟩
  obtain ⟨gs, e1, e2⟩ := fields_written hl hw
  obtain ⟨fs, rfl, -, -, hf⟩ := C84.C84_reads .swagger sq T hl.read
  obtain ⟨y, y1, y2⟩ := hf c!"securityDefinitions" (.byName .securityScheme) (Dict.mem_of_get? (by rfl)) (by unfold Spec.Swagger20.Unread; simp)
  rw [h1] at y2
  cases y2 with
  | names _ =>
  rename_i xs _
  have hR : R = .obj cSwagger (mapFields (absolute (urlunparse p)) fs) := by
    rw [normal_form hl, mapRefs]
    rfl
  have hv : Dict.get? (mapFields (absolute (urlunparse p)) fs) c!"securityDefinitions" =
      some (.dict (mapDict (absolute (urlunparse p)) xs)) := by
    rw [get_mapFields, y1, Option.map_some, mapField, if_neg (by decide), mapRefs]
  rw [hR] at e1
  refine ⟨_root_.Service.schemeOf gs, ?_, ?_⟩
  · rw [hR]
    generalize mapDict (absolute (urlunparse p)) xs = d at hv
    rw [Tree.resolve, hv] at e1
    unfold _root_.Service.defs attr
    dsimp only at e1 ⊢
    rw [hv]
    rw [Tree.resolve] at e1
    cases hx : Dict.get? d n with
    | none => rw [hx] at e1; cases e1
    | some x =>
      rw [hx] at e1
      dsimp only at e1
      rw [Tree.resolve] at e1
      cases e1
      have := get_filterMap (fun t : Tree => match t with | .obj _ gs => some (_root_.Service.schemeOf gs) | _ => none) d hx rfl
      rw [← this]
      congr 1
      apply List.filterMap_congr
      intro e _
      obtain ⟨k, v⟩ := e
      cases v <;> rfl
  · cases kd with
    | basic =>
      have := maybe_of (s := some c!"basic") rfl (e2 c!"type" (.atom .none) (by decide) (by rfl) (by decide)) h3
      exact this
    | oauth2 =>
      have := maybe_of (s := some c!"oauth2") rfl (e2 c!"type" (.atom .none) (by decide) (by rfl) (by decide)) h3
      exact this
    | key h x =>
      obtain ⟨a1, a2, a3⟩ := h3
      have b1 := maybe_of (s := some c!"apiKey") rfl (e2 c!"type" (.atom .none) (by decide) (by rfl) (by decide)) a1
      have b2 := maybe_of (s := some x) rfl (e2 c!"name" (.atom .none) (by decide) (by rfl) (by decide)) a2
      have b3 := maybe_of (s := some (if h then c!"header" else c!"query")) rfl (e2 c!"in" (.atom .none) (by decide) (by rfl) (by decide)) a3
      refine ⟨b1, ?_, b3⟩
      unfold _root_.Service.schemeOf
      rw [b2]
      rfl

/-- **C86, registered credentials.** What a client holds for a security scheme of the document is made from the last
registration, in the way the document says. -/
theorem C86_registered (hl : Loads D p T R) {sq : Dict Str Tree} (hD : D = .dict sq) {n : Str} {kd : Spec.Service.Kind}
    (h : Defined sq n kd) {regs : List (Str × SecurityInfo)} {i : SecurityInfo} (hlast : Last regs n i) (hi : Apt kd i) :
    ∃ c, Carries kd i c ∧ Dict.get? (C18.after (_root_.Service.defs R) regs) n = some c := by
  obtain ⟨sc, h1, h2⟩ := defs_get hl hD h
  have hc : ∃ c, Carries kd i c ∧ credOf sc i = .ok c := by
    cases kd with
    | basic =>
      rcases i with (_ | ⟨u, _ | ⟨w, _ | ⟨x, l⟩⟩⟩) | t <;> try exact absurd hi id
      obtain ⟨b, hb⟩ := hi
      obtain ⟨-, -, c3⟩ := C18.C18_credential sc ⟨true, c!"Authorization", c!"Basic " ++ b64encode false b⟩
      have := (c3 u w h2).2 ⟨rfl, rfl, b, _, hb, rfl, rfl, b64decode_b64encode false b⟩
      exact ⟨_, ⟨rfl, rfl, b, _, hb, rfl, b64decode_b64encode false b⟩, this⟩
    | key hd x =>
      cases i with
      | tuple l => exact absurd hi id
      | str t =>
        obtain ⟨c1, -, -⟩ := C18.C18_credential sc ⟨hd, x, t⟩
        refine ⟨⟨hd, x, t⟩, rfl, (c1 t h2.1).2 ?_⟩
        rw [h2.2.1, h2.2.2]
        cases hd <;> rfl
    | oauth2 =>
      cases i with
      | tuple l => exact absurd hi id
      | str t =>
        obtain ⟨-, c2, -⟩ := C18.C18_credential sc ⟨true, c!"access_token", t⟩
        exact ⟨_, rfl, (c2 t h2).2 rfl⟩
  obtain ⟨c, hc1, hc2⟩ := hc
  refine ⟨c, hc1, ?_⟩
  rw [C18.get?_after]
  obtain ⟨l1, l2, rfl, hl2⟩ := hlast
  rw [List.reverse_append, List.reverse_cons, List.append_assoc]
  have hl2' : ∀ x ∈ l2.reverse, x.1 ≠ n := fun x hx => hl2 x (List.mem_reverse.1 hx)
  generalize l2.reverse = m at hl2'
  induction m with
  | nil => simp [C18.inForce, h1, hc2]
  | cons x m ih =>
    obtain ⟨n', i'⟩ := x
    rw [List.cons_append, C18.inForce, if_neg (hl2' (n', i') (by simp))]
    exact ih fun x hx => hl2' x (by simp [hx])

theorem mem_due {reg : Str → Option Cred} {sec : Option (List (Dict Str (List Str)))} {c : Cred} :
    c ∈ C18.due reg sec ↔ ∃ n ∈ Spec.Service.required sec, reg n = some c := by
  cases sec with
  | none => simp [C18.due, Spec.Service.required]
  | some l => exact List.mem_filterMap

theorem mem_query {l : List Cred} {x : Str × Str} : x ∈ C18.queryPairs l ↔ ∃ c ∈ l, c.header = false ∧ x = (c.key, c.cred) := by
  simp only [C18.queryPairs, List.mem_filterMap]
  constructor
  · rintro ⟨c, hc, h⟩
    cases hh : c.header with
    | true => simp [hh] at h
    | false => simp [hh] at h; exact ⟨c, hc, hh, h.symm⟩
  · rintro ⟨c, hc, hh, rfl⟩
    exact ⟨c, hc, by simp [hh]⟩

theorem mem_header {l : List Cred} {x : Str × Str} : x ∈ C18.headerPairs l ↔ ∃ c ∈ l, c.header = true ∧ x = (c.key, c.cred) := by
  simp only [C18.headerPairs, List.mem_filterMap]
  constructor
  · rintro ⟨c, hc, h⟩
    cases hh : c.header with
    | false => simp [hh] at h
    | true => simp [hh] at h; exact ⟨c, hc, hh, h.symm⟩
  · rintro ⟨c, hc, hh, rfl⟩
    exact ⟨c, hc, by simp [hh]⟩

section
variable {β δ π : Type} {renv : Io.Env β δ π} {op : Op δ} {c : Client} {opt : Dict Str (Option Str)} {hs : HeadersArg}
  {r : Req β π} {res : SendResult β π} {s : Spec.Service.Common} {a : Spec.Service.Own} {k m n : Str}
  {defs : Dict Str SecurityScheme} {regs : List (Str × SecurityInfo)}

/-- the names of the security schemes that the document asks for -/
def asked (s : Spec.Service.Common) (a : Spec.Service.Own) : List Str :=
  Spec.Service.required (Spec.Service.inForce a.security s.security)

theorem authorised_eq (hop : Says s a p k m op) (hc : c.security = some (C18.after defs regs)) :
    C63.authorised c op r = applySecurity (C18.after defs regs) (Spec.Service.inForce a.security s.security) ⟨r.p.header, r.p.query⟩ := by
  unfold C63.authorised
  rw [hc, hop.security]

theorem reg_eq : (fun n => C18.inForce defs n regs.reverse) = Dict.get? (C18.after defs regs) :=
  funext fun n => (C18.get?_after defs regs n).symm

theorem wf_sets : ∀ (l : List (Str × Str)) (d : Dict Str Str), Dict.WF d → Dict.WF (l.foldl (fun d v => Dict.set d v.1 v.2) d)
  | [], _, h => h
  | _ :: l, _, h => wf_sets l _ (Dict.WF_set h _ _)

theorem mem_set {d : Dict Str Str} {k v : Str} {e : Str × Str} (h : e ∈ Dict.set d k v) : e ∈ d ∨ e = (k, v) := by
  induction d with
  | nil => exact .inr (List.mem_singleton.1 h)
  | cons x d ih =>
    obtain ⟨x, y⟩ := x
    unfold Dict.set at h
    by_cases hk : x = k
    · rw [if_pos hk] at h
      rcases List.mem_cons.1 h with h | h
      · subst hk; exact .inr h
      · exact .inl (List.mem_cons_of_mem _ h)
    · rw [if_neg hk] at h
      rcases List.mem_cons.1 h with h | h
      · exact .inl (h ▸ List.mem_cons_self ..)
      · rcases ih h with h | h
        · exact .inl (List.mem_cons_of_mem _ h)
        · exact .inr h

theorem mem_sets : ∀ (l : List (Str × Str)) (d : Dict Str Str) (e : Str × Str),
    e ∈ l.foldl (fun d v => Dict.set d v.1 v.2) d → e ∈ d ∨ e ∈ l
  | [], _, _, h => .inl h
  | x :: l, d, e, h => by
    rcases mem_sets l _ e h with h | h
    · rcases mem_set h with h | rfl
      · exact .inl h
      · exact .inr (List.mem_cons_self ..)
    · exact .inr (List.mem_cons_of_mem _ h)

theorem lastCI_congr {lower : Str → Str} {x y : Str} (h : lower x = lower y) (l : List (Str × Str)) :
    C63.lastCI lower l x = C63.lastCI lower l y := by
  induction l with
  | nil => rfl
  | cons e l ih => rw [C63.lastCI, C63.lastCI, ih, h]

theorem lastCI_mem {lower : Str → Str} {x v : Str} {l : List (Str × Str)} (h : C63.lastCI lower l x = some v) :
    ∃ y, lower y = lower x ∧ (y, v) ∈ l := by
  induction l with
  | nil => cases h
  | cons e l ih =>
    rw [C63.lastCI] at h
    cases hl : C63.lastCI lower l x with
    | some w =>
      rw [hl] at h
      cases h
      obtain ⟨y, y1, y2⟩ := ih hl
      exact ⟨y, y1, List.mem_cons_of_mem _ y2⟩
    | none =>
      rw [hl] at h
      dsimp only at h
      split at h
      · rename_i he
        cases h
        exact ⟨e.1, he.symm, List.mem_cons_self ..⟩
      · cases h

/-- the headers of a request that is sent, but for those announcing media types -/
theorem sent_header (h : send renv op c opt hs r = .ok res) {x : Str} (h1 : renv.lower x ≠ renv.lower c!"Accept")
    (h2 : renv.lower x ≠ renv.lower c!"Content-Type") : CIDict.getitem renv.lower res.req.header x =
      match C63.lastCI renv.lower (C63.authorised c op r).header x with
      | some v => .ok v
      | none => .error .KeyError := by
  obtain ⟨sl, r2, hh, -, h3, -, rfl⟩ := C20.send_ok.1 h
  have hp : (authorise c.security op (reset op r)).header = [] ∧
      (authorise c.security op (reset op r)).p.header = (C63.authorised c op r).header := by
    unfold authorise C63.authorised
    cases c.security <;> exact ⟨rfl, rfl⟩
  obtain ⟨ct, d, fs, -, -, -, hk⟩ := C63.C63_headers renv op _ _ _ _ hp.1 h3
  have := hk x
  rw [if_neg (fun h => h1 h.1), if_neg (fun h => h2 h.1), hp.2] at this
  exact this

/-- **C86, credentials in the query.** A request carries in its query a credential held for a scheme the document asks
for, once or more, and nothing else under its name. -/
theorem C86_query_credential (hop : Says s a p k m op) (hc : c.security = some (C18.after defs regs))
    (h : send renv op c opt hs r = .ok res) (hn : n ∈ asked s a) {cr : Cred}
    (hcr : Dict.get? (C18.after defs regs) n = some cr) (hq : cr.header = false)
    (ho : ∀ n' ∈ asked s a, ∀ c', Dict.get? (C18.after defs regs) n' = some c' → c'.header = false → c'.key = cr.key → n' = n) :
    (cr.key, cr.cred) ∈ res.sent.query ∧ ∀ y, (cr.key, y) ∈ res.sent.query → y = cr.cred := by
  obtain ⟨-, hqy, -⟩ := C63.C63_sent renv op c opt hs r res h
  rw [authorised_eq hop hc] at hqy
  obtain ⟨-, h2, h3, -⟩ := C18.C18_query defs regs (Spec.Service.inForce a.security s.security) ⟨r.p.header, r.p.query⟩
  rw [← hqy, reg_eq] at h2 h3
  have hmem : (cr.key, cr.cred) ∈ C18.queryPairs (C18.due (Dict.get? (C18.after defs regs)) (Spec.Service.inForce a.security s.security)) :=
    mem_query.2 ⟨cr, mem_due.2 ⟨n, hn, hcr⟩, hq, rfl⟩
  have hlast : Utils.lastOf (C18.queryPairs (C18.due (Dict.get? (C18.after defs regs)) (Spec.Service.inForce a.security s.security))) cr.key
      = some (cr.key, cr.cred) := by
    cases hlo : Utils.lastOf (C18.queryPairs (C18.due (Dict.get? (C18.after defs regs)) (Spec.Service.inForce a.security s.security))) cr.key with
    | none => exact absurd rfl (Utils.lastOf_none.1 hlo _ hmem)
    | some w =>
      obtain ⟨w1, w2⟩ := Utils.lastOf_some hlo
      obtain ⟨c', m1, m2, rfl⟩ := mem_query.1 w1
      obtain ⟨n', k1, k2⟩ := mem_due.1 m1
      have := ho n' k1 c' k2 m2 w2
      subst this
      rw [hcr] at k2
      cases k2
      rfl
  have heff : ∀ y, (cr.key, y) ∈ res.sent.query → y = cr.cred := fun y hy => by
    have := h3 _ hy _ hlast
    exact congrArg Prod.snd this
  obtain ⟨x, x1, x2⟩ := h2 _ hmem
  obtain ⟨x, y⟩ := x
  cases x2
  have := heff y x1
  subst this
  exact ⟨x1, heff⟩

/-- **C86, credentials in headers.** A request carries in its headers, under any capitalisation of its name, a credential
held for a scheme the document asks for. -/
theorem C86_header_credential (hop : Says s a p k m op) (hc : c.security = some (C18.after defs regs))
    (h : send renv op c opt hs r = .ok res) (hn : n ∈ asked s a) {cr : Cred}
    (hcr : Dict.get? (C18.after defs regs) n = some cr) (hq : cr.header = true)
    (ho : ∀ n' ∈ asked s a, ∀ c', Dict.get? (C18.after defs regs) n' = some c' → c'.header = true →
      renv.lower c'.key = renv.lower cr.key → n' = n)
    (hw : Dict.WF r.p.header) (hh : ∀ x ∈ Dict.keys r.p.header, renv.lower x = renv.lower cr.key → x = cr.key)
    {x : Str} (hx : renv.lower x = renv.lower cr.key)
    (ha : renv.lower x ≠ renv.lower c!"Accept" ∧ renv.lower x ≠ renv.lower c!"Content-Type") :
    CIDict.getitem renv.lower res.req.header x = .ok cr.cred := by
  have hA := authorised_eq (r := r) hop hc
  have hget := fun k => C18.C18_header defs regs (Spec.Service.inForce a.security s.security) ⟨r.p.header, r.p.query⟩ k
  rw [← hA, reg_eq] at hget
  have hwA : Dict.WF (C63.authorised c op r).header := by
    rw [hA, C18.apply_eq]
    exact wf_sets _ _ hw
  have hmem : (cr.key, cr.cred) ∈ C18.headerPairs (C18.due (Dict.get? (C18.after defs regs)) (Spec.Service.inForce a.security s.security)) :=
    mem_header.2 ⟨cr, mem_due.2 ⟨n, hn, hcr⟩, hq, rfl⟩
  have hsame : ∀ w ∈ C18.headerPairs (C18.due (Dict.get? (C18.after defs regs)) (Spec.Service.inForce a.security s.security)),
      renv.lower w.1 = renv.lower cr.key → w = (cr.key, cr.cred) := by
    intro w w1 w2
    obtain ⟨c', m1, m2, rfl⟩ := mem_header.1 w1
    obtain ⟨n', k1, k2⟩ := mem_due.1 m1
    have := ho n' k1 c' k2 m2 w2
    subst this
    rw [hcr] at k2
    cases k2
    rfl
  have hkey : Dict.get? (C63.authorised c op r).header cr.key = some cr.cred := by
    rw [hget]
    cases hlo : Utils.lastOf (C18.headerPairs (C18.due (Dict.get? (C18.after defs regs)) (Spec.Service.inForce a.security s.security))) cr.key with
    | none => exact absurd rfl (Utils.lastOf_none.1 hlo _ hmem)
    | some w =>
      obtain ⟨w1, w2⟩ := Utils.lastOf_some hlo
      rw [hsame w w1 (by rw [w2])]
  have hone : ∀ e ∈ (C63.authorised c op r).header, renv.lower e.1 = renv.lower cr.key → e.1 = cr.key := by
    intro e he hl
    have := Dict.get?_of_mem hwA (k := e.1) (v := e.2) he
    rw [hget] at this
    cases hlo : Utils.lastOf (C18.headerPairs (C18.due (Dict.get? (C18.after defs regs)) (Spec.Service.inForce a.security s.security))) e.1 with
    | none =>
      rw [hlo] at this
      exact hh _ ((Dict.get?_isSome_iff _ _).1 (by rw [show Dict.get? r.p.header e.1 = some e.2 from this]; rfl)) hl
    | some w =>
      obtain ⟨w1, w2⟩ := Utils.lastOf_some hlo
      rw [← w2, hsame w w1 (by rw [w2, hl])]
  have hlast : C63.lastCI renv.lower (C63.authorised c op r).header x = some cr.cred := by
    rw [lastCI_congr hx]
    exact C72.lastCI_of_mem hwA (Dict.mem_of_get? hkey) hone
  rw [sent_header h ha.1 ha.2, hlast]

/-- **C86, no other credentials.** What a request carries in its query and its headers is given by the call, or a
credential of a scheme the document asks for. -/
theorem C86_private (hop : Says s a p k m op) (hc : c.security = some (C18.after defs regs))
    (h : send renv op c opt hs r = .ok res) :
    (∀ x ∈ res.sent.query, x ∈ r.p.query ∨
      ∃ n ∈ asked s a, ∃ cr, Dict.get? (C18.after defs regs) n = some cr ∧ cr.header = false ∧ x = (cr.key, cr.cred)) ∧
    ∀ x v, CIDict.getitem renv.lower res.req.header x = .ok v → renv.lower x ≠ renv.lower c!"Accept" →
      renv.lower x ≠ renv.lower c!"Content-Type" → (∃ y, renv.lower y = renv.lower x ∧ (y, v) ∈ r.p.header) ∨
        ∃ n ∈ asked s a, ∃ cr, Dict.get? (C18.after defs regs) n = some cr ∧ cr.header = true ∧
          renv.lower cr.key = renv.lower x ∧ v = cr.cred := by
  refine ⟨fun x hx => ?_, fun x v hv h1 h2 => ?_⟩
  · obtain ⟨-, hqy, -⟩ := C63.C63_sent renv op c opt hs r res h
    rw [authorised_eq hop hc] at hqy
    obtain ⟨g1, -, g3, g4⟩ := C18.C18_query defs regs (Spec.Service.inForce a.security s.security) ⟨r.p.header, r.p.query⟩
    rw [← hqy, reg_eq] at g1 g3 g4
    cases hlo : Utils.lastOf (C18.queryPairs (C18.due (Dict.get? (C18.after defs regs)) (Spec.Service.inForce a.security s.security))) x.1 with
    | none =>
      left
      have hno : x.1 ∉ (C18.queryPairs (C18.due (Dict.get? (C18.after defs regs)) (Spec.Service.inForce a.security s.security))).map Prod.fst := by
        intro hm
        obtain ⟨w, w1, w2⟩ := List.mem_map.1 hm
        exact Utils.lastOf_none.1 hlo w w1 w2
      have hm : x ∈ res.sent.query.filter (fun y => decide (y.1 ∉ (C18.queryPairs (C18.due (Dict.get? (C18.after defs regs))
          (Spec.Service.inForce a.security s.security))).map Prod.fst)) := List.mem_filter.2 ⟨hx, decide_eq_true hno⟩
      rw [g1] at hm
      exact (List.mem_filter.1 hm).1
    | some w =>
      right
      have := g3 x hx w hlo
      subst this
      obtain ⟨c', m1, m2, m3⟩ := mem_query.1 (Utils.lastOf_some hlo).1
      obtain ⟨n', k1, k2⟩ := mem_due.1 m1
      exact ⟨n', k1, c', k2, m2, m3⟩
  · rw [sent_header h h1 h2] at hv
    cases hlast : C63.lastCI renv.lower (C63.authorised c op r).header x with
    | none => rw [hlast] at hv; cases hv
    | some w =>
    rw [hlast] at hv
    cases hv
    obtain ⟨y, y1, y2⟩ := lastCI_mem hlast
    rw [authorised_eq hop hc, C18.apply_eq] at y2
    rcases mem_sets _ _ _ y2 with y2 | y2
    · exact .inl ⟨y, y1, y2⟩
    · obtain ⟨c', m1, m2, m3⟩ := mem_header.1 y2
      obtain ⟨n', k1, k2⟩ := mem_due.1 m1
      cases m3
      exact .inr ⟨n', k1, c', k2, m2, y1, rfl⟩

/-- Credentials leave the query parameters of other names alone. -/
theorem query_kept (hop : Says s a p k m op) (hc : c.security = some (C18.after defs regs))
    (h : send renv op c opt hs r = .ok res) {nm : Str}
    (ho : ∀ n ∈ asked s a, ∀ cr, Dict.get? (C18.after defs regs) n = some cr → cr.header = false → cr.key ≠ nm) :
    (res.sent.query.filter fun x => x.1 = nm) = r.p.query.filter fun x => x.1 = nm := by
  obtain ⟨-, hqy, -⟩ := C63.C63_sent renv op c opt hs r res h
  rw [authorised_eq hop hc] at hqy
  obtain ⟨g1, -, -, -⟩ := C18.C18_query defs regs (Spec.Service.inForce a.security s.security) ⟨r.p.header, r.p.query⟩
  rw [← hqy, reg_eq] at g1
  have hno : nm ∉ (C18.queryPairs (C18.due (Dict.get? (C18.after defs regs)) (Spec.Service.inForce a.security s.security))).map Prod.fst := by
    intro hm
    obtain ⟨w, w1, w2⟩ := List.mem_map.1 hm
    obtain ⟨c', m1, m2, rfl⟩ := mem_query.1 w1
    obtain ⟨n', k1, k2⟩ := mem_due.1 m1
    exact ho n' k1 c' k2 m2 w2
  have key : ∀ l : List (Str × Str), (l.filter fun x => decide (x.1 = nm)) =
      (l.filter (fun y => decide (y.1 ∉ (C18.queryPairs (C18.due (Dict.get? (C18.after defs regs))
          (Spec.Service.inForce a.security s.security))).map Prod.fst))).filter fun x => decide (x.1 = nm) := by
    intro l
    rw [List.filter_filter]
    apply List.filter_congr
    intro x _
    by_cases hx : x.1 = nm
    · rw [hx, decide_eq_true hno]; simp
    · simp [hx]
  rw [key, g1, ← key]
end

/-! ## arguments -/

section
open Prim Spec.Described Spec.SchemaDoc Spec.Conform Spec.Wire Spec.Reply Proofs.Wire Proofs.Effective Props.C78 Props.C79
open Props.C81 (Present Value Legible Clear inUrl Literal)
open Props.C83 (Asked Schemed)
open Call Ask

variable {o : Objects.Outside} {w : World.Outside} {e : Prim.Env World.Atom} {other : Prim World.Atom → Str}
  {S : Dict Str Tree → Prop} {form : Str → Str → Prop} {N : Prop} {order : List Atom → List Atom}
  {look : Str → Option (Dict Str Tree)} {qs us : List (Dict Str Tree)} {files : FileArg World.Atom → FileVal}
  {k : Dict Str Val} {nm path m : Str} {sq q iq oq : Dict Str Tree} {s : Spec.Service.Common} {a : Spec.Service.Own}

/-- **C86, query arguments.** From the query of a request as it is sent, with credentials, a server reads for a parameter of
the document a value that conforms to it, if no credential asked for goes under its name. -/
theorem C86_query {π : Type} {renv : Io.Env (Prim World.Atom) Nat π} (hl : Loads D p T R) (hst : Styled D)
    (ho : ∀ l, (order l).Perm l) (hasked : Asked D p [c!"paths", path] m iq oq qs us) (hw : C74.Sound w)
    (hS : Within S) (hform : Forms (World.env w e) (inUrl w other) form) (hq : q ∈ inForce qs us) (hSq : S q)
    (hname : Dict.get? q c!"name" = some (.atom (.str nm))) (hin : Dict.get? q c!"in" = some (.atom (.str c!"query")))
    (hpr : Present q k nm) (hD : D = .dict sq) (hs : s.In sq) (hat : At sq path m oq) (ha : a.In oq) :
    ∃ b, ∀ mfuel, b ≤ mfuel → ∀ rounds, b ≤ rounds → ∀ deref, ∃ ps op,
      Objects.decls o (urlunparse p) R order mfuel ((elements [c!"paths", path, m] c!"parameters" oq).map o.num)
        ((elements [c!"paths", path] c!"parameters" iq).map o.num) = some ps ∧
      _root_.Service.operation (urlunparse p) R [c!"paths", path] m deref ps = some op ∧ Says s a p path m op ∧
      ∀ {fuel : Nat} {r : Req (Prim World.Atom) π} {c : Client} {opt : Dict Str (Option Str)} {hs : HeadersArg}
        {res : SendResult (Prim World.Atom) π} {regs : List (Str × SecurityInfo)},
      ask (World.env w (Objects.env o (urlunparse p) R order mfuel rounds e)) (World.leaf w other) fuel ps files op k = .ok r →
      send renv op c opt hs r = .ok res → c.security = some (C18.after (_root_.Service.defs R) regs) →
      (∀ n ∈ asked s a, ∀ cr, Dict.get? (C18.after (_root_.Service.defs R) regs) n = some cr → cr.header = false → cr.key ≠ nm) →
      ∃ v x, Value q k nm v ∧
        (∃ d, Declared (World.env w (Objects.env o (urlunparse p) R order mfuel rounds e)) d q ∧
          convert (World.env w (Objects.env o (urlunparse p) R order mfuel rounds e)) fuel d.obj v false = .ok x) ∧
        (Legible (World.leaf w other) x → ∃ val,
          ReadsAll q ((res.sent.query.filter fun x => x.1 = nm).map Prod.snd) val ∧
          Conforms (fun _ => none) form False q val) := by
  obtain ⟨b, hb⟩ := C83.C83_operation (o := o) hl hst ho hasked hw
  refine ⟨b, fun mfuel hm rounds hr deref => ?_⟩
  obtain ⟨ps, h1, h2⟩ := hb mfuel hm rounds hr
  obtain ⟨op, e1, e2, -⟩ := C86_operation hl hD hs hat ha deref ps
  refine ⟨ps, op, h1, e1, e2, fun {fuel r c opt hs res regs} hask hsend hc hno => ?_⟩
  have hres : reset op r = r := by
    obtain ⟨s, -, rfl⟩ := C72.ask_ok hask
    rfl
  obtain ⟨l, r', -, hp, -, -, -, -, -, -, hqy⟩ := C86_transfer hres hsend
  obtain ⟨d, v, c, g1, g2, g3, g4⟩ := C82.C82_query hl (h2 e) hS ⟨hform.email, hform.object, hform.unknown⟩ hq hSq hname hin hpr hask hp
  rw [hqy, ← query_kept e2 hc hsend hno] at g4
  exact ⟨v, c, g2, ⟨d, g1, g3⟩, g4⟩

/-- **C86, body.** The payload of a request as it is sent is a JSON text, and the value any reader of RFC 8259 reads from
it conforms to the schema the document writes for the body. -/
theorem C86_body (hl : Loads D p T R) (hst : Styled D) (ho : ∀ l, (order l).Perm l) (he : ∀ l, (e.order l).Perm l)
    (hasked : Asked D p [c!"paths", path] m iq oq qs us) (hw : C74.Sound w) (hsch : Schemed D p look S)
    (hdef : ∀ q, S q → Defaults N q) {enc : Prim.Json.Enc World.Atom} (hform : Forms (World.env w e) enc.toJson form)
    {leaf : Prim World.Atom → Except Exc Str} {renv : Io.Env (Prim World.Atom) Nat Str} (hq : q ∈ inForce qs us)
    (hname : Dict.get? q c!"name" = some (.atom (.str nm))) (hin : Dict.get? q c!"in" = some (.atom (.str c!"body")))
    (hty : Dict.get? q c!"type" = none) (hit : Dict.get? q c!"items" = none)
    (hone : ∀ d ∈ inForce qs us, Dict.get? d c!"in" = some (.atom (.str c!"body")) → nameIn d = some nm)
    {sc : Dict Str Tree} (hsc : Dict.get? q c!"schema" = some (.dict sc)) (hS : S sc) {v : Val}
    (hk : Dict.get? k nm = some v) (hv : Proper N v)
    (hD : D = .dict sq) (hs : s.In sq) (hat : At sq path m oq) (ha : a.In oq) :
    ∃ b, ∀ mfuel, b ≤ mfuel → ∀ rounds, b ≤ rounds → ∀ deref, ∃ ps op,
      Objects.decls o (urlunparse p) R order mfuel ((elements [c!"paths", path, m] c!"parameters" oq).map o.num)
        ((elements [c!"paths", path] c!"parameters" iq).map o.num) = some ps ∧
      _root_.Service.operation (urlunparse p) R [c!"paths", path] m deref ps = some op ∧ Says s a p path m op ∧
      ∀ {fuel : Nat} {r : Req (Prim World.Atom) Str} {c : Client} {opt : Dict Str (Option Str)} {hs : HeadersArg}
        {res : SendResult (Prim World.Atom) Str},
      ask (World.env w (Objects.env o (urlunparse p) R order mfuel rounds e)) leaf fuel ps files op k = .ok r →
      send renv op c opt hs r = .ok res → r.p.file = [] → r.p.formData = [] →
      (∀ b d, renv.marshal (C24.bodyType (orElse a.consumes s.consumes) r.consume) b d = Prim.Json.marshal enc b) →
      ∃ n x, (∃ d ∈ ps, Declared (World.env w (Objects.env o (urlunparse p) R order mfuel rounds e)) d q ∧ d.schema = some n) ∧
        convert (World.env w (Objects.env o (urlunparse p) R order mfuel rounds e)) fuel n v false = .ok x ∧
        ∀ u, C70.jsonOf enc.toJson x = .ok u → Spec.Json.Plain enc.repr u →
          ∃ body, res.sent.data = .payload body ∧ Spec.Json.readJson body = some u ∧ Conforms look form N sc u := by
  obtain ⟨b1, h1⟩ := C83.C83_operation (o := o) hl hst ho hasked hw
  obtain ⟨b2, h2⟩ := C83.C83_schemata (o := o) (order := order) hl hsch
  refine ⟨b1 + b2, fun mfuel hm rounds hr deref => ?_⟩
  obtain ⟨ps, f1, f2⟩ := h1 mfuel (by omega) rounds (by omega)
  obtain ⟨op, e1, e2, e3⟩ := C86_operation hl hD hs hat ha deref ps
  refine ⟨ps, op, f1, e1, e2, fun {fuel r c opt hs res} hask hsend hfile hfd hmar => ?_⟩
  have hres : reset op r = r := by
    obtain ⟨s, -, rfl⟩ := C72.ask_ok hask
    rfl
  obtain ⟨l, r', -, hp, -, -, -, hdata, -⟩ := C86_transfer hres hsend
  rw [← e2.consumes] at hmar
  obtain ⟨d, n, x, g1, g2, g3, g4, g5⟩ := C82.C82_body hl (f2 e) (h2 rounds (by omega) (World.env w e) rfl he mfuel) hdef
    ⟨hform.email, hform.object, hform.unknown⟩ hask hp hfile hfd hq hname hin hty hit hone e3 hmar hsc hS hk hv
  rw [hdata]
  exact ⟨n, x, ⟨d, g1, g2, g3⟩, g4, g5⟩
end

end Props.C86
