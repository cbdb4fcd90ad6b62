import Verif.Proofs.Prepared
import Verif.Props.C72
import Verif.Props.C73
import Mathlib.Data.List.Forall2
/-!
# C77: the parameters of a call are the ones the document declares

`Effective.parameters W order fuel own up` are the objects `final(p)` of an operation with the Parameter objects `own`
in a path item with the Parameter objects `up`, after `Merge` and `PatchObject`. `Means W k i q` says that the dict `q`
of the document declares the object `i`: in place, or at the end of a chain of references. `Declared env p q` says what
the parameter `p` of `Operation.__call__` has to be.
-/

namespace Props.C77
open Py Tree _root_.Doc Prim Call Spec.Doc Spec.Merge Spec.MergeRefs Spec.Described Proofs.Effective
open _root_.Effective (Declares Shows attr finals nameOf nodeOf text?)

variable {ω : Type} {W : MergeRefs.World} {order : List Atom → List Atom} {env : Env ω} {fuel : Nat}

/-- The `final` of a Parameter object says what the dict that declares it says: in place or referenced makes no
difference. -/
theorem C77_parameter (ho : ∀ l, (order l).Perm l) {k i : Nat} {q : Dict Str Tree} (hm : Means W k i q) {t : Tree}
    (he : MergeRefs.effective W order cParameter fuel i = some (.value t)) {p : Decl} (hp : Declares env p t) :
    Declared env p q := by
  obtain ⟨_, fs, gs, h1, rfl, h3⟩ := effective_copied (Or.inl rfl) ho hm he
  exact declared h1 h3 hp

/-- The schema of a body parameter is a copy of the one written in the dict that declares it. -/
theorem C77_schema (ho : ∀ l, (order l).Perm l) {k i : Nat} {q : Dict Str Tree} (hm : Means W k i q) {t : Tree}
    (he : MergeRefs.effective W order cParameter fuel i = some (.value t)) {s : Dict Str Tree}
    (hs : Dict.get? q c!"schema" = some (.dict s)) :
    ∃ gs o w, t = .obj cParameter gs ∧ parse v20 cSchema (.dict s) = some o ∧ attr gs c!"schema" = w ∧
      Copy v20 (.one cSchema) o w := by
  obtain ⟨_, fs, gs, h1, rfl, h3⟩ := effective_copied (Or.inl rfl) ho hm he
  rcases child (n := c!"schema") (c' := cSchema) h1 h3 (by decide) rfl rfl with ⟨hq, _⟩ | ⟨e, fs', gs', he', hpe, ha, hc⟩
  · rcases hq with hq | hq <;> rw [hq] at hs <;> cases hs
  · rw [he'] at hs; cases hs
    exact ⟨gs, _, _, rfl, hpe, ha, hc⟩

/-! ## the list -/

/-- the final of a parameter, as the dict has it -/
def Of (p : Nat × Tree) (q : Dict Str Tree) : Prop :=
  ∃ fs gs, parse v20 cParameter (.dict q) = some (.obj cParameter fs) ∧ p.2 = .obj cParameter gs ∧ Copied cParameter fs gs

theorem of_name {p : Nat × Tree} {q : Dict Str Tree} (h : Of p q) : nameOf p = nameIn q := by
  obtain ⟨fs, gs, h1, h2, h3⟩ := h
  have := text_of (raw (n := c!"name") h1 h3 rfl rfl (by decide) (Or.inl rfl))
  rw [nameOf, h2]
  unfold Text at this
  unfold nameIn
  dsimp only
  split at this
  · exact this
  · exact this

theorem finals_of (ho : ∀ l, (order l).Perm l) {l : List Nat} {qs : List (Dict Str Tree)}
    (h : List.Forall₂ (fun i q => ∃ k, Means W k i q) l qs) : ∀ {fs}, finals W order fuel l = some fs →
    List.Forall₂ Of fs qs := by
  induction h with
  | nil => intro fs h; cases h; exact .nil
  | @cons i q l qs hi _ ih =>
    intro fs h
    obtain ⟨k, hm⟩ := hi
    rw [finals] at h
    split at h
    · next t he =>
      cases hf : finals W order fuel l with
      | none => rw [hf] at h; cases h
      | some fs' =>
        rw [hf] at h; cases h
        obtain ⟨_, a, b, h1, h2, h3⟩ := effective_copied (Or.inl rfl) ho hm he
        exact .cons ⟨a, b, h1, h2, h3⟩ (ih hf)
    · cases h

theorem names_of {fs : List (Nat × Tree)} {qs : List (Dict Str Tree)} (h : List.Forall₂ Of fs qs) :
    fs.map nameOf = qs.map nameIn := by
  induction h with
  | nil => rfl
  | cons h _ ih => rw [List.map_cons, List.map_cons, of_name h, ih]

theorem fresh_of {fs : List (Nat × Tree)} {qs : List (Dict Str Tree)} (h : List.Forall₂ Of fs qs) :
    ∀ seen, List.Forall₂ Of (C50.fresh nameOf seen fs) (unnamed seen qs) := by
  induction h with
  | nil => intro _; exact .nil
  | cons h _ ih =>
    intro seen
    rw [C50.fresh, unnamed, of_name h]
    split
    · exact ih seen
    · exact .cons h (ih _)

/-- the objects `final(p)` are those of the declarations in force -/
theorem parameters_of (ho : ∀ l, (order l).Perm l) {own up : List Nat} {qs us : List (Dict Str Tree)}
    (hown : List.Forall₂ (fun i q => ∃ k, Means W k i q) own qs) (hup : List.Forall₂ (fun i q => ∃ k, Means W k i q) up us)
    {ts : List Tree} (h : _root_.Effective.parameters W order fuel own up = some ts) :
    ∃ l, List.Forall₂ Of l (inForce qs us) ∧ ts = l.map Prod.snd := by
  unfold _root_.Effective.parameters at h
  cases ho' : finals W order fuel own with
  | none => rw [ho'] at h; cases h
  | some fo =>
    cases hu' : finals W order fuel up with
    | none => rw [ho', hu'] at h; cases h
    | some fu =>
      rw [ho', hu'] at h
      have h1 := finals_of ho hown ho'
      have h2 := finals_of ho hup hu'
      dsimp only at h
      refine ⟨_, ?_, (Option.some.inj h).symm⟩
      unfold Patch.parameters inForce
      dsimp only
      cases h1 with
      | nil => exact h2
      | @cons p q fo qs hpq h1 =>
        rw [List.isEmpty_cons, if_neg (by decide), if_neg (by simp), C50.append_eq, names_of (.cons hpq h1)]
        exact List.rel_append (.cons hpq h1) (fresh_of h2 _)

/-- **C77.** The parameters an operation is called with are exactly the declarations in force, in order: its own and
those of its path item with another name, each as the document says, wherever it is written. -/
theorem C77_parameters (ho : ∀ l, (order l).Perm l) {own up : List Nat} {qs us : List (Dict Str Tree)}
    (hown : List.Forall₂ (fun i q => ∃ k, Means W k i q) own qs) (hup : List.Forall₂ (fun i q => ∃ k, Means W k i q) up us)
    {ts : List Tree} (h : _root_.Effective.parameters W order fuel own up = some ts) {ps : List Decl}
    (hp : List.Forall₂ (Declares env) ps ts) : List.Forall₂ (Declared env) ps (inForce qs us) := by
  obtain ⟨l, hl, rfl⟩ := parameters_of ho hown hup h
  clear h
  generalize inForce qs us = q at hl
  induction hl generalizing ps with
  | nil => cases hp; exact .nil
  | cons hx _ ih =>
    cases hp with
    | cons ha hb =>
      obtain ⟨fs, gs, e1, e2, e3⟩ := hx
      rw [e2] at ha
      exact .cons (declared e1 e3 ha) (ih hb)

/-! ## preparing succeeds -/

/-- Preparing a declared parameter does not raise, however many references lead to the declaration; what is read from
the dict has to be of the usual shape (no list or dict as `collectionFormat`). -/
theorem C77_prepared {k i : Nat} {q : Dict Str Tree} (hm : Means W k i q)
    (hs : ∀ o, parse v20 cParameter (.dict q) = some o → Shaped v20 (.one cParameter) o) (hk : k < fuel) :
    ∃ t, MergeRefs.effective W order cParameter fuel i = some (.value t) :=
  Proofs.Prepared.prepared (.inl rfl) hm hs hk

/-! ## from the document to the server -/

theorem names_declared {ps : List Decl} {qs : List (Dict Str Tree)} (h : List.Forall₂ (Declared env) ps qs) :
    ps.map (fun p => some p.name) = qs.map nameIn := by
  induction h with
  | nil => rfl
  | cons h _ ih =>
    rw [List.map_cons, List.map_cons, ih]
    congr 1
    unfold nameIn
    rw [h.name]

/-- **C77, an integer in a query.** The document declares an integer query parameter `q`, for the operation or its path
item, in place or by reference; then a server reads the integer given for it under its name, and the integer lies within
the limits the document states. -/
theorem C77_integer {w : World.Outside} {e : Prim.Env World.Atom} {other : Prim World.Atom → Str} {δ π : Type}
    (ho : ∀ l, (order l).Perm l) {own up : List Nat} {qs us : List (Dict Str Tree)}
    (hown : List.Forall₂ (fun i q => ∃ k, Means W k i q) own qs) (hup : List.Forall₂ (fun i q => ∃ k, Means W k i q) up us)
    {ts : List Tree} (h : _root_.Effective.parameters W order fuel own up = some ts) {ps : List Decl}
    (hp : List.Forall₂ (Declares (World.env w e)) ps ts) (hderef : ∀ p ∈ ps, e.deref p.obj = .ok p.obj)
    (hnd : ((inForce qs us).map nameIn).Nodup)
    {q : Dict Str Tree} (hq : q ∈ inForce qs us) {nm : Str} (hname : Dict.get? q c!"name" = some (.atom (.str nm)))
    (hin : Dict.get? q c!"in" = some (.atom (.str c!"query"))) (htype : Dict.get? q c!"type" = some (.atom (.str c!"integer")))
    (hformat : Dict.get? q c!"format" = none) (hitems : Dict.get? q c!"items" = none)
    {files : FileArg World.Atom → Io.FileVal} {op : Io.Op δ} {k : Dict Str Val} {n : Nat} {r r' : Io.Req (Prim World.Atom) π}
    {renv : Io.Env (Prim World.Atom) δ π} {sch : Io.SchemeArg} {hf : Bool}
    (ha : Ask.ask (World.env w e) (World.leaf w other) (n + 1) ps files op k = .ok r) (hr : Io.prepare renv op sch hf r = .ok r')
    {m : Int} (hk : Dict.get? k nm = some (.int m)) :
    (∃ t, (r'.p.query.filter fun x => x.1 = nm).map Prod.snd = [t] ∧ Spec.Json.readJson t = some (.int m)) ∧
    (∀ x : Int, Dict.get? q c!"maximum" = some (.atom (.int x)) → m ≤ x) ∧
    (∀ x : Int, Dict.get? q c!"minimum" = some (.atom (.int x)) → x ≤ m) := by
  have hall := C77_parameters ho hown hup h hp
  obtain ⟨p, hpm, hd⟩ : ∃ p ∈ ps, Declared (World.env w e) p q := by
    clear hnd h hp hderef ha
    generalize inForce qs us = l at hall hq
    induction hall with
    | nil => cases hq
    | cons h1 _ ih =>
      rcases List.mem_cons.1 hq with rfl | hq
      · exact ⟨_, List.mem_cons_self .., h1⟩
      · obtain ⟨p, hp, h⟩ := ih hq
        exact ⟨p, List.mem_cons_of_mem _ hp, h⟩
  have hpn : p.name = nm := by
    have := hd.name; rw [hname] at this; simpa using this.symm
  have hpi : p.in_ = c!"query" := by
    have := hd.location; rw [hin] at this; simpa using this.symm
  have hnode : Limits q ((World.env w e).node p.obj) ∧ ((World.env w e).node p.obj).items = none := by
    cases hd.object with
    | plain h1 _ h3 => exact ⟨h1, h3⟩
    | array h1 h2 _ _ _ => rw [hitems] at h2; cases h2
  obtain ⟨hl, hit⟩ := hnode
  have ht : ((World.env w e).node p.obj).type = some c!"integer" := by
    have := hl.type; unfold Text at this; rw [htype] at this; exact this
  have hfm : ((World.env w e).node p.obj).format = none := by
    have := hl.format; unfold Text at this; rw [hformat] at this; exact this
  have htyped : Typed (World.env w e) p.obj .int := by
    refine ⟨by rw [ht]; exact ⟨by simp, by simp⟩, ?_⟩
    rw [ht, hfm]; rfl
  have hsup : C72.Supplied (World.env w e) ps k p (.int m) := by
    refine ⟨?_, hpm, by rw [ht]; decide, ?_, ?_⟩
    · have hn := names_declared hall
      rw [← hn] at hnd
      have : ps.map (fun p => some p.name) = (ps.map Decl.name).map some := by rw [List.map_map]; rfl
      rw [this] at hnd
      exact List.Pairwise.of_map some (fun a b h e => h (by rw [e])) hnd
    · rintro ⟨it, h1, _⟩
      rw [hit] at h1; cases h1
    · unfold Spec.Calls.given
      rw [hpn, hk]
  obtain ⟨c, xs, hc, hxs, hquery⟩ := (C72.C72_query ha hr).1 p _ hsup hpi
  rw [hpn] at hquery
  unfold prim at hc
  rw [if_neg (by rw [hpi]; decide)] at hc
  have heff : Prim.effective (World.env w e) p.obj (.int m) = .int m := rfl
  have h33 := (C33.C33_integer (World.env w e) n p.obj p.obj (.int m) false (hderef p hpm) htyped hl.allOf
    (by rw [heff]; simp)).2 m (by rw [heff]; rfl)
  have hrange : Spec.InRange ((World.env w e).node p.obj) m := by
    apply Classical.byContradiction
    intro hno
    rw [h33.2 hno] at hc
    cases hc
  rw [h33.1 hrange] at hc
  cases hc
  refine ⟨⟨intStr m, ?_, C73.readJson_int m⟩, fun x hx => ?_, fun x hx => ?_⟩
  · rw [hquery]
    have : C72.textsOf (World.leaf w other) (.int m) = .ok [intStr m] := rfl
    rw [this] at hxs
    cases hxs; rfl
  · have hm := hl.maximum
    unfold Number at hm
    rw [hx] at hm
    exact_mod_cast (hrange.2 _ hm).1
  · have hm := hl.minimum
    unfold Number at hm
    rw [hx] at hm
    exact_mod_cast (hrange.1 _ hm).1

/-! ## a concrete case, and what goes wrong -/

def txt (s : Str) : Tree := .atom (.str s)

/-- `limit`, declared under `#/parameters` -/
def limitQ : Dict Str Tree := [(c!"name", txt c!"limit"), (c!"in", txt c!"query"), (c!"type", txt c!"integer"),
  (c!"maximum", .atom (.int 50)), (c!"default", .atom (.int 20))]

/-- `tags`, declared in place -/
def tagsQ : Dict Str Tree := [(c!"name", txt c!"tags"), (c!"in", txt c!"query"), (c!"type", txt c!"array"),
  (c!"items", .dict [(c!"type", txt c!"string")]), (c!"default", .list [txt c!"b", txt c!"a", txt c!"b"])]

/-- the objects: `limit`, a reference to it, a reference to the reference, `tags` -/
def docs : MergeRefs.World where
  content
    | 0 => .obj cParameter (assemble parameterCls limitQ)
    | 1 => .obj cParameter (assemble parameterCls [(c!"$ref", txt c!"u#/parameters/limit")])
    | 2 => .obj cParameter (assemble parameterCls [(c!"$ref", txt c!"u#/parameters/alias")])
    | _ => .obj cParameter (assemble parameterCls [(c!"name", txt c!"tags"), (c!"in", txt c!"query"),
        (c!"type", txt c!"array"), (c!"items", .obj cItems (assemble itemsCls [(c!"type", txt c!"string")])),
        (c!"default", .list [txt c!"b", txt c!"a", txt c!"b"])])
  resolve r := if r = c!"u#/parameters/limit" then .ok 0 else if r = c!"u#/parameters/alias" then .ok 1 else .error .KeyError

theorem limit_means : Means docs 2 2 limitQ :=
  .ref (r := c!"u#/parameters/alias") (by simp) rfl rfl
    (.ref (r := c!"u#/parameters/limit") (by simp) rfl rfl (.inline (by rfl) (by rfl)))

theorem tags_means : Means docs 0 3 tagsQ := .inline (by rfl) (by rfl)

example : inForce [tagsQ] [limitQ, tagsQ] = [tagsQ, limitQ] := by
  simp only [inForce, unnamed]
  rfl

/-- the objects conversion works on -/
def objs : Nat → Node
  | 0 => nodeOf cParameter [(c!"name", txt c!"limit"), (c!"in", txt c!"query"), (c!"type", txt c!"integer"),
      (c!"maximum", .atom (.int 50)), (c!"default", .atom (.int 20)), (c!"collectionFormat", txt c!"csv")] none
  | _ => {}

example (env : Env ω) (h : env.node = objs) : Described env 0 limitQ := by
  refine .plain ?_ (Or.inl (by rfl)) (by rw [h]; rfl)
  rw [h]
  exact ⟨rfl, rfl, ⟨rfl, rfl⟩, rfl, rfl, rfl, rfl, rfl, rfl, rfl, rfl, ⟨none, rfl, rfl⟩, rfl, rfl, rfl, rfl, rfl⟩

/-- `limit`, two references away, comes after `tags` and is ready to be called -/
example (env : Env ω) (h : env.node = objs) : ∃ ts t u, _root_.Effective.parameters docs id 3 [3] [2, 3] = some ts ∧ ts = [t, u] ∧
    Declares env ⟨c!"limit", c!"query", false, 0, none⟩ u := by
  refine ⟨_, _, _, rfl, rfl, rfl, rfl, rfl, .plain rfl ?_, rfl⟩
  rw [h]; rfl

/-- the default of an array parameter, as conversion gets it -/
def defaultOf (t : Tree) : Val :=
  match t with
  | .obj c fs => (nodeOf c fs none).default
  | _ => .none

/-- **Refuted: the default of an array is sent as written.** Even when the parameter is declared in place, the list goes
through a Python `set`: duplicates are lost, and the order is up to the interpreter. -/
theorem C77_default_false : ∃ t, MergeRefs.effective docs id cParameter 1 3 = some (.value t) ∧ Means docs 0 3 tagsQ ∧
    Dict.get? tagsQ c!"default" = some (.list [txt c!"b", txt c!"a", txt c!"b"]) ∧
    defaultOf t = .list [.str c!"b", .str c!"a"] := by
  refine ⟨_, rfl, tags_means, rfl, ?_⟩
  have : defaultOf (.obj cParameter [(c!"default", .list ((distinct [.str c!"b", .str c!"a", .str c!"b"]).map .atom))]) =
      .list [.str c!"b", .str c!"a"] := by
    rw [show distinct [.str c!"b", .str c!"a", .str c!"b"] = [.str c!"b", .str c!"a"] by decide +kernel]
    rfl
  exact this

end Props.C77
