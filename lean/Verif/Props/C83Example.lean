import Verif.Props.C83
import Verif.Props.C82Example
/-!
# C83: a concrete document

The document of `Props/C82Example.lean`. Nothing about objects is given here: they are the ones `Model/Objects.lean`
makes.
-/

namespace Props.C83
open Py Utils Tree _root_.Doc Prim Spec Spec.Places Spec.Pointed Spec.Described Spec.SchemaDoc Spec.Conform Spec.Wire
open Spec.Reply _root_.Loaded Proofs.Loaded Proofs.Origin Proofs.Wire Proofs.Effective Props.C78 Props.C79
open Props.C81 (Present Value Legible Clear inUrl Literal)
open Call Io Ask Spec.Server Props.C72

/-- numbers for places -/
def code (p : List Str) : Nat := Encodable.encode (p.map (·.map Char.toNat))
def place (n : Nat) : List Str := ((Encodable.decode (α := List (List Nat)) n).getD []).map (·.map Char.ofNat)

theorem place_code (p : List Str) : place (code p) = p := by
  unfold place code
  rw [Encodable.encodek, Option.getD_some, List.map_map]
  have : ((fun x : List Nat => x.map Char.ofNat) ∘ fun x : Str => x.map Char.toNat) = id := by
    funext x
    simp [Function.comp_def]
  rw [this, List.map_id]

/-- the objects of the document have even numbers, those inside `final` odd ones -/
def outside : Objects.Outside where
  num ts := 2 * code ts
  pos n := place (n / 2)
  left ts := by rw [Nat.mul_div_cancel_left _ (by decide), place_code]
  foreign _ := .atom .none
  away _ := .error .KeyError
  path2url := id
  abspath := id
  alone _ _ h := by cases h
  spare i ts := 2 * Nat.pair i (code ts) + 1
  made n := if n % 2 = 0 then none else some ((n / 2).unpair.1, place (n / 2).unpair.2)
  makes i ts := by
    rw [if_neg (by omega), show (2 * Nat.pair i (code ts) + 1) / 2 = Nat.pair i (code ts) by omega, Nat.unpair_pair]
    dsimp only
    rw [place_code]
  apart ts := if_pos (by omega)

namespace Pets
open Props.C82.Pets

theorem styled : Styled doc := by
  intro ts c q v ⟨k, hk, hp⟩ _ hv
  have key : ((Proofs.Checked.places (.one cSwagger) doc).all fun x =>
      match x.2.2 with
      | .dict q => decide (Dict.get? q c!"collectionFormat" = none)
      | _ => true) = true := by decide +kernel
  have := List.all_eq_true.1 key _ (Proofs.Checked.place_mem hp)
  rw [of_decide_eq_true this] at hv
  cases hv

theorem getAsked : Asked doc at_ [c!"paths", c!"/pets"] c!"get" itemQ getQ [limitQ] [] where
  item := written (by decide +kernel)
  inPlace := rfl
  operation := ⟨rfl, by decide⟩
  forOp := by
    have h : elements ([c!"paths", c!"/pets"] ++ [c!"get"]) c!"parameters" getQ =
        [[c!"paths", c!"/pets", c!"get", c!"parameters", c!"0"]] := by decide +kernel
    rw [url_eq, h]
    exact .cons ⟨1, limit_stands⟩ .nil
  forItem := .nil
  texts q hq := by cases List.mem_singleton.1 hq; exact ⟨⟨_, rfl⟩, _, rfl⟩
  distinct := by decide

theorem postAsked : Asked doc at_ [c!"paths", c!"/pets"] c!"post" itemQ postQ [bodyQ] [] where
  item := written (by decide +kernel)
  inPlace := rfl
  operation := ⟨rfl, by decide⟩
  forOp := by
    have h : elements ([c!"paths", c!"/pets"] ++ [c!"post"]) c!"parameters" postQ =
        [[c!"paths", c!"/pets", c!"post", c!"parameters", c!"0"]] := by decide +kernel
    rw [url_eq, h]
    exact .cons ⟨0, body_stands⟩ .nil
  forItem := .nil
  texts q hq := by cases List.mem_singleton.1 hq; exact ⟨⟨_, rfl⟩, _, rfl⟩
  distinct := by decide

theorem answered : Answered doc at_ [c!"paths", c!"/pets", c!"get"] getQ where
  operation := written (by decide +kernel)
  stand := by
    intro x hx
    rw [url_eq]
    cases List.mem_singleton.1 hx
    exact ⟨1, _, many_stands⟩

theorem schemed : Schemed doc at_ C82.Pets.look C82.Pets.lists where
  looks r ts q hn hw := by
    rw [url_eq] at hn
    exact Proofs.Checked.looks self.plain (by decide) (by decide) r ts q hn hw
  closed := lists_closed
  values := by rintro q (rfl | rfl | rfl | rfl) t h <;> cases h
  tags := by
    rintro ts q e - - (rfl | rfl | rfl | rfl) hr (_ | ⟨hm, -⟩) <;> first | rfl | cases hm

variable {w : World.Outside} {other : Prim World.Atom → Str}

theorem called {env : Prim.Env World.Atom} {d : Decl} (hd : Declared env d limitQ) {fuel : Nat}
    (hc : convert env fuel d.obj (.str c!"30") false = .ok (.int 30)) :
    call env (World.leaf w other) fuel [d] [(c!"limit", .str c!"30")] = .ok { query := [(c!"limit", intStr 30)] } := by
  obtain ⟨name, in_, req, obj, sch⟩ := d
  have h1 := hd.name
  have h2 := hd.location
  cases h1
  cases h2
  have hl := limits hd.object
  have ht : (env.node obj).type = some c!"integer" := hl.type
  have hv : value env [(c!"limit", .str c!"30")] ⟨c!"limit", c!"query", req, obj, sch⟩ = .ok (some (.str c!"30")) := by
    unfold value
    dsimp only
    rw [if_neg (by intro h; cases h.1)]
    split <;> rfl
  unfold call
  rw [convertAll, convertParameter, hv]
  dsimp only
  have hprim : prim env fuel ⟨c!"limit", c!"query", req, obj, sch⟩ (.str c!"30") = .ok (.int 30) := by
    unfold prim
    rw [if_neg (show c!"query" ≠ c!"body" by decide)]
    exact hc
  rw [hprim]
  dsimp only
  have hplace : Call.place env (World.leaf w other) ⟨c!"limit", c!"query", req, obj, sch⟩ (.int 30) {} =
      .ok { query := [(c!"limit", intStr 30)] } := by
    unfold Call.place
    dsimp only
    rw [ht, if_neg (by decide), if_pos rfl]
    rfl
  rw [hplace]
  rfl

/-- a request, with objects that were made: a server reads a conforming `limit` in it -/
example (hw : C74.Sound w) (hr : Real w) (hn : ∀ k t, w.obj k ≠ .datetime t) : ∃ mfuel rounds fuel ps r r' val,
    Objects.decls outside url root id mfuel ((elements [c!"paths", c!"/pets", c!"get"] c!"parameters" getQ).map outside.num)
      ((elements [c!"paths", c!"/pets"] c!"parameters" itemQ).map outside.num) = some ps ∧
    ask (World.env w (Objects.env outside url root id mfuel rounds env0)) (World.leaf w other) fuel ps (fun _ => .many [])
      C81.limitOp [(c!"limit", .str c!"30")] = .ok r ∧
    prepare C81.limitIo C81.limitOp (.str c!"http") true r = .ok r' ∧
    ReadsAll limitQ ((r'.p.query.filter fun x => x.1 = c!"limit").map Prod.snd) val ∧
    Conforms (fun _ => none) (C81.UrlTexts fun _ => true = true) False limitQ val := by
  obtain ⟨b1, h1⟩ := C83_parameters (o := outside) (order := id) loads styled (fun l => List.Perm.refl _) getAsked hw
  obtain ⟨b2, h2⟩ := C83_query (o := outside) (order := id) (other := other) (e := env0) loads styled (fun l => List.Perm.refl _) getAsked hw limit_within
    (form := C81.UrlTexts fun _ => true = true) (C81.C81_formats hr hn env0)
    (q := limitQ) (by simp only [inForce, unnamed]; exact List.mem_singleton.2 rfl) rfl rfl rfl
    (k := [(c!"limit", .str c!"30")]) (.inl (by simp [Dict.get?])) (files := fun _ => .many []) (op := C81.limitOp)
    (renv := C81.limitIo) (sch := .str c!"http") (hf := true)
  obtain ⟨b3, h3⟩ := C83_operation (o := outside) (order := id) loads styled (fun l => List.Perm.refl _) getAsked hw
  obtain ⟨ps, e1, g1⟩ := h1 (b1 + b2 + b3) (by omega) (b1 + b2 + b3) (by omega)
  obtain ⟨ps', e2, g2⟩ := h2 (b1 + b2 + b3) (by omega) (b1 + b2 + b3) (by omega)
  obtain ⟨ps'', e3, g3⟩ := h3 (b1 + b2 + b3) (by omega) (b1 + b2 + b3) (by omega)
  rw [e1] at e2 e3
  cases e2
  cases e3
  have hf := g1 env0
  obtain ⟨d, l, hd, hl, rfl⟩ : ∃ d l, Declared (World.env w (Objects.env outside (urlunparse at_) root id (b1 + b2 + b3)
      (b1 + b2 + b3) env0)) d limitQ ∧ l = [] ∧ ps = d :: l := by
    have hf : List.Forall₂ _ ps [limitQ] := hf
    cases hf with
    | cons h1 h2 => cases h2; exact ⟨_, _, h1, rfl, rfl⟩
  subst hl
  have hdir := (g3 env0).direct
  obtain ⟨F, hacc⟩ := C81.C81_accepted (w := w) (e := Objects.env outside (urlunparse at_) root id (b1 + b2 + b3)
      (b1 + b2 + b3) env0) (toJson := World.toJson) (form := Kept fun _ => true = true) (N := False) (S := (· = limitQ)) hdir limit_within
    (by rintro q rfl; exact ⟨by decide, fun h => (by cases h)⟩)
    (C79_back w _) rfl hd.object (t := c!"30") (v := .int 30) (.integer rfl (by decide +kernel))
    (.integer (.stop rfl) rfl ⟨fun m hm => (by
      have : m = ((50 : Int) : Rat) := by
        have h : some ((50 : Int) : Rat) = some m := hm
        cases h; rfl
      subst this
      exact ⟨Rat.intCast_le_intCast.2 (by decide), fun h => by cases h⟩), fun m hm => (by cases hm), fun m hm => (by cases hm)⟩ (.inl rfl))
  obtain ⟨x, v', hc, hj, hs⟩ := hacc.mono (Nat.le_succ F) false
  have hx : x = .int 30 := by
    have hl := limits hd.object
    obtain ⟨k, rfl, -⟩ := Proofs.Conform.convert_int (env := World.env w (Objects.env outside (urlunparse at_) root id
      (b1 + b2 + b3) (b1 + b2 + b3) env0)) (i := d.obj) (hdir _ hl.isSchema)
      (typed rfl (by decide) (Proofs.Conform.text_eq hl.type) rfl (get_integer _)) hl.allOf (by simp [effective]) hc
    cases hj
    cases hs with
    | refl => rfl
    | number h1 h2 =>
      rcases h1 with h1 | ⟨a, h1, rfl⟩
      · cases h1
      · rcases h2 with h2 | ⟨b, h2, h3⟩
        · cases h2
        · cases h1
          cases h2
          rw [Rat.intCast_inj.1 h3]
  subst hx
  have hask := called (w := w) (other := other) hd hc
  obtain ⟨r, hask'⟩ : ∃ r : Req (Prim World.Atom) Str, ask (World.env w (Objects.env outside (urlunparse at_) root id (b1 + b2 + b3)
      (b1 + b2 + b3) env0)) (World.leaf w other) (F + 1) [d] (fun _ => .many [])
      C81.limitOp [(c!"limit", .str c!"30")] = .ok r := by
    unfold ask
    rw [hask]
    exact ⟨_, rfl⟩
  obtain ⟨r', hp⟩ : ∃ r', prepare C81.limitIo C81.limitOp (.str c!"http") true r = .ok r' := by
    unfold ask at hask'
    rw [hask] at hask'
    cases hask'
    exact ⟨_, rfl⟩
  obtain ⟨v, c, hv, ⟨d', hd', hc'⟩, h⟩ := g2 hask' hp
  have hv : v = .str c!"30" := by
    rcases hv with hv | ⟨hv, -⟩
    · exact (Option.some.inj hv).symm
    · cases hv
  subst hv
  have hl := limits hd'.object
  obtain ⟨k, rfl, -⟩ := Proofs.Conform.convert_int (env := World.env w (Objects.env outside (urlunparse at_) root id
      (b1 + b2 + b3) (b1 + b2 + b3) env0)) (i := d'.obj) (hdir _ hl.isSchema)
    (typed rfl (by decide) (Proofs.Conform.text_eq hl.type) rfl (get_integer _)) hl.allOf (by simp [effective]) hc'
  obtain ⟨val, h1, h2⟩ := h (.inl .int)
  rw [url_eq] at hask' e1
  exact ⟨_, _, F + 1, [d], r, r', val, e1, hask', hp, h1, h2⟩

/-- a reply with a count is accepted -/
example (loads' : Str → Except Exc Val) (hloads : ∀ s v, Spec.Json.readJson s = some v → loads' s = .ok v) :
    ∃ b, ∀ mfuel, b ≤ mfuel → ∀ rounds, b ≤ rounds → ∃ table,
      Objects.table outside (urlunparse at_) root id mfuel
        ((named [c!"paths", c!"/pets", c!"get"] c!"responses" getQ).map fun x => (x.1, outside.num x.2)) = some table ∧
      ∃ F, ∀ stack, F ≤ stack → ∀ rv, rv = Reply.renv (C80.outside loads')
          (World.env plainWorld (Objects.env outside (urlunparse at_) root id mfuel rounds env0)) stack → ∃ x v',
      (applyWith rv table Resp.init
        ⟨some 200, some (.inr c!"{\"v\": 7, \"next\": {\"v\": 8}}"), some [(c!"X-Count", c!" 2 "), (c!"X-Other", c!"x")]⟩).2 =
          none ∧
      (applyWith rv table Resp.init
        ⟨some 200, some (.inr c!"{\"v\": 7, \"next\": {\"v\": 8}}"), some [(c!"X-Count", c!" 2 "), (c!"X-Other", c!"x")]⟩).1.data =
          some x ∧ C70.jsonOf World.toJson x = .ok v' ∧ Same two v' := by
  refine C83_reply (out := C80.outside loads') (z := 200) (S := (· = countQ)) (N := False) loads styled (fun l => List.Perm.refl _)
    (fun l => List.Perm.refl _) answered schemed
    (C79_back _ _) (lists_neutral _) hloads (by rfl)
    (C80.json_types loads' [] (.inl rfl)).2 entry (url_eq ▸ many_stands) rfl (.inr (.inr (.inr rfl)))
    (raw := .inr c!"{\"v\": 7, \"next\": {\"v\": 8}}") (.inl rfl)
    (v := two) (by decide +kernel) (two_conforms (.go (r := c!"http://h/s#/definitions/List") rfl look_far (.stop rfl)))
    (fun h => by cases h) ?_ C81.count_within ?_ ?_
  · intro h hh hct
    simp only [List.mem_cons, List.not_mem_nil, or_false] at hh
    rcases hh with rfl | rfl
    · exact absurd hct (show c!"x-count" ≠ c!"content-type" by decide)
    · exact absurd hct (show c!"x-other" ≠ c!"content-type" by decide)
  · rintro q rfl
    exact ⟨by decide, fun h => by cases h⟩
  · intro h hh
    simp only [List.mem_cons, List.not_mem_nil, or_false] at hh
    rcases hh with rfl | rfl
    · refine .inr ⟨countQ, .int 2, rfl, rfl, .integer rfl (by decide +kernel), .integer (.stop rfl) rfl ?_ (.inl rfl)⟩
      refine ⟨fun m h => (by cases h), fun m h => ?_, fun m h => (by cases h)⟩
      have : m = ((1 : Int) : Rat) := by
        have h : some ((1 : Int) : Rat) = some m := h
        cases h; rfl
      subst this
      exact ⟨Rat.intCast_le_intCast.2 (by decide), fun h => by cases h⟩
    · exact .inl rfl

end Pets
end Props.C83
