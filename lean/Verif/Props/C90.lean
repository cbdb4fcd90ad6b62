import Verif.Props.C83
import Verif.Proofs.Checked
import Verif.Spec.Tagged
/-!
# C90: the discriminators that are sent are the names of the definitions

`Spec/Tagged.lean` says where a JSON value has to hold which name. C79 says what else is sent.
-/

namespace Props.C90
open Py Utils Tree _root_.Doc Prim Spec Spec.Places Spec.Pointed Spec.Described Spec.SchemaDoc Spec.Conform Spec.Wire Spec.Tagged
open Proofs.Conform Props.C78 Props.C79

section
variable {ω : Type} {env : Prim.Env ω} {B : Nat → Dict Str Tree → Prop} {look : Str → Option (Dict Str Tree)}
  {S : Dict Str Tree → Prop} {model : Str → Str → Prop} {N : Prop} {toJson : AtomKind → ω → Except Exc Str}

/-- the objects references to definitions lead to have the names of the definitions -/
def Names (env : Prim.Env ω) (B : Nat → Dict Str Tree → Prop) (look : Str → Option (Dict Str Tree)) (model : Str → Str → Prop) : Prop :=
  ∀ n q r d X, B n q → Led look q r d → model r X → ∃ i, env.deref n = .ok i ∧ (env.node i).name = some (some X)

theorem no_forms : Forms env toJson fun _ _ => True := ⟨fun _ _ => trivial, fun _ _ _ _ _ _ _ _ _ => trivial, fun _ _ _ _ => trivial⟩

/-- the named entry of what is sent -/
theorem tag_sent {m : Dict Str (Prim ω)} {es : List (Str × Val)} (hjp : C70.jsonPairs toJson m = .ok es) {k X : Str}
    (h : Dict.get? m k = some (.str X)) : Dict.get? es k = some (.str X) := by
  obtain ⟨hk, hget⟩ := jsonPairs_get hjp
  cases hek : Dict.get? es k with
  | none =>
    refine absurd ?_ ((Dict.get?_eq_none_iff es k).1 hek)
    show k ∈ es.map Prod.fst
    rw [hk]
    exact List.mem_map_of_mem (f := Prod.fst) (Dict.mem_of_get? h)
  | some u =>
    obtain ⟨p, h1, h2⟩ := (hget k u).1 hek
    rw [h] at h1
    cases h1
    simp only [C70.jsonOf, Except.ok.injEq] at h2
    rw [h2]

theorem name_single {nm : Option Str} {u : Val} (h : C70.jsonOf toJson (namePrim nm : Prim ω) = .ok u) {q : Dict Str Tree} :
    Tagged look model q u := by
  cases nm <;> simp only [namePrim, C70.jsonOf, Except.ok.injEq] at h <;> subst h <;>
    exact .single (fun _ h => by cases h) fun _ h => by cases h

/-- **C90.** Whatever the argument, the JSON value of what it is converted to holds the names of the definitions under the
discriminators. -/
theorem C90_tagged (hset : Setting env B look S) (hdef : ∀ q, S q → Defaults N q) (hname : Names env B look model)
    {fuel n : Nat} {q : Dict Str Tree} {v : Val} {read : Bool} {x : Prim ω} {w : Val} (hb : B n q)
    (hS : S q) (hv : Proper N v) (h : convert env fuel n v read = .ok x) (hj : C70.jsonOf toJson x = .ok w)
    (hfin : Spec.Json.nonfinite w = false) : Tagged look model q w := by
  induction fuel generalizing n q v read x w with
  | zero => cases h
  | succ fuel ih =>
  have hs := hset.tells hb
  by_cases heff : effective env n v = .none
  · rw [convert_none env fuel n v read heff] at h
    cases h
    simp only [C70.jsonOf, Except.ok.injEq] at hj
    subst hj
    exact .single (fun _ h => by cases h) fun _ h => by cases h
  have hprop : Proper N (effective env n v) := by
    obtain ⟨d1, d2⟩ := default_proper hs.facts.default (hdef q hS)
    unfold effective at heff ⊢
    by_cases hvn : v = .none
    · rw [if_pos hvn] at heff ⊢
      cases hset' : (env.node n).defaultSet with
      | false => exact absurd (d1 hset') heff
      | true => exact d2 hset'
    · rw [if_neg hvn]; exact hv
  cases C79_conforms hset hdef no_forms hb hS hv h hj hfin with
  | null | integer | boolean | string => exact .single (fun _ h => by cases h) fun _ h => by cases h
  | number _ _ hnum =>
    refine .single (fun _ h => ?_) fun _ h => ?_ <;> subst h <;> rcases hnum with h | ⟨_, h, -⟩ <;> cases h
  | @array _ d it ws hl ht hit hws hsz hnd hal =>
    clear hws hsz hnd hal
    obtain ⟨i, hi, hbi⟩ := (hset.leads hb).2 d hl
    obtain ⟨hSd, hrd⟩ := leads_S hset.closed hl hS
    have hsi := hset.tells hbi
    have hsim := hset.closed.simple d hSd hrd
    have ha : (env.node i).allOf = [] :=
      allOf_nil hsi (hsim.parts.resolve_right (by unfold Objectlike; rw [ht]; decide))
    have hu : Off d c!"uniqueItems" := by
      cases hsim.plainly with
      | array _ _ _ h => exact h
      | integer h | number h | boolean h | string h | built h => rw [ht] at h; exact absurd h (by decide)
      | object h => rw [ht] at h; exact absurd h (by simp)
    obtain ⟨m, hm1, hm2⟩ := hsi.items it hit
    have hty : Typed env i .array := typed hset.handlers (by decide) ((text_eq hsi.facts.type).trans ht) rfl (get_array _)
    have hun := switch_off hsi.facts.uniqueItems hu
    obtain ⟨es, hes⟩ := convert_given hi hty hm1 hun hsi.facts.collectionFormat heff h
    obtain ⟨xs, rfl, hall, -⟩ := ((C35.C35_array env fuel n i m v read es es hi hty ha hm1 hes
      (by rw [hun]; rfl)).1 x).1 h
    simp only [C70.jsonOf] at hj
    cases hji : C70.jsonItems toJson xs with
    | error e => rw [hji] at hj; cases hj
    | ok ws' =>
      rw [hji] at hj
      cases hj
      rw [jsonItems_forall] at hji
      have hproper := given_proper hes hprop
      have hfin' := nonfinite_items (l := ws) (by simpa [Spec.Json.nonfinite] using hfin)
      have hSi := hset.closed.items d it hSd hrd hit
      refine .array hl hit ?_
      clear hes hfin h
      induction hall generalizing ws with
      | nil => cases hji; intro _ h; cases h
      | @cons u y us ys hc _ ih2 =>
        cases hji with
        | @cons _ z _ zs hz hzs =>
          intro w' hw'
          rcases List.mem_cons.1 hw' with rfl | hw'
          · exact ih hm2 hSi (hproper u (by simp)) hc hz (hfin' _ (by simp))
          · exact ih2 hzs (fun u hu => hproper u (by simp [hu])) (fun v hv => hfin' v (by simp [hv])) w' hw'
  | @object _ d es hl ht _ _ _ _ _ _ _ =>
    obtain ⟨i, hi, hbi⟩ := (hset.leads hb).2 d hl
    obtain ⟨hSd, hrd⟩ := leads_S hset.closed hl hS
    have hsi := hset.tells hbi
    have hsim := hset.closed.simple d hSd hrd
    obtain ⟨p1, p2, p3, -⟩ := objectlike_plainly hsim.plainly ht
    have hmod := asModel hset.handlers hsi p1 p3
    have hdict : ∃ dv, effective env n v = .dict dv := by
      apply Classical.byContradiction
      intro hno
      rw [C36.C36_not_object env fuel n i v read hi hmod heff fun dv e => hno ⟨dv, e⟩] at h
      cases h
    obtain ⟨dv, hdv⟩ := hdict
    rw [hdv] at hprop
    have hwf : Dict.WF dv := by rw [Proper] at hprop; exact hprop.1
    have hcv : convert env (fuel + 1) n (.dict dv) read = .ok x := by
      rw [← h, convert_step env fuel n i _ read hi heff, hdv,
        convert_step env fuel n i (.dict dv) read hi (by simp [effective])]
      rfl
    have hnm : ∀ {r X}, Led look q r d → model r X → (env.node i).name = some (some X) := by
      intro r X h1 h2
      obtain ⟨i', h3, h4⟩ := hname n q r d X hb h1 h2
      rw [hi] at h3
      cases h3
      exact h4
    have hfin' : Spec.Json.nonfinitePairs es = false := by simpa [Spec.Json.nonfinite] using hfin
    by_cases hall : listAt d c!"allOf" ≠ []
    · have hcom := hset.closed.composed d hSd hrd hall
      have facts : ∀ {j e}, Member look d e → B j e → _ := fun h => member_facts hset hSd hrd hall ht h
      have part : ∀ {a j : Nat}, a ∈ (env.node i).allOf → env.deref a = .ok j → _ := fun h => part_of hset hbi hSd hrd hall h
      obtain ⟨f1, f2, f3, -, f5, f6, f7, f8⟩ := facts .self hbi
      obtain ⟨m, ps, rfl, hps, hmade⟩ := convert_parts hi f5 hwf hsi.named hset.order (by rw [f6]; simp) (fun a ha j haj => by
          obtain ⟨s, e, h1, h2, h3⟩ := part ha haj
          obtain ⟨g1, g2, -, g4, g5, g6, -, -⟩ := facts (.part h1 h2) h3
          exact ⟨by rw [g6]; simp, g5, allOf_nil g4 (hcom.flat s e h1 h2).1, g4.noRef g2⟩) (by
          rcases hcom.kept with ⟨k, s, h1, h2⟩ | ⟨t, h1⟩
          · obtain ⟨p, h3, -⟩ := hsi.property k s h2
            exact .inl ⟨k, (hsi.facts.required k).2 h1, by rw [h3]; simp⟩
          · have := hsi.parts
            rw [h1] at this
            exact .inr (List.length_eq_one_iff.1 this)) hcv
      have member : ∀ {j}, j ∈ i :: ps → ∃ e, Member look d e ∧ B j e := by
        intro j hj
        rcases List.mem_cons.1 hj with rfl | hj
        · exact ⟨d, .self, hbi⟩
        · obtain ⟨a, ha, haj⟩ := right_of hps j hj
          obtain ⟨s, e, h1, h2, h3⟩ := part ha haj
          exact ⟨e, .part h1 h2, h3⟩
      have object : ∀ {e}, Member look d e → ∃ j ∈ i :: ps, B j e := by
        intro e he
        cases he with
        | self => exact ⟨i, List.mem_cons_self .., hbi⟩
        | part hsm h3 =>
          obtain ⟨ix, hix⟩ := List.mem_iff_getElem?.1 hsm
          obtain ⟨a, h1, h2⟩ := hsi.part ix _ hix
          obtain ⟨j, hj, haj⟩ := left_of hps a (List.mem_of_getElem? h1)
          obtain ⟨j', g1, g2⟩ := (hset.leads h2).2 e h3
          rw [haj] at g1
          cases g1
          exact ⟨j, List.mem_cons_of_mem _ hj, g2⟩
      simp only [C70.jsonOf] at hj
      cases hjp : C70.jsonPairs toJson m with
      | error e => rw [hjp] at hj; cases hj
      | ok es' =>
      rw [hjp] at hj
      cases hj
      obtain ⟨hk, hget⟩ := jsonPairs_get hjp
      refine .object hl ?_ ?_ ?_
      · intro r X e k hled hX hm htag
        obtain ⟨j, hjm, hbe⟩ := object hm
        obtain ⟨g1, g2, -, g4, -⟩ := facts hm hbe
        obtain ⟨s, _, c1, -⟩ := hset.closed.tag e k g1 g2 htag
        obtain ⟨p', c2, -⟩ := g4.property k s c1
        obtain ⟨nm, h1, h2⟩ := hmade.tags j hjm k ((text_eq g4.facts.discriminator).trans htag) (by rw [c2]; simp)
        rw [hnm hled hX] at h1
        cases h1
        exact tag_sent hjp h2
      · intro e k s u hm hps' hku
        obtain ⟨j, hjm, hbe⟩ := object hm
        obtain ⟨g1, g2, -, g4, -⟩ := facts hm hbe
        obtain ⟨p, hmp, hju⟩ := (hget k u).1 hku
        rcases hmade.entries k p hmp with (⟨j', hj', p', v, a1, a2, a3⟩ | ⟨j', hj', a1, nm, a2, a3⟩) | ⟨v, -, -, a3⟩
        · obtain ⟨e', he', hbe'⟩ := member hj'
          obtain ⟨b1, b2, -, b4, -, -, b7, -⟩ := facts he' hbe'
          obtain ⟨s', c1, c2⟩ := property_of b4 b7 a1
          have hss := hcom.alike e e' k _ _ hm he' hps' c1
          cases hss
          have hSs := hset.closed.property e k s g1 g2 hps'
          have hv : Proper N v := by
            rcases a2 with a2 | ⟨a2, rfl⟩
            · exact proper_get hprop a2
            · exact (default_proper (hset.tells c2).facts.default (hdef s hSs)).2 a2
          exact ih c2 hSs hv a3 hju (nonfinite_get hfin' hku)
        · subst a3
          exact name_single hju
        · obtain ⟨p', h1, -⟩ := g4.property k s hps'
          rw [a3 j hjm] at h1; cases h1
      · intro k u s _ hadd _
        rcases hcom.further d .self with h | h
        · rw [h] at hadd; cases hadd
        · unfold On at h; rw [h] at hadd; cases hadd
    replace hall : listAt d c!"allOf" = [] := Classical.not_not.1 hall
    have ha := allOf_nil hsi hall
    have hacc : C36.Accepts env fuel i read dv := by
      apply Classical.byContradiction
      intro hno
      obtain ⟨e, h1⟩ := (C36.C36_rejects env fuel n i dv read hi hmod ha hwf (hset.distinct i) hset.order).1 hno
      rw [h1] at hcv; cases hcv
    obtain ⟨m, h1, h2, h3⟩ := C36.C36_content env fuel n i dv read hi hmod ha hwf (hset.distinct i) hset.order hacc
    rw [h1] at hcv
    cases hcv
    simp only [C70.jsonOf] at hj
    cases hjp : C70.jsonPairs toJson m with
    | error e => rw [hjp] at hj; cases hj
    | ok es' =>
      rw [hjp] at hj
      cases hj
      obtain ⟨hk, hget⟩ := jsonPairs_get hjp
      have only : ∀ {e}, Member look d e → e = d := by
        intro e he
        cases he with
        | self => rfl
        | part h _ => rw [hall] at h; cases h
      have htags : ∀ k s, textAt d c!"discriminator" = some k → propertyAt d k = some (.dict s) →
          Dict.get? m k = some (C36.tag env i) := by
        intro k s hd hps'
        obtain ⟨j, hj1, hj2⟩ := hsi.property k s hps'
        have hd := (text_eq hsi.facts.discriminator).trans hd
        rw [h3 k]
        unfold C36.content
        rw [hj1]
        cases hdk : Dict.get? dv k <;> simp only [hd, if_true]
      refine .object hl ?_ ?_ ?_
      · intro r X e k hled hX hm htag
        cases only hm
        obtain ⟨s, _, c1, -⟩ := hset.closed.tag d k hSd hrd htag
        refine tag_sent hjp ?_
        rw [htags k s htag c1, C36.tag_eq, hnm hled hX]
        rfl
      · intro e k s u hm hps' hku
        cases only hm
        obtain ⟨p, hmp, hjp'⟩ := (hget k u).1 hku
        obtain ⟨j, hj1, hj2⟩ := hsi.property k s hps'
        have hSs := hset.closed.property d k s hSd hrd hps'
        have hfinu := nonfinite_get hfin' hku
        by_cases hd : (env.node i).discriminator = some k
        · rw [htags k s ((text_eq hsi.facts.discriminator).symm.trans hd) hps', C36.tag_eq] at hmp
          cases hmp
          exact name_single hjp'
        rw [h3 k] at hmp
        unfold C36.content at hmp
        rw [hj1] at hmp
        cases hdk : Dict.get? dv k with
        | some v' =>
          rw [hdk] at hmp
          simp only [hd, if_false] at hmp
          cases hcj : convert env fuel j v' true with
          | error e => rw [hcj] at hmp; cases hmp
          | ok y =>
            rw [hcj] at hmp; cases hmp
            exact ih hj2 hSs (proper_get hprop hdk) hcj hjp' hfinu
        | none =>
          rw [hdk] at hmp
          simp only [hd, if_false] at hmp
          by_cases hds : (env.node j).defaultSet = true
          · rw [if_pos hds] at hmp
            cases hcj : convert env fuel j (env.node j).default true with
            | error e => rw [hcj] at hmp; cases hmp
            | ok y =>
              rw [hcj] at hmp; cases hmp
              have hsj := hset.tells hj2
              exact ih hj2 hSs ((default_proper hsj.facts.default (hdef s hSs)).2 hds) hcj hjp' hfinu
          · rw [if_neg hds] at hmp; cases hmp
      · intro k u s hps' hadd hku
        obtain ⟨p, hmp, hjp'⟩ := (hget k u).1 hku
        obtain ⟨j, hj1, hj2⟩ := hsi.furtherSchema s hadd
        have hSs := hset.closed.further d s hSd hrd hadd
        have hdisc : (env.node i).discriminator ≠ some k := by
          intro hd
          obtain ⟨s, _, h, -⟩ := hset.closed.tag d k hSd hrd ((text_eq hsi.facts.discriminator).symm.trans hd)
          rw [hps'] at h; cases h
        rw [h3 k] at hmp
        unfold C36.content at hmp
        rw [hsi.noProperty k hps', hj1] at hmp
        have hfinu := nonfinite_get hfin' hku
        cases hdk : Dict.get? dv k with
        | none => rw [hdk] at hmp; simp [hdisc] at hmp
        | some v' =>
          rw [hdk] at hmp
          dsimp only at hmp
          cases hcj : convert env fuel j v' true with
          | error e => rw [hcj] at hmp; cases hmp
          | ok y =>
            rw [hcj] at hmp; cases hmp
            exact ih hj2 hSs (proper_get hprop hdk) hcj hjp' hfinu

end

/-! ## documents -/

open Spec.Reply _root_.Loaded Proofs.Loaded Proofs.Origin Proofs.Wire Proofs.Effective Proofs.Fit Proofs.Made Props.C78 Props.C79
open Props.C81 (Present Value Legible Clear inUrl Literal)
open Props.C82 (Operation Schemata Responses BodyShows Holds holds_says body_made)
open _root_.Effective (attr)
open Call Io Ask Spec.Server Props.C72
open Props.C83 Proofs.Placed

variable {D T R : Tree} {p : Url} {o : Objects.Outside}
variable {w : World.Outside} {e : Prim.Env World.Atom} {S : Dict Str Tree → Prop} {N : Prop} {order : List Atom → List Atom}
  {look : Str → Option (Dict Str Tree)} {place : List Str} {method : Str} {qs us : List (Dict Str Tree)} {δ : Type}
  {files : FileArg World.Atom → FileVal} {op : Op δ} {k : Dict Str Val} {sch : SchemeArg} {hf : Bool} {nm : Str}
  {q iq oq : Dict Str Tree}

/-- the name of the object of a definition -/
theorem name_at {ω : Type} (e : Prim.Env ω) (hl : Loads D p T R) {ts : List Str} {q : Dict Str Tree} (hw : Written D ts cSchema q)
    {X : Str} (hX : X ≠ []) (h : Objects.nameAt o.version12 ts = some X) {mfuel rounds : Nat} :
    ((Objects.env o (urlunparse p) R order mfuel rounds e).node (o.num ts)).name = some (some X) := by
  obtain ⟨fs, hf⟩ := found_at (o := o) (order := order) hl hw mfuel
  show (Objects.node o (urlunparse p) R order mfuel (o.num ts)).name = _
  unfold Objects.node
  rw [hf]
  show (Schemas.nodeOf fs (Objects.nameAt o.version12 ts) _ _ _ _).name = _
  rw [h]
  cases X with
  | nil => exact absurd rfl hX
  | cons c t => rfl

/-- the objects references lead to, by their places -/
theorem names_of {ω : Type} {e : Prim.Env ω} (hl : Loads D p T R) {mfuel rounds : Nat}
    (hs : Schemata D p R o.toOutside (Objects.env o (urlunparse p) R order mfuel rounds e)
      (Objects.ref o (urlunparse p) R order mfuel) look S)
    {model : Str → Str → Prop} (hmod : ∀ r X, model r X → X ≠ [] ∧ ∃ ts, Spec.Pointed.Names (urlunparse p) r ts ∧
      Objects.nameAt o.version12 ts = some X) :
    Names (Objects.env o (urlunparse p) R order mfuel rounds e)
      (Holds D o.toOutside (Objects.env o (urlunparse p) R order mfuel rounds e)
        (Objects.ref o (urlunparse p) R order mfuel) (raw o.toOutside D (urlunparse p) T)) look model := by
  intro n q r d X hb hled
  induction hled generalizing n with
  | @last q d r hr hlk hd =>
    intro hX
    obtain ⟨j, d', h1, h2, h3, h4, h5⟩ := referred hs.derefs (known hl hs.looks hs.schemas) hb.1 hr
    obtain ⟨us, d'', rfl, h6, h7⟩ := resolved_at hl h1 h2
    rw [hlk] at h3
    cases h3
    obtain ⟨hne, ts, g1, g2⟩ := hmod r X hX
    obtain ⟨-, u1, u2⟩ := url_facts hl.canon hl.whole
    rw [Proofs.Checked.names_unique u1 u2 g1 h6] at g2
    have hlk' := hs.looks r us d'' h6 h7
    rw [hlk] at hlk'
    cases hlk'
    have hb' : Holds D o.toOutside (Objects.env o (urlunparse p) R order mfuel rounds e)
        (Objects.ref o (urlunparse p) R order mfuel) (raw o.toOutside D (urlunparse p) T) (o.num us) d :=
      ⟨h4, us, h7, .inl rfl⟩
    exact ⟨_, (h5 _).2 ((holds_says hl hs hb').noRef hd), name_at e hl h7 hne g2⟩
  | next hr hlk _ ih =>
    intro hX
    obtain ⟨m, d', h1, h2, h3⟩ := (holds_says hl hs hb).ref _ hr
    rw [hlk] at h1
    cases h1
    obtain ⟨i, h4, h5⟩ := ih m h2 hX
    exact ⟨i, (h3 i).2 h4, h5⟩

/-- **C90, body.** In the body of a request, wherever there is an object for a reference to a definition, the name of the
definition stands under the discriminator. -/
theorem C90_body (hl : Loads D p T R) (hver : o.version12 = false) (hst : Styled D) (ho : ∀ l, (order l).Perm l)
    (he : ∀ l, (e.order l).Perm l)
    (hasked : Asked D p place method iq oq qs us) (hw : C74.Sound w) (hs : Schemed D p look S)
    (hdef : ∀ q, S q → Defaults N q) {enc : Prim.Json.Enc World.Atom}
    {leaf : Prim World.Atom → Except Exc Str} {renv : Io.Env (Prim World.Atom) δ Str} (hq : q ∈ inForce qs us)
    (hname : Dict.get? q c!"name" = some (.atom (.str nm))) (hin : Dict.get? q c!"in" = some (.atom (.str c!"body")))
    (hty : Dict.get? q c!"type" = none) (hit : Dict.get? q c!"items" = none)
    (hone : ∀ d ∈ inForce qs us, Dict.get? d c!"in" = some (.atom (.str c!"body")) → nameIn d = some nm)
    {s : Dict Str Tree} (hsch : Dict.get? q c!"schema" = some (.dict s)) (hS : S s) {v : Val}
    (hk : Dict.get? k nm = some v) (hv : Proper N v) : ∃ b, ∀ mfuel, b ≤ mfuel → ∀ rounds, b ≤ rounds →
    ∃ ps, Objects.decls o (urlunparse p) R order mfuel ((elements (place ++ [method]) c!"parameters" oq).map o.num)
        ((elements place c!"parameters" iq).map o.num) = some ps ∧
      ∀ {fuel : Nat} {r r' : Req (Prim World.Atom) Str},
      ask (World.env w (Objects.env o (urlunparse p) R order mfuel rounds e)) leaf fuel ps files op k = .ok r →
      prepare renv op sch hf r = .ok r' → r.p.file = [] → r.p.formData = [] →
      op.parameters.map (fun d => (d.name, d.in_)) = ps.map (fun q => (q.name, q.in_)) →
      (∀ b d, renv.marshal (C24.bodyType op.consumes r.consume) b d = Prim.Json.marshal enc b) →
      ∃ m c, (∃ d ∈ ps, Declared (World.env w (Objects.env o (urlunparse p) R order mfuel rounds e)) d q ∧ d.schema = some m) ∧
        convert (World.env w (Objects.env o (urlunparse p) R order mfuel rounds e)) fuel m v false = .ok c ∧
        ∀ u, C70.jsonOf enc.toJson c = .ok u → Spec.Json.Plain enc.repr u →
          ∃ body, r'.data = .payload body ∧ Spec.Json.readJson body = some u ∧ Tagged look (Definition (urlunparse p)) s u := by
  obtain ⟨b1, h1⟩ := C83_operation (o := o) hl hst ho hasked hw
  obtain ⟨b2, h2⟩ := C83_schemata (o := o) (order := order) hl hs
  refine ⟨b1 + b2, fun mfuel hm rounds hr => ?_⟩
  obtain ⟨ps, e1, e2⟩ := h1 mfuel (by omega) rounds (by omega)
  refine ⟨ps, e1, fun ha hp hfile hfd hop hmar => ?_⟩
  have hsch' := h2 rounds (by omega) (World.env w e) rfl he mfuel
  obtain ⟨d, m, c, g1, g2, g3, g4, g5, g6⟩ := body_made (form := fun _ _ => True) hl (e2 e) hsch' hdef no_forms ha hp
    hfile hfd hq hname hin (.inl hty) hit hone hop hmar hsch hS hk hv
  refine ⟨m, c, ⟨d, g1, g2, g3⟩, g4, fun u hu hpl => ?_⟩
  obtain ⟨body, b1, b2, -⟩ := g6 u hu hpl
  refine ⟨body, b1, b2, C90_tagged (C82.schemata hl hsch') hdef (names_of hl hsch' fun r X hX => ⟨hX.1, _, hX.2, ?_⟩) g5 hS hv g4 hu
    (plain_finite u hpl)⟩
  rw [hver]
  rfl

end Props.C90
