import Verif.Spec.Document20
import Verif.Proofs.Upgraded
/-! # Lemmas for C87: what is written for the objects of an upgraded document -/

namespace Proofs.Document20
open Py Tree _root_.Doc Spec.Pointed Proofs.Bare Upgrade _root_.Upgraded Proofs.Upgraded Spec.Document20 Spec.Service
open Spec.Listing12 (Value under)

/-- the dict written for an object made of the given fields -/
def written (c : Nat) (set : List (Str × Tree)) : Dict Str Tree :=
  bareFields (v20 c) ((v20 c).fields.map fun f => (f.1, (Dict.get? set f.1).getD f.2))

theorem bare_made (c : Nat) (set : List (Str × Tree)) : bare (made c set) = .dict (written c set) := by
  unfold made written; rw [bare]

theorem get_fill (fields set : List (Str × Tree)) (n : Str) :
    Dict.get? (fields.map fun f => (f.1, (Dict.get? set f.1).getD f.2)) n = (Dict.get? fields n).map fun d => (Dict.get? set n).getD d := by
  induction fields with
  | nil => rfl
  | cons x l ih =>
    obtain ⟨m, u⟩ := x
    rw [List.map_cons, Dict.get?, Dict.get?]
    by_cases e : m = n
    · rw [if_pos e, if_pos e, e]; rfl
    · rw [if_neg e, if_neg e, ih]

theorem keys_fill (fields set : List (Str × Tree)) :
    Dict.keys (fields.map fun f => (f.1, (Dict.get? set f.1).getD f.2)) = Dict.keys fields := by
  simp [Dict.keys, List.map_map, Function.comp_def]

section
variable {c : Nat} {set : List (Str × Tree)} {n : Str} {dflt t : Tree}

theorem written_of (hf : Dict.get? (v20 c).fields n = some dflt) (hs : Dict.get? set n = some t) (h : dflt ≠ t) :
    Dict.get? (written c set) n = some (bare t) :=
  get_bareFields_of (keys_fill _ _) (by rw [get_fill, hf, hs]; rfl) (by rw [hf]; simpa using h)

theorem written_none (hf : Dict.get? (v20 c).fields n = some t) (hs : Dict.get? set n = some t) :
    Dict.get? (written c set) n = none :=
  get_bareFields_none (keys_fill _ _) (by rw [get_fill, hf, hs]; rfl) hf

theorem written_getD (hf : Dict.get? (v20 c).fields n = some dflt) (hs : Dict.get? set n = some t) (hb : bare dflt = dflt) :
    (Dict.get? (written c set) n).getD dflt = bare t := by
  by_cases h : dflt = t
  · subst h; rw [written_none hf hs]; exact hb.symm
  · rw [written_of hf hs h]; rfl

theorem only_written {ns : List Str} (h : set.map Prod.fst = ns) : Only (written c set) ns := by
  intro n hn
  obtain ⟨v, hv⟩ := Option.ne_none_iff_exists'.1 hn
  obtain ⟨t, h1, -, h3⟩ := get_bareFields (keys_fill _ _) hv
  rw [get_fill] at h1
  cases hf : Dict.get? (v20 c).fields n with
  | none => rw [hf] at h1; cases h1
  | some d =>
    rw [hf] at h1 h3
    cases hs : Dict.get? set n with
    | none => rw [hs] at h1; exact absurd h1 h3
    | some t' => rw [← h]; exact List.mem_map.2 ⟨_, Dict.mem_of_get? hs, rfl⟩

theorem only_some {ns : List Str} (h : ∀ x ∈ set, x.1 ∈ ns ∨ Dict.get? (v20 c).fields x.1 = Dict.get? set x.1) :
    Only (written c set) ns := by
  intro n hn
  have := only_written (c := c) (set := set) rfl n hn
  obtain ⟨x, hx, rfl⟩ := List.mem_map.1 this
  rcases h x hx with h | h
  · exact h
  · cases hs : Dict.get? set x.1 with
    | none => exact absurd (List.mem_map.2 ⟨x, hx, rfl⟩ : x.1 ∈ Dict.keys set) ((Dict.get?_eq_none_iff set x.1).1 hs)
    | some t => rw [hs] at h; exact absurd (written_none h hs) hn

theorem maybe_written {o : Option Str} (hf : Dict.get? (v20 c).fields n = some (.atom .none)) (hs : Dict.get? set n = some (orNone o)) :
    Maybe (written c set) n o := by
  cases o with
  | none => exact .inl (written_none hf hs)
  | some x => exact written_of hf hs (by simp [orNone])

theorem text_written {x : Str} (hf : Dict.get? (v20 c).fields n = some (.atom .none)) (hs : Dict.get? set n = some (.atom (.str x))) :
    Dict.get? (written c set) n = some (text x) := written_of hf hs (by simp)

theorem value_written {v : Val} (hv : PlainVal v) (hf : Dict.get? (v20 c).fields n = some (.atom .none)) (hs : Dict.get? set n = some (ofVal v)) :
    Value (written c set) n v := by
  unfold Value under
  rw [show Spec.Swagger12.null = .atom .none from rfl, written_getD hf hs rfl, bare_plain _ hv.1]
  exact hv.2

theorem texts_written {l : List Str} (hf : Dict.get? (v20 c).fields n = some dflt) (hd : dflt = .list [] ∨ dflt = .atom .none)
    (hs : Dict.get? set n = some (strs l)) : Texts (written c set) n l := by
  by_cases h : dflt = strs l
  · subst h
    refine .inr ⟨written_none hf hs, ?_⟩
    rcases hd with e | e
    · unfold strs at e; simpa using e
    · cases e
  · refine .inl ?_
    rw [written_of hf hs h, bare_plain _ (plain_strs l)]; rfl

theorem one_written {α : Type} {R : Dict Str Tree → α → Prop} {f : α → Tree} {o : Option α} (h : ∀ a, o = some a → ∃ d, bare (f a) = .dict d ∧ R d a)
    (hf : Dict.get? (v20 c).fields n = some (.atom .none)) (hs : Dict.get? set n = some ((o.map f).getD (.atom .none))) :
    One R (written c set) n o := by
  cases o with
  | none => exact written_none hf hs
  | some a =>
    obtain ⟨d, hd, hr⟩ := h a rfl
    refine ⟨d, ?_, hr⟩
    rw [written_of hf hs ?_]
    · show some (bare (f a)) = _
      rw [hd]
    · intro e
      have e : Tree.atom .none = f a := e
      rw [← e] at hd
      cases hd

theorem each_list {α : Type} {R : Dict Str Tree → α → Prop} {f : α → Tree} {l : List α} (h : ∀ a ∈ l, ∃ d, bare (f a) = .dict d ∧ R d a) :
    List.Forall₂ (fun t a => ∃ d, t = .dict d ∧ R d a) (bareList (l.map f)) l := by
  rw [bareList_eq, List.map_map]
  induction l with
  | nil => exact .nil
  | cons a l ih => exact .cons (h a (by simp)) (ih fun a ha => h a (by simp [ha]))

theorem each_written {α : Type} {R : Dict Str Tree → α → Prop} {f : α → Tree} {l : List α} (h : ∀ a ∈ l, ∃ d, bare (f a) = .dict d ∧ R d a)
    (hf : Dict.get? (v20 c).fields n = some dflt) (hd : dflt = .list [] ∨ dflt = .atom .none)
    (hs : Dict.get? set n = some (.list (l.map f))) : Each R (written c set) n l := by
  refine ⟨_, ?_, each_list h⟩
  rcases hd with rfl | rfl
  · rw [written_getD hf hs rfl, bare]
  · rw [written_of hf hs (by simp)]; rfl

theorem under_written {α : Type} {R : Dict Str Tree → α → Prop} {f : α → Tree} {l : List (Str × α)} (h : ∀ e ∈ l, ∃ d, bare (f e.2) = .dict d ∧ R d e.2)
    (hf : Dict.get? (v20 c).fields n = some dflt) (hd : dflt = .dict [] ∨ dflt = .atom .none)
    (hs : Dict.get? set n = some (.dict (l.map fun e => (e.1, f e.2)))) : Under R (written c set) n l := by
  have hl : List.Forall₂ (fun t e => t.1 = e.1 ∧ ∃ d, t.2 = .dict d ∧ R d e.2) (bareDict (l.map fun e => (e.1, f e.2))) l := by
    rw [bareDict_eq, List.map_map]
    clear hs
    induction l with
    | nil => exact .nil
    | cons a l ih => exact .cons ⟨rfl, h a (by simp)⟩ (ih fun a ha => h a (by simp [ha]))
  refine ⟨_, ?_, hl⟩
  rcases hd with rfl | rfl
  · rw [written_getD hf hs rfl, bare]
  · rw [written_of hf hs (by simp)]; rfl
end

variable {P : Str → Prop}

theorem items_in (i : SchemaItems) : ∃ d, bare (itemsTree i) = .dict d ∧ SchemaItemsIn d i :=
  ⟨_, bare_made _ _, maybe_written rfl rfl, maybe_written rfl rfl, maybe_written rfl rfl, only_written rfl⟩

theorem schema_in {s : Schema} (h : SchemaOk P s) : ∃ d, bare (schemaTree s) = .dict d ∧ SchemaIn d s :=
  ⟨_, bare_made _ _, maybe_written rfl rfl, maybe_written rfl rfl, maybe_written rfl rfl, value_written h.default rfl rfl,
    value_written h.minimum rfl rfl, value_written h.maximum rfl rfl, value_written h.unique rfl rfl, value_written h.enum rfl rfl,
    one_written (fun i _ => items_in i) rfl rfl, value_written h.description rfl rfl, only_written rfl⟩

theorem ref_in (r : Str) : ∃ d, bare (made cSchema [(c!"$ref", .atom (.str r))]) = .dict d ∧ RefIn d r :=
  ⟨_, bare_made _ _, text_written rfl rfl, only_written rfl⟩

theorem definition_in {s : Definition} (h : DefinitionOk P s) : ∃ d, bare (definitionTree s) = .dict d ∧ DefinitionIn d s := by
  refine ⟨_, bare_made _ _, under_written (fun e he => schema_in (h.properties e he)) rfl (.inl rfl) rfl, ?_,
    value_written h.discriminator rfl rfl, value_written h.description rfl rfl, each_written (fun r _ => ref_in r) rfl (.inl rfl) rfl,
    only_written rfl⟩
  rw [written_getD (dflt := .list []) rfl rfl rfl, bare_plain _ h.required.1]
  exact h.required.2

theorem items20_in {i : Items20} (h : PlainVal i.enum) : ∃ d, bare (items20Tree i) = .dict d ∧ Items20In d i :=
  ⟨_, bare_made _ _, maybe_written rfl rfl, maybe_written rfl rfl, value_written h rfl rfl, only_written rfl⟩

theorem param_in {p : Param20} (h : ParamOk P p) : ∃ d, bare (paramTree p) = .dict d ∧ Param20In d p := by
  refine ⟨_, bare_made _ _, maybe_written rfl rfl, value_written h.required rfl rfl, value_written h.description rfl rfl, maybe_written rfl rfl,
    one_written (fun s hs => schema_in (h.schema s hs)) rfl rfl, maybe_written rfl rfl, maybe_written rfl rfl, value_written h.default rfl rfl,
    value_written h.minimum rfl rfl, value_written h.maximum rfl rfl, value_written h.enum rfl rfl, value_written h.unique rfl rfl, ?_,
    one_written (fun i hi => items20_in (h.items i hi)) rfl rfl, only_written rfl⟩
  rw [show text c!"csv" = .atom (.str c!"csv") from rfl, written_getD (dflt := .atom (.str c!"csv")) rfl rfl rfl]
  rfl

theorem values_of {l : List Val} (h : ∀ v ∈ l, PlainVal v) : Spec.Described.Values (ofVals l) l ∧ PlainList (ofVals l) := by
  induction l with
  | nil => exact ⟨rfl, trivial⟩
  | cons v l ih =>
    have := ih fun v hv => h v (by simp [hv])
    rw [ofVals, Spec.Described.Values, PlainList]
    exact ⟨⟨v, l, rfl, (h v (by simp)).2, this.1⟩, (h v (by simp)).1, this.2⟩

theorem pairs_of {l : List (Str × Val)} (h : ∀ e ∈ l, PlainVal e.2) : Spec.Described.Pairs (ofPairs l) l := by
  induction l with
  | nil => rfl
  | cons e l ih =>
    obtain ⟨n, v⟩ := e
    rw [ofPairs, Spec.Described.Pairs]
    exact ⟨v, l, rfl, (h (n, v) (by simp)).2, ih fun v hv => h v (by simp [hv])⟩

theorem operation_in {o : Op20} (h : OpOk P o) : ∃ d, bare (opTree o) = .dict d ∧ OperationIn d o := by
  refine ⟨_, bare_made _ _, texts_written rfl (.inr rfl) rfl, text_written rfl rfl, value_written h.summary rfl rfl, value_written h.description rfl rfl,
    ?_, texts_written rfl (.inl rfl) rfl, texts_written rfl (.inl rfl) rfl,
    each_written (fun p hp => param_in (h.parameters p hp)) rfl (.inr rfl) rfl, ?_, ?_, only_written rfl⟩
  · rw [written_getD (dflt := .atom (.bool false)) rfl rfl rfl]; rfl
  · refine ⟨_, (written_of (dflt := .atom .none) rfl rfl (by simp)).trans (by rw [bare, bareList_eq, List.map_map]), ?_⟩
    have hs := h.security
    generalize o.security = l at hs
    induction l with
    | nil => exact .nil
    | cons e l ih =>
      refine .cons ⟨ofVals e.2, ?_, (values_of (hs e (by simp))).1⟩ (ih fun e he => hs e (by simp [he]))
      have := bareList_plain _ (values_of (hs e (by simp))).2
      simp only [Function.comp_apply, bare, bareDict, this]
  · obtain ⟨rq, h1, h2⟩ : ∃ rq, bare (made cResponse [(c!"schema", (o.response.map schemaTree).getD (.atom .none))]) = .dict rq ∧
        One SchemaIn rq c!"schema" o.response ∧ Only rq [c!"schema"] :=
      ⟨_, bare_made _ _, one_written (fun s hs => schema_in (h.response s hs)) rfl rfl, only_written rfl⟩
    refine ⟨rq, (written_of (dflt := .atom .none) rfl rfl (by simp)).trans ?_, h2⟩
    rw [bare, bareDict, bareDict, h1]

theorem path_in {d : Dict Str Op20} (h : ∀ m o, Dict.get? d m = some o → m ∈ verbs ∧ OpOk P o) :
    ∃ q, bare (pathTree d) = .dict q ∧ PathIn q d := by
  refine ⟨_, bare_made _ _, fun m => ?_⟩
  have hg : Dict.get? (d.map fun e => (e.1, opTree e.2)) m = (Dict.get? d m).map opTree := get_map_val _ _ _
  cases hm : Dict.get? d m with
  | none =>
    show Dict.get? (written _ _) m = none
    cases hn : Dict.get? (written cPathItem (d.map fun e => (e.1, opTree e.2))) m with
    | none => rfl
    | some v =>
      have := only_written (c := cPathItem) (set := d.map fun e => (e.1, opTree e.2)) rfl m (by rw [hn]; simp)
      rw [List.map_map] at this
      have : m ∈ Dict.keys d := this
      rw [← Dict.get?_isSome_iff, hm] at this
      cases this
  | some o =>
    obtain ⟨hv, ho⟩ := h m o hm
    obtain ⟨q, h1, h2⟩ := operation_in ho
    refine ⟨q, ?_, h2⟩
    have hf : ∀ m ∈ verbs, Dict.get? (v20 cPathItem).fields m = some (.atom .none) := by decide +kernel
    rw [written_of (hf m hv) (by rw [hg, hm]; rfl) (by unfold opTree made; simp), h1]

theorem scheme_in {s : Scheme20} (h : SchemeOk s) : ∃ q, bare (schemeTree s) = .dict q ∧ SchemeIn q s := by
  refine ⟨_, bare_made _ _, maybe_written rfl rfl, ⟨ofPairs s.scopes, ?_, pairs_of h.scopes⟩, value_written h.authorizationUrl rfl rfl,
    value_written h.tokenUrl rfl rfl, maybe_written rfl rfl, value_written h.name rfl rfl, value_written h.in rfl rfl, only_written rfl⟩
  rw [written_of (dflt := .atom .none) rfl rfl (by simp)]
  rw [bare, bareDict_plain]
  rw [ofPairs_eq]
  refine Proofs.Placed.plainDict_iff.2 fun x hx => ?_
  obtain ⟨e, he, rfl⟩ := List.mem_map.1 hx
  exact (h.scopes e he).1

theorem info_in {i : Info20} (h : InfoOk i) : ∃ q, bare (infoTree i) = .dict q ∧ Info20In q i :=
  ⟨_, bare_made _ _, value_written h.version rfl rfl, value_written h.title rfl rfl, value_written h.description rfl rfl,
    value_written h.terms rfl rfl,
    one_written (fun v hv => ⟨_, bare_made _ _, value_written (h.contact v hv) rfl rfl, only_written rfl⟩) rfl rfl,
    one_written (fun v hv => ⟨_, bare_made _ _, value_written (h.license v.1 v.2 hv).1 rfl rfl,
      value_written (h.license v.1 v.2 hv).2 rfl rfl, only_written rfl⟩) rfl rfl, only_written rfl⟩

/-- the document -/
theorem document_in {s : Swagger} (h : DocumentOk P s) : ∃ q, bare (tree s) = .dict q ∧ DocumentIn q s := by
  obtain ⟨iq, hi1, hi2⟩ := info_in h.info
  refine ⟨_, bare_made _ _, text_written rfl rfl, ⟨iq, ?_, hi2⟩, text_written rfl rfl, text_written rfl rfl, texts_written rfl (.inl rfl) rfl,
    each_written (fun t _ => ⟨_, bare_made _ _, text_written rfl rfl, only_written rfl⟩) rfl (.inr rfl) rfl,
    under_written (fun e he => definition_in (h.models e he)) rfl (.inr rfl) rfl,
    under_written (fun e he => path_in (h.methods e he)) rfl (.inr rfl) rfl,
    under_written (fun e he => scheme_in (h.schemesOk e he)) rfl (.inr rfl) rfl,
    written_of (dflt := .atom .none) (t := .list []) rfl rfl (by simp), written_of (dflt := .atom .none) (t := .dict []) rfl rfl (by simp),
    written_of (dflt := .atom .none) (t := .dict []) rfl rfl (by simp), only_some ?_⟩
  · rw [written_of (dflt := .atom .none) rfl rfl (by unfold infoTree made; simp), hi1]
  · intro x hx
    simp only [List.mem_cons, List.not_mem_nil, or_false] at hx
    rcases hx with rfl | rfl | rfl | rfl | rfl | rfl | rfl | rfl | rfl | rfl | rfl | rfl | rfl | rfl <;>
      first | exact .inr rfl | exact .inl (by simp)

end Proofs.Document20
