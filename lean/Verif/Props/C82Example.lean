import Mathlib.Logic.Equiv.List
import Verif.Props.C82Wire
import Verif.Proofs.Checked
import Verif.Proofs.TreeEq
/-!
# C82: a concrete document

Two operations on lists of integers: one with a parameter and a response declared elsewhere, one with a body. The schema
refers to itself, once by a fragment, once by the URL of the document.
-/

namespace Props.C82
open Py Utils Tree _root_.Doc Prim Spec Spec.Places Spec.Pointed Spec.Described Spec.SchemaDoc Spec.Conform Spec.Wire
open Spec.Reply _root_.Loaded Proofs.Loaded Proofs.Origin Proofs.Wire Props.C78 Props.C79
open Props.C81 (Present Value Legible Clear inUrl Literal)
open _root_.Effective (attr listed)

namespace Pets

def url : Str := c!"http://h/s"
def at_ : Url := ⟨c!"http", c!"h", c!"/s", [], [], []⟩

def valueQ : Dict Str Tree := [(c!"type", txt c!"integer"), (c!"maximum", .atom (.int 9))]
def nextQ : Dict Str Tree := [(c!"$ref", txt c!"#/definitions/List")]
def listQ : Dict Str Tree := [(c!"type", txt c!"object"), (c!"required", .list [txt c!"v"]),
  (c!"properties", .dict [(c!"v", .dict valueQ), (c!"next", .dict nextQ)]), (c!"additionalProperties", .atom (.bool false))]
def farQ : Dict Str Tree := [(c!"$ref", txt c!"http://h/s#/definitions/List")]
def limitQ : Dict Str Tree := [(c!"name", txt c!"limit"), (c!"in", txt c!"query"), (c!"type", txt c!"integer"),
  (c!"maximum", .atom (.int 50)), (c!"default", .atom (.int 20))]
def countQ : Dict Str Tree := [(c!"type", txt c!"integer"), (c!"minimum", .atom (.int 1))]
def manyQ : Dict Str Tree := [(c!"schema", .dict farQ), (c!"headers", .dict [(c!"X-Count", .dict countQ)])]
def bodyQ : Dict Str Tree := [(c!"name", txt c!"list"), (c!"in", txt c!"body"), (c!"schema", .dict nextQ)]
def getQ : Dict Str Tree := [(c!"parameters", .list [.dict [(c!"$ref", txt c!"#/parameters/Limit")]]),
  (c!"responses", .dict [(c!"200", .dict [(c!"$ref", txt c!"#/responses/Many")])])]
def postQ : Dict Str Tree := [(c!"parameters", .list [.dict bodyQ]), (c!"responses", .dict [])]
def itemQ : Dict Str Tree := [(c!"get", .dict getQ), (c!"post", .dict postQ)]

/-- the document -/
def doc : Tree := .dict [(c!"swagger", txt c!"2.0"), (c!"host", txt c!"h"),
  (c!"paths", .dict [(c!"/pets", .dict itemQ)]), (c!"parameters", .dict [(c!"Limit", .dict limitQ)]),
  (c!"responses", .dict [(c!"Many", .dict manyQ)]), (c!"definitions", .dict [(c!"List", .dict listQ)])]

theorem canon : Canon at_ :=
  have : urlparse url = at_ := by decide
  this ▸ canon_urlparse (this ▸ ⟨by decide, Or.inl (by decide)⟩)

theorem url_eq : urlunparse at_ = url := by decide

theorem self : SelfContained doc url := Proofs.Checked.checked (by decide +kernel)

def read : Tree := (parse v20 cSwagger doc).getD (.atom .none)
def root : Tree := (normalizeRefs url read).getD (.atom .none)

theorem read_eq : parse v20 cSwagger doc = some read := by
  have h : (parse v20 cSwagger doc).isSome = true := by decide +kernel
  unfold read
  cases hp : parse v20 cSwagger doc with
  | none => rw [hp] at h; cases h
  | some t => rfl

theorem root_eq : normalizeRefs url read = some root := by
  have h : (normalizeRefs url read).isSome = true := by decide +kernel
  unfold root
  cases hp : normalizeRefs url read with
  | none => rw [hp] at h; cases h
  | some t => rfl

theorem loads : Loads doc at_ read root := ⟨canon, rfl, url_eq ▸ self, read_eq, url_eq ▸ root_eq⟩

/-! the places that matter have the first numbers -/

def table : List (List Str) := [[c!"definitions", c!"List"], [c!"definitions", c!"List", c!"properties", c!"v"],
  [c!"definitions", c!"List", c!"properties", c!"next"], [c!"responses", c!"Many", c!"schema"],
  [c!"paths", c!"/pets", c!"post", c!"parameters", c!"0", c!"schema"],
  [c!"paths", c!"/pets", c!"get", c!"parameters", c!"0"], [c!"parameters", c!"Limit"],
  [c!"paths", c!"/pets", c!"get", c!"responses", c!"200"], [c!"responses", c!"Many"],
  [c!"paths", c!"/pets", c!"post", c!"parameters", c!"0"]]

def num (p : List Str) : Nat :=
  if p ∈ table then table.idxOf p else table.length + Encodable.encode (p.map (·.map Char.toNat))

def pos (n : Nat) : List Str :=
  if n < table.length then table.getD n []
  else ((Encodable.decode (α := List (List Nat)) (n - table.length)).getD []).map (·.map Char.ofNat)

theorem left (p : List Str) : pos (num p) = p := by
  unfold num pos
  by_cases h : p ∈ table
  · have hi : table.idxOf p < table.length := List.idxOf_lt_length_of_mem h
    rw [if_pos h, if_pos hi, List.getD_eq_getElem?_getD, List.getElem?_eq_getElem hi, List.getElem_idxOf]
    rfl
  · rw [if_neg h, if_neg (by omega), Nat.add_sub_cancel_left, Encodable.encodek, Option.getD_some, List.map_map]
    have : ((fun x : List Nat => x.map Char.ofNat) ∘ fun x : Str => x.map Char.toNat) = id := by
      funext x
      simp [Function.comp_def]
    rw [this, List.map_id]

/-- nothing else matters -/
def outside : Loaded.Outside := ⟨num, pos, left, fun _ => .atom .none, fun _ => .error .KeyError, id, id⟩

def fieldsOf : Tree → List (Str × Tree)
  | .obj _ fs => fs
  | _ => []

/-- the objects at the places -/
def made (i : Nat) : List (Str × Tree) := fieldsOf ((world outside url root).content i)

/-- the objects made of references -/
def limitFinal : List (Str × Tree) := match _root_.Effective.finals (world outside url root) id 3 [5] with
  | some [(_, .obj _ fs)] => fs
  | _ => []
def bodyFinal : List (Str × Tree) := match _root_.Effective.finals (world outside url root) id 3 [9] with
  | some [(_, .obj _ fs)] => fs
  | _ => []
def manyFinal : List (Str × Tree) := match MergeRefs.effective (world outside url root) id cResponse 3 7 with
  | some (.value (.obj _ fs)) => fs
  | _ => []
def countFs : List (Str × Tree) := match attr manyFinal c!"headers" with
  | .dict d => fieldsOf (attr d c!"X-Count")
  | _ => []

def farFs : List (Str × Tree) := made 3

/-- the objects of the conversion -/
def nodes : Nat → Node
  | 0 => Schemas.nodeOf (made 0) (some c!"List") none [] [(c!"v", 1), (c!"next", 2)] .no
  | 1 => Schemas.nodeOf (made 1) (some c!"v") none [] [] .yes
  | 2 => Schemas.nodeOf farFs (some c!"next") none [] [] .yes
  | 10 => _root_.Effective.nodeOf cParameter limitFinal none
  | 11 => _root_.Effective.nodeOf cHeader countFs none
  | 13 => _root_.Effective.nodeOf cParameter bodyFinal none
  | _ => Schemas.nodeOf farFs none none [] [] .yes

def refs (n : Nat) : Option Nat := if n ∈ [2, 3, 4, 12, 14] then some 0 else none

def env0 : Prim.Env World.Atom :=
  { node := nodes, deref := fun n => if n ∈ [2, 3, 4, 12, 14] then .ok 0 else .ok n, reg := [], toInt := fun _ => .error .TypeError,
    toFloat := fun _ => .error .TypeError, toStr := fun _ => [], toBool := fun _ => true, validEmail := fun _ => true,
    eq := fun a b => a = b, atom := fun _ _ _ => .error .TypeError, mismatch := fun _ _ _ => .ok (), order := id }

variable {w : World.Outside} {other : Prim World.Atom → Str}

def isDict : Tree → Bool
  | .dict _ => true
  | _ => false

theorem written_schema {ts : List Str} {q : Dict Str Tree} (h : Written doc ts cSchema q) : ts ∈ table.take 5 := by
  obtain ⟨k, hk, hp⟩ := h
  have key : ((Proofs.Checked.places (.one cSwagger) doc).all fun x =>
      !(isDict x.2.2 && Proofs.Checked.takes x.2.1 == some cSchema) || decide (x.1 ∈ table.take 5)) = true := by
    decide +kernel
  have := List.all_eq_true.1 key _ (Proofs.Checked.place_mem hp)
  simpa [Proofs.Checked.takes_iff.2 hk, isDict] using this

theorem far_shown (e : World.Outside) {n : Nat} (hn : n ∈ [2, 3, 4, 12, 14]) :
    Schemas.Shows (World.env e env0) refs (world outside url root) n (.obj cSchema farFs) := by
  have hnode : nodes n = Schemas.nodeOf farFs (if n = 2 then some c!"next" else none) none [] [] .yes := by
    simp only [List.mem_cons, List.not_mem_nil, or_false] at hn
    rcases hn with rfl | rfl | rfl | rfl | rfl <;> rfl
  refine .intro (name := if n = 2 then some c!"next" else none) (it := none) (al := []) (ps := []) (ad := .yes) hnode (.none (by decide +kernel)) ?_ ?_ ?_ ?_
  · have : listed (attr farFs c!"allOf") = [] := by decide +kernel
    rw [this]; exact .nil
  · have : Schemas.entries (attr farFs c!"properties") = [] := by decide +kernel
    rw [this]; exact .nil
  · have : attr farFs c!"additionalProperties" = .atom (.bool true) := by decide +kernel
    rw [this]; exact .bool (b := true)
  · have h : Schemas.resolved (world outside url root) farFs = some (some 0) := by decide +kernel
    rw [h, refs, if_pos hn]

theorem value_shown (e : World.Outside) :
    Schemas.Shows (World.env e env0) refs (world outside url root) 1 (.obj cSchema (made 1)) := by
  refine .intro (name := some c!"v") (it := none) (al := []) (ps := []) (ad := .yes) rfl (.none (by decide +kernel)) ?_ ?_ ?_ ?_
  · have : listed (attr (made 1) c!"allOf") = [] := by decide +kernel
    rw [this]; exact .nil
  · have : Schemas.entries (attr (made 1) c!"properties") = [] := by decide +kernel
    rw [this]; exact .nil
  · have : attr (made 1) c!"additionalProperties" = .atom (.bool true) := by decide +kernel
    rw [this]; exact .bool (b := true)
  · decide +kernel

theorem list_shown (e : World.Outside) :
    Schemas.Shows (World.env e env0) refs (world outside url root) 0 (.obj cSchema (made 0)) := by
  refine .intro (name := some c!"List") (it := none) (al := []) (ps := [(c!"v", 1), (c!"next", 2)]) (ad := .no) rfl
    (.none (by decide +kernel)) ?_ ?_ ?_ ?_
  · have : listed (attr (made 0) c!"allOf") = [] := by decide +kernel
    rw [this]; exact .nil
  · have : Schemas.entries (attr (made 0) c!"properties") =
        [(c!"v", .obj cSchema (made 1)), (c!"next", .obj cSchema farFs)] := by decide +kernel
    rw [this]; exact .cons (value_shown e) (.cons (far_shown e (by decide)) .nil)
  · have : attr (made 0) c!"additionalProperties" = .atom (.bool false) := by decide +kernel
    rw [this]; exact .bool (b := false)
  · decide +kernel

theorem shown (e : World.Outside) {ts : List Str} {q : Dict Str Tree} (h : Written doc ts cSchema q) :
    Schemas.Shows (World.env e env0) refs (world outside url root) (num ts) ((world outside url root).content (num ts)) := by
  have h := written_schema h
  have hfar : ∀ i ∈ [2, 3, 4], (world outside url root).content i = .obj cSchema farFs := by decide +kernel
  have hlist : ∀ i ∈ [0, 1], (world outside url root).content i = .obj cSchema (made i) := by decide +kernel
  have e0 : num [c!"definitions", c!"List"] = 0 := by decide +kernel
  have e1 : num [c!"definitions", c!"List", c!"properties", c!"v"] = 1 := by decide +kernel
  have e2 : num [c!"definitions", c!"List", c!"properties", c!"next"] = 2 := by decide +kernel
  have e3 : num [c!"responses", c!"Many", c!"schema"] = 3 := by decide +kernel
  have e4 : num [c!"paths", c!"/pets", c!"post", c!"parameters", c!"0", c!"schema"] = 4 := by decide +kernel
  simp only [table, List.take, List.mem_cons, List.not_mem_nil, or_false] at h
  rcases h with rfl | rfl | rfl | rfl | rfl
  · rw [e0, hlist 0 (by decide)]; exact list_shown e
  · rw [e1, hlist 1 (by decide)]; exact value_shown e
  · rw [e2, hfar 2 (by decide)]; exact far_shown e (by decide)
  · rw [e3, hfar 3 (by decide)]; exact far_shown e (by decide)
  · rw [e4, hfar 4 (by decide)]; exact far_shown e (by decide)

theorem inner (e : World.Outside) {ts : List Str} {q : Dict Str Tree} (h : Written doc ts cSchema q) :
    Inside (World.env e env0) num ts := by
  have h := written_schema h
  have e0 : num [c!"definitions", c!"List"] = 0 := by decide +kernel
  have e1 : num [c!"definitions", c!"List", c!"properties", c!"v"] = 1 := by decide +kernel
  have e2 : num [c!"definitions", c!"List", c!"properties", c!"next"] = 2 := by decide +kernel
  have e3 : num [c!"responses", c!"Many", c!"schema"] = 3 := by decide +kernel
  have e4 : num [c!"paths", c!"/pets", c!"post", c!"parameters", c!"0", c!"schema"] = 4 := by decide +kernel
  simp only [table, List.take, List.mem_cons, List.not_mem_nil, or_false] at h
  rcases h with rfl | rfl | rfl | rfl | rfl
  · refine ⟨fun _ _ => ?_, fun m hm => ?_, fun k m hm => ?_, fun i m hm => ?_, fun m hm => ?_⟩ <;>
      simp only [e0] at *
    · exact ⟨_, rfl⟩
    · cases hm
    · have hm : Dict.get? [(c!"v", 1), (c!"next", 2)] k = some m := hm
      simp only [Dict.get?] at hm
      split at hm
      · rename_i hk
        cases hm; cases hk; exact e1.symm
      · split at hm
        · rename_i hk
          cases hm; cases hk; exact e2.symm
        · cases hm
    · cases hm
    · cases hm
  · refine ⟨fun _ _ => ?_, fun m hm => ?_, fun k m hm => ?_, fun i m hm => ?_, fun m hm => ?_⟩ <;>
      simp only [e1] at *
    · exact ⟨_, rfl⟩
    all_goals cases hm
  · refine ⟨fun _ _ => ?_, fun m hm => ?_, fun k m hm => ?_, fun i m hm => ?_, fun m hm => ?_⟩ <;>
      simp only [e2] at *
    · exact ⟨_, rfl⟩
    all_goals cases hm
  · refine ⟨fun hd _ => absurd hd (by decide), fun m hm => ?_, fun k m hm => ?_, fun i m hm => ?_, fun m hm => ?_⟩ <;>
      simp only [e3] at * <;> cases hm
  · refine ⟨fun hd _ => absurd hd (by decide), fun m hm => ?_, fun k m hm => ?_, fun i m hm => ?_, fun m hm => ?_⟩ <;>
      simp only [e4] at * <;> cases hm

/-! the schemas within reach -/

def look : Str → Option (Dict Str Tree) := Proofs.Checked.lookIn doc url

theorem look_near : look c!"#/definitions/List" = some listQ := by decide +kernel
theorem look_far : look c!"http://h/s#/definitions/List" = some listQ := by decide +kernel

def lists (q : Dict Str Tree) : Prop := q = listQ ∨ q = valueQ ∨ q = nextQ ∨ q = farQ

theorem lists_closed : Closed look lists where
  simple := by
    rintro q (rfl | rfl | rfl | rfl) h
    · exact ⟨.inl rfl, ⟨.inr (.inl rfl), .inr (.inl rfl)⟩, .object (.inl rfl) (fun k t h => by
        have h : Dict.get? [(c!"v", Tree.dict valueQ), (c!"next", Tree.dict nextQ)] k = some t := h
        simp only [Dict.get?] at h
        split at h
        · cases h; exact ⟨_, rfl⟩
        · split at h
          · cases h; exact ⟨_, rfl⟩
          · cases h) (.bool rfl) rfl⟩
    · exact ⟨.inl rfl, ⟨.inr (.inl rfl), .inr (.inl rfl)⟩, .integer rfl rfl rfl⟩
    · cases h
    · cases h
  ref := by
    rintro q r d (rfl | rfl | rfl | rfl) h hl
    · cases h
    · cases h
    · cases h; rw [look_near] at hl; cases hl; exact .inl rfl
    · cases h; rw [look_far] at hl; cases hl; exact .inl rfl
  items := by
    rintro q d (rfl | rfl | rfl | rfl) - h <;> cases h
  property := by
    rintro q k d (rfl | rfl | rfl | rfl) h' h
    · have h : Dict.get? [(c!"v", Tree.dict valueQ), (c!"next", Tree.dict nextQ)] k = some (.dict d) := h
      simp only [Dict.get?] at h
      split at h
      · cases h; exact .inr (.inl rfl)
      · split at h
        · cases h; exact .inr (.inr (.inl rfl))
        · cases h
    · cases h
    · cases h'
    · cases h'
  further := by
    rintro q d (rfl | rfl | rfl | rfl) - h <;> cases h
  part := by
    rintro q d (rfl | rfl | rfl | rfl) - h <;> cases h
  composed := by
    rintro q (rfl | rfl | rfl | rfl) - h <;> exact absurd rfl h
  tag := by
    rintro q k (rfl | rfl | rfl | rfl) - h <;> cases h

theorem derefs (e : World.Outside) : Schemas.Derefs (World.env e env0) refs := by
  intro n
  show (∀ m, (if n ∈ [2, 3, 4, 12, 14] then Except.ok 0 else Except.ok n) = .ok m → _) ∧ _
  refine ⟨fun m hm => ?_, fun x hx => by dsimp only [World.env, env0] at hx; split at hx <;> cases hx⟩
  by_cases hn : n ∈ [2, 3, 4, 12, 14]
  · rw [if_pos hn] at hm
    cases hm
    simp only [List.mem_cons, List.not_mem_nil, or_false] at hn
    rcases hn with rfl | rfl | rfl | rfl | rfl <;> exact ⟨3, _, rfl⟩
  · simp only [if_neg hn, Except.ok.injEq] at hm
    subst hm
    have : refs n = none := if_neg hn
    exact ⟨1, [n], by simp [Utils.deref, Utils.derefLoop, Utils.CycleGuard.update, this]⟩

theorem schemas (e : World.Outside) : Schemata doc at_ root outside (World.env e env0) refs look lists where
  derefs := derefs e
  schemas ts q h := by rw [url_eq]; exact shown e h
  inside ts q h := inner e h
  looks r ts q hn hw := by
    rw [url_eq] at hn
    exact Proofs.Checked.looks self.plain (by decide) (by decide) r ts q hn hw
  closed := lists_closed
  handlers := rfl
  order l := List.Perm.refl _
  distinct n := by
    show Dict.WF (nodes n).properties
    unfold nodes
    split
    · show (([(c!"v", 1), (c!"next", 2)] : List (Str × Nat)).map Prod.fst).Nodup
      decide
    all_goals exact List.nodup_nil
  values := by rintro q (rfl | rfl | rfl | rfl) t h <;> cases h
  tags := by
    rintro ts q e - - (rfl | rfl | rfl | rfl) hr (_ | ⟨hm, -⟩) <;> first | rfl | cases hm

/-! ## the operations -/

theorem written {ts : List Str} {c : Nat} {q : Dict Str Tree}
    (h : ((Proofs.Checked.places (.one cSwagger) doc).any fun x =>
      x.1 == ts && Proofs.Checked.takes x.2.1 == some c && decide (x.2.2 = .dict q)) = true) : Written doc ts c q := by
  obtain ⟨⟨ts', k, u⟩, hx, h⟩ := List.any_eq_true.1 h
  simp only [Bool.and_eq_true, beq_iff_eq, decide_eq_true_eq] at h
  obtain ⟨⟨rfl, hk⟩, rfl⟩ := h
  exact Proofs.Checked.written_mem (by decide +kernel) hk hx

theorem limit_stands : Stands doc url cParameter 1 [c!"paths", c!"/pets", c!"get", c!"parameters", c!"0"] limitQ :=
  .ref (r := c!"#/parameters/Limit") (us := [c!"parameters", c!"Limit"]) (written (by decide +kernel))
    ⟨by decide, .inl (by decide)⟩ (.inline (written (by decide +kernel)) rfl)

theorem many_stands : Stands doc url cResponse 1 [c!"paths", c!"/pets", c!"get", c!"responses", c!"200"] manyQ :=
  .ref (r := c!"#/responses/Many") (us := [c!"responses", c!"Many"]) (written (by decide +kernel))
    ⟨by decide, .inl (by decide)⟩ (.inline (written (by decide +kernel)) rfl)

theorem body_stands : Stands doc url cParameter 0 [c!"paths", c!"/pets", c!"post", c!"parameters", c!"0"] bodyQ :=
  .inline (written (by decide +kernel)) rfl

theorem direct (n : Nat) (h : (env0.node n).isSchema = false) : env0.deref n = .ok n := by
  show (if n ∈ [2, 3, 4, 12, 14] then Except.ok 0 else Except.ok n) = _
  by_cases hn : n ∈ [2, 3, 4, 12, 14]
  · simp only [List.mem_cons, List.not_mem_nil, or_false] at hn
    rcases hn with rfl | rfl | rfl | rfl | rfl <;> cases h
  · rw [if_neg hn]

def limitPs : List Call.Decl := [⟨c!"limit", c!"query", false, 10, none⟩]
def bodyPs : List Call.Decl := [⟨c!"list", c!"body", false, 13, some 14⟩]

theorem getOp (hw : C74.Sound w) : Operation doc at_ root outside id 3 w env0 refs [c!"paths", c!"/pets"] c!"get" itemQ getQ
    [limitQ] [] limitPs where
  item := written (by decide +kernel)
  inPlace := rfl
  operation := ⟨rfl, by decide⟩
  perm l := List.Perm.refl _
  forOp := by
    have h : elements ([c!"paths", c!"/pets"] ++ [c!"get"]) c!"parameters" getQ =
        [[c!"paths", c!"/pets", c!"get", c!"parameters", c!"0"]] := by decide +kernel
    rw [url_eq, h]
    exact .cons ⟨1, limit_stands⟩ .nil
  forItem := .nil
  parameters := by
    rw [url_eq]
    refine ⟨[.obj cParameter limitFinal], by decide +kernel, .cons ⟨⟨by decide +kernel, by decide +kernel, by decide +kernel,
      .plain (by decide +kernel) rfl, by decide +kernel⟩, fun m c fs h => (by cases h)⟩ .nil⟩
  distinct := by decide
  direct := direct
  sound := hw

theorem postOp (hw : C74.Sound w) : Operation doc at_ root outside id 3 w env0 refs [c!"paths", c!"/pets"] c!"post" itemQ
    postQ [bodyQ] [] bodyPs where
  item := written (by decide +kernel)
  inPlace := rfl
  operation := ⟨rfl, by decide⟩
  perm l := List.Perm.refl _
  forOp := by
    have h : elements ([c!"paths", c!"/pets"] ++ [c!"post"]) c!"parameters" postQ =
        [[c!"paths", c!"/pets", c!"post", c!"parameters", c!"0"]] := by decide +kernel
    rw [url_eq, h]
    exact .cons ⟨0, body_stands⟩ .nil
  forItem := .nil
  parameters := by
    rw [url_eq]
    refine ⟨[.obj cParameter bodyFinal], by decide +kernel, .cons ⟨⟨by decide +kernel, by decide +kernel, by decide +kernel,
      .plain (by decide +kernel) rfl, by decide +kernel⟩, fun m c fs h e => ?_⟩ .nil⟩
    cases h
    cases e
    have : attr bodyFinal c!"schema" = .obj cSchema farFs := by decide +kernel
    rw [this]
    exact far_shown w (by decide)
  distinct := by decide
  direct := direct
  sound := hw

def many : Io.RespDecl Nat Nat := ⟨[(c!"X-Count", 11)], some 12⟩

theorem many_final : MergeRefs.effective (world outside url root) id cResponse 3 7 = some (.value (.obj cResponse manyFinal)) := by
  have h : (match MergeRefs.effective (world outside url root) id cResponse 3 7 with
    | some (.value t) => decide (t = .obj cResponse manyFinal)
    | _ => false) = true := by decide +kernel
  revert h
  cases MergeRefs.effective (world outside url root) id cResponse 3 7 with
  | none => intro h; cases h
  | some r =>
    cases r with
    | value t => intro h; rw [of_decide_eq_true h]
    | raised x => intro h; cases h
    | failed => intro h; cases h

theorem responses (e : World.Outside) : Responses doc at_ root outside id 3 (World.env e env0) refs
    [c!"paths", c!"/pets", c!"get"] getQ [(c!"200", many)] where
  operation := written (by decide +kernel)
  perm l := List.Perm.refl _
  stand := by
    intro x hx
    rw [url_eq]
    cases List.mem_singleton.1 hx
    exact ⟨1, _, many_stands⟩
  table := by
    rw [url_eq]
    have hn : (named [c!"paths", c!"/pets", c!"get"] c!"responses" getQ).map (fun x => (x.1, outside.num x.2)) =
        [(c!"200", 7)] := by decide +kernel
    rw [hn]
    refine .cons (t := .obj cResponse manyFinal) many_final ⟨?_, .some ?_⟩ .nil
    · have : Schemas.entries (attr manyFinal c!"headers") = [(c!"X-Count", .obj cHeader countFs)] := by decide +kernel
      rw [this]
      exact .cons (.plain (by decide +kernel) rfl) .nil
    · have : attr manyFinal c!"schema" = .obj cSchema farFs := by decide +kernel
      rw [this]
      exact far_shown e (by decide)

theorem limit_within : Within (· = limitQ) := C81.limit_within

open Call Io Ask Spec.Server Props.C72

/-- a request: a server reads a conforming `limit` in it -/
example (hw : C74.Sound w) (hr : Real w) (hn : ∀ k t, w.obj k ≠ .datetime t) : ∃ r r' val,
    ask (World.env w env0) (World.leaf w other) 9 limitPs (fun _ => .many []) C81.limitOp [(c!"limit", .int 30)] = .ok r ∧
    prepare C81.limitIo C81.limitOp (.str c!"http") true r = .ok r' ∧
    ReadsAll limitQ ((r'.p.query.filter fun x => x.1 = c!"limit").map Prod.snd) val ∧
    Conforms (fun _ => none) (C81.UrlTexts fun _ => true = true) False limitQ val := by
  obtain ⟨r, hask⟩ : ∃ r : Req (Prim World.Atom) Str, ask (World.env w env0) (World.leaf w other) 9 limitPs (fun _ => .many [])
      C81.limitOp [(c!"limit", .int 30)] = .ok r := ⟨_, rfl⟩
  obtain ⟨r', hp⟩ : ∃ r', prepare C81.limitIo C81.limitOp (.str c!"http") true r = .ok r' := by
    cases hask
    exact ⟨_, rfl⟩
  obtain ⟨d, v, c, hd, hv, hc, h⟩ := C82_query loads (getOp hw) limit_within (C81.C81_formats hr hn env0)
    (q := limitQ) (by simp only [inForce, unnamed]; exact List.mem_singleton.2 rfl) rfl rfl rfl (.inl (by simp [Dict.get?])) hask hp
  have hv : v = .int 30 := by
    rcases hv with hv | ⟨hv, -⟩
    · exact (Option.some.inj hv).symm
    · cases hv
  subst hv
  have hl := limits hd.object
  obtain ⟨k, rfl, -⟩ := Proofs.Conform.convert_int (env := World.env w env0) (i := d.obj) (direct _ hl.isSchema)
    (typed rfl (by decide) (Proofs.Conform.text_eq hl.type) rfl (get_integer _)) hl.allOf (by simp [effective]) hc
  obtain ⟨val, h1, h2⟩ := h (.inl .int)
  exact ⟨r, r', val, hask, hp, h1, h2⟩

/-! a body -/

def postOp' : Op Unit := ⟨c!"//h/pets", c!"/pets", c!"post", [], [], [c!"http"], none, [⟨c!"list", c!"body", .ok ()⟩]⟩

def enc : Prim.Json.Enc World.Atom := ⟨World.toJson, fun _ => []⟩

def postIo : Io.Env (Prim World.Atom) Unit Str := ⟨fun _ b _ => Prim.Json.marshal enc b, List.map Char.toLower,
  fun _ _ => .ok [], fun s => .ok (utf8 s), fun _ => .ok [], c!"b"⟩

theorem lists_defaults (N : Prop) : ∀ q, lists q → Defaults N q := by
  rintro q (rfl | rfl | rfl | rfl) t ht <;> cases ht

/-- a request with a linked list: what a server reads conforms to the schema -/
example (hw : C74.Sound w) (hr : Real w) (hn : ∀ k t, w.obj k ≠ .datetime t) : ∃ r r' body u,
    ask (World.env w env0) (World.leaf w other) 9 bodyPs (fun _ => .many []) postOp' [(c!"list", two)] = .ok r ∧
    prepare postIo postOp' (.str c!"http") true r = .ok r' ∧ r'.data = .payload body ∧
    Spec.Json.readJson body = some u ∧ Conforms look (Texts fun _ => true = true) False nextQ u := by
  obtain ⟨r, hask, hp1, hp2⟩ : ∃ r : Req (Prim World.Atom) Str, ask (World.env w env0) (World.leaf w other) 9 bodyPs
      (fun _ => .many []) postOp' [(c!"list", two)] = .ok r ∧ r.p.file = [] ∧ r.p.formData = [] := ⟨_, rfl, rfl, rfl⟩
  obtain ⟨r', hp⟩ : ∃ r', prepare postIo postOp' (.str c!"http") true r = .ok r' := by
    cases hask
    exact ⟨_, rfl⟩
  obtain ⟨d, m, c, hd, -, hm, hc, h⟩ := C82_body loads (postOp hw) (schemas w) (lists_defaults False) (enc := enc)
    (form := Texts fun _ => true = true) (C79_formats hr hn env0)
    (q := bodyQ) (nm := c!"list") (s := nextQ) (v := two) hask hp hp1 hp2 (List.mem_singleton.2 rfl) rfl rfl rfl rfl
    (by intro d hd _; cases List.mem_singleton.1 hd; rfl) rfl (fun _ _ => rfl) rfl (.inr (.inr (.inl rfl))) rfl
    (by simp [two, Proper, ProperPairs])
  cases List.mem_singleton.1 hd
  cases hm
  have hj : (convert (World.env w env0) 9 14 two false).toOption.map (C70.jsonOf World.toJson) = some (.ok two) := by rfl
  rw [hc] at hj
  obtain ⟨body, h1, h2, h3⟩ := h two (Option.some.inj hj) (by simp [two, Spec.Json.Plain, Spec.Json.PlainPairs])
  exact ⟨r, r', body, two, hask, hp, h1, h2, h3⟩

/-! a reply -/

theorem value_conforms {n : Int} (hn : n ≤ 9) : Conforms look (Kept fun _ => true = true) False valueQ (.int n) := by
  refine .integer (.stop rfl) rfl ⟨fun m hm => ?_, fun m hm => (by cases hm), fun m hm => (by cases hm)⟩ (.inl rfl)
  cases hm
  exact ⟨by exact_mod_cast hn, fun h => by cases h⟩

theorem last_conforms : Conforms look (Kept fun _ => true = true) False nextQ (.dict [(c!"v", .int 8)]) := by
  refine .object (.go (r := c!"#/definitions/List") rfl look_near (.stop rfl)) (.inr rfl) (by decide) ?_ ?_ ?_ ?_ (.inl rfl) (fun s hs => by cases hs)
  · intro k hk
    have hk : k = c!"v" := by simpa [Required, listAt, listQ, Dict.get?, txt] using hk
    subst hk
    exact ⟨_, rfl⟩
  · intro k v s h1 h2
    simp only [Dict.get?] at h1
    split at h1
    · next e =>
      subst e
      cases h1
      cases h2
      exact value_conforms (by decide)
    · cases h1
  · intro k v s _ _ h; cases h
  · intro k v h1 h2
    simp only [Dict.get?] at h1
    split at h1
    · next e => subst e; cases h2
    · cases h1

theorem two_conforms {q : Dict Str Tree} (h : Leads look q listQ) :
    Conforms look (Kept fun _ => true = true) False q two := by
  refine .object h (.inr rfl) (by decide) ?_ ?_ ?_ ?_ (.inl rfl) (fun s hs => by cases hs)
  · intro k hk
    have hk : k = c!"v" := by simpa [Required, listAt, listQ, Dict.get?, txt] using hk
    subst hk
    exact ⟨_, rfl⟩
  · intro k v s h1 h2
    simp only [two, Dict.get?] at h1
    split at h1
    · next e => subst e; cases h1; cases h2; exact value_conforms (by decide)
    · split at h1
      · next e => subst e; cases h1; cases h2; exact last_conforms
      · cases h1
  · intro k v s _ _ h; cases h
  · intro k v h1 h2
    simp only [two, Dict.get?] at h1
    split at h1
    · next e => subst e; cases h2
    · split at h1
      · next e => subst e; cases h2
      · cases h1

theorem lists_neutral (P : Prop) : ∀ q, lists q → Neutral P q := by
  rintro q (rfl | rfl | rfl | rfl)
  · refine ⟨.inl rfl, fun _ => .inl rfl, fun k hk => ?_, fun h => (by cases h), .inl rfl, rfl⟩
    have hk : k = c!"v" := by simpa [Required, listAt, listQ, Dict.get?, txt] using hk
    subst hk
    exact ⟨_, rfl⟩
  · exact ⟨.inl rfl, fun _ => .inl rfl, fun k hk => (by cases hk), fun h => (by cases h), .inl rfl, rfl⟩
  · exact ⟨.inl rfl, fun _ => .inl rfl, fun k hk => (by cases hk), fun h => (by cases h), .inl rfl, rfl⟩
  · exact ⟨.inl rfl, fun _ => .inl rfl, fun k hk => (by cases hk), fun h => (by cases h), .inl rfl, rfl⟩

theorem entry : entryFor (named [c!"paths", c!"/pets", c!"get"] c!"responses" getQ) 200 =
    some [c!"paths", c!"/pets", c!"get", c!"responses", c!"200"] := by decide +kernel

def petsEnv : Prim.Env World.Atom := World.env plainWorld env0

/-- a reply with a count is accepted -/
example (loads' : Str → Except Exc Val) (hloads : ∀ s v, Spec.Json.readJson s = some v → loads' s = .ok v) :
    ∃ F, ∀ stack, F ≤ stack → ∃ x v',
      (applyWith (Reply.renv (C80.outside loads') petsEnv stack) [(c!"200", many)] Resp.init
        ⟨some 200, some (.inr c!"{\"v\": 7, \"next\": {\"v\": 8}}"), some [(c!"X-Count", c!" 2 "), (c!"X-Other", c!"x")]⟩).2 =
          none ∧
      (applyWith (Reply.renv (C80.outside loads') petsEnv stack) [(c!"200", many)] Resp.init
        ⟨some 200, some (.inr c!"{\"v\": 7, \"next\": {\"v\": 8}}"), some [(c!"X-Count", c!" 2 "), (c!"X-Other", c!"x")]⟩).1.data =
          some x ∧ C70.jsonOf World.toJson x = .ok v' ∧ Same two v' := by
  refine C82_reply (out := C80.outside loads') (z := 200) (S := (· = countQ)) (N := False) loads (responses plainWorld)
    (schemas plainWorld) (C79_back _ _) (lists_neutral _) hloads (by rfl)
    (C80.json_types loads' [] (.inl rfl)).2 entry (url_eq ▸ many_stands) rfl (.inr (.inr (.inr rfl)))
    (raw := .inr c!"{\"v\": 7, \"next\": {\"v\": 8}}") (.inl rfl)
    (v := two) (by decide +kernel) (two_conforms (.go (r := c!"http://h/s#/definitions/List") rfl look_far (.stop rfl)))
    (fun h => by cases h) ?_ direct C81.count_within ?_ ?_
  · intro h hh hct
    simp only [List.mem_cons, List.not_mem_nil, or_false] at hh
    rcases hh with rfl | rfl
    · exact absurd hct (show c!"x-count" ≠ c!"content-type" by decide)
    · exact absurd hct (show c!"x-other" ≠ c!"content-type" by decide)
  · rintro q rfl
    exact ⟨by decide, fun h => by cases h⟩
  · intro h hh
    simp only [List.mem_cons, List.not_mem_nil, or_false] at hh
    rcases hh with rfl | rfl
    · refine .inr ⟨countQ, .int 2, rfl, rfl, .integer rfl (by decide +kernel), .integer (.stop rfl) rfl ?_ (.inl rfl)⟩
      refine ⟨fun m h => (by cases h), fun m h => ?_, fun m h => (by cases h)⟩
      have : m = ((1 : Int) : Rat) := by
        have h : some ((1 : Int) : Rat) = some m := h
        cases h; rfl
      subst this
      exact ⟨Rat.intCast_le_intCast.2 (by decide), fun h => by cases h⟩
    · exact .inl rfl

end Pets
end Props.C82
