import Verif.Props.C99
import Verif.Props.C98Example
/-!
# C99: a concrete document

Two paths, the second one given as a reference to the first, which has an operation with an id and a tag, or two tags (`b`).
-/

namespace Props.C99
open Py Utils Tree _root_.Doc Spec Spec.Places Spec.Pointed _root_.Loaded Proofs.Loaded Proofs.Origin Proofs.Placed
open Proofs.Checked
open Props.C88.Shelf (txt)
open Props.C98.Notes (url at_ url_eq)

namespace Notes

def getQ (b : Bool) : Dict Str Tree :=
  [(c!"operationId", txt c!"list"), (c!"tags", .list (if b then [txt c!"a", txt c!"b"] else [txt c!"a"]))]
def oneQ (b : Bool) : Dict Str Tree := [(c!"get", .dict (getQ b))]
def twoQ : Dict Str Tree := [(c!"$ref", txt (pointer [c!"paths", c!"/one"]))]
def sq (b : Bool) : Dict Str Tree := [(c!"swagger", txt c!"2.0"), (c!"paths", .dict [(c!"/one", .dict (oneQ b)), (c!"/two", .dict twoQ)])]
def doc (b : Bool) : Tree := .dict (sq b)

/-- an order of sets: `b` comes before `a` -/
def order (l : List Atom) : List Atom := if l = [.str c!"a", .str c!"b"] then [.str c!"b", .str c!"a"] else l

theorem order_perm (l : List Atom) : (order l).Perm l := by
  unfold order
  split
  · next h => rw [h]; exact .swap _ _ _
  · exact .refl _

local instance : DecidableEq (Dict Str Tree) := inferInstanceAs (DecidableEq (List (Str × Tree)))

theorem plain_doc (b : Bool) : plain (doc b) = true := by revert b; decide +kernel

def all (b : Bool) : List (List Str × Nat × Dict Str Tree) :=
  [([], cSwagger, sq b), ([c!"paths", c!"/one"], cPathItem, oneQ b), ([c!"paths", c!"/one", c!"get"], cOperation, getQ b),
    ([c!"paths", c!"/two"], cPathItem, twoQ)]

theorem dicts_eq (b : Bool) : C92.Notes.dicts (doc b) = all b := by revert b; decide +kernel

theorem written_iff {b : Bool} {ts : List Str} {c : Nat} {q : Dict Str Tree} : Written (doc b) ts c q ↔ (ts, c, q) ∈ all b := by
  rw [← dicts_eq]; exact C92.Notes.dicts_iff (plain_doc b)

theorem no_null (b : Bool) : (places (.one cSwagger) (doc b)).all (fun x => !nullSpot x) = true := by revert b; decide +kernel

theorem names_one : Names url (pointer [c!"paths", c!"/one"]) [c!"paths", c!"/one"] := ⟨by simp, .inl rfl⟩

theorem inside (b : Bool) : Inside (doc b) url := by
  refine ⟨plain_sound _ (plain_doc b), fun ts c hpl => ?_, fun ts c q v hw hf hr => ?_⟩
  · have := List.all_eq_true.1 (no_null b) _ (place_mem hpl)
    simp [nullSpot] at this
  · have hw := written_iff.1 hw
    simp only [all, List.mem_cons, List.not_mem_nil, or_false] at hw
    rcases hw with h | h | h | h <;> cases h
    · cases hr
    · cases hr
    · cases hr
    · cases hr
      exact ⟨_, _, rfl, names_one⟩

def read (b : Bool) : Tree := (parse v20 cSwagger (doc b)).getD (.atom .none)
def root (b : Bool) : Tree := (normalizeRefs url (read b)).getD (.atom .none)

theorem read_eq (b : Bool) : parse v20 cSwagger (doc b) = some (read b) := by
  have h : (parse v20 cSwagger (doc b)).isSome = true := by revert b; decide +kernel
  unfold read
  cases hp : parse v20 cSwagger (doc b) with
  | none => rw [hp] at h; cases h
  | some t => rfl

theorem root_eq (b : Bool) : normalizeRefs url (read b) = some (root b) := by
  have h : (normalizeRefs url (read b)).isSome = true := by revert b; decide +kernel
  unfold root
  cases hp : normalizeRefs url (read b) with
  | none => rw [hp] at h; cases h
  | some t => rfl

theorem reads (b : Bool) : C98.Reads (doc b) at_ (read b) (root b) :=
  ⟨C86.Notes.canon, rfl, url_eq ▸ inside b, read_eq b, url_eq ▸ root_eq b⟩

theorem shares : Shares (doc false) url c!"/two" c!"/one" c!"get" (getQ false) ⟨[c!"a"], some c!"list"⟩ where
  other := by decide
  method := by decide
  refers := ⟨twoQ, _, written_iff.2 (by simp [all]), rfl, names_one, .inl rfl⟩
  has := ⟨oneQ false, written_iff.2 (by simp [all]), rfl⟩
  label := ⟨.inl (.inl rfl), rfl⟩
  named := ⟨_, rfl, by decide⟩
  tags := by decide

/-- no application is made of it -/
example [LinearOrder Str] (o : Objects.Outside) (hf : ∀ i, WF (o.foreign i)) (names : Nat → Str) (fuel : Nat) (sep : Str) (strict : Bool) (x) :
    _root_.Create.create o (urlunparse at_) (doc false) names order fuel sep strict ≠ some (.ok x) :=
  C99_refused (reads false) rfl order_perm hf (url_eq ▸ shares) x

/-! ## the exception -/

def at1 : List Str := [c!"paths", c!"/one"]
def at2 : List Str := [c!"paths", c!"/two"]

def fieldsAt (ts : List Str) (r : Tree) : List (Str × Tree) :=
  match Tree.resolve ts r with
  | .ok (.obj _ fs) => fs
  | _ => []

variable (b : Bool)

/-- the path items as they are read -/
def one : Tree := .obj cPathItem (fieldsAt at1 (root b))
def two : Tree := .obj cPathItem (fieldsAt at2 (root b))

def joined (t u : Tree) : Tree := (merge v20 order [] t u).getD (.atom .none)

/-- the path items merged, and the documents with them -/
def two' : Tree := joined (two b) (joined (joined (fresh v20 cPathItem) (two b)) (one b))
def one' : Tree := joined (one b) (joined (fresh v20 cPathItem) (one b))
def root1 : Tree := _root_.Create.putItem (root b) c!"/two" (two' b)
def root2 : Tree := _root_.Create.putItem (root1 b) c!"/one" (one' b)

section
variable (o : Objects.Outside)

theorem content_one {r : Tree} (h : Tree.resolve at1 r = .ok (one b)) : (world o.toOutside url r).content (o.num at1) = (one b) := by
  simp only [world, o.left, h, one]

theorem content_two : (world o.toOutside url (root b)).content (o.num at2) = (two b) := by
  have h : Tree.resolve at2 (root b) = .ok (two b) := by cases b <;> rfl
  simp only [world, o.left, h, two]

theorem resolve_one : (world o.toOutside url (root b)).resolve (absolute url (pointer at1)) = .ok (o.num at1) := by
  have h : Tree.resolve at1 (root b) = .ok (one b) := by cases b <;> rfl
  have := C98.found_in (o := o) (reads b) (root b) (url_eq ▸ names_one)
  rw [url_eq] at this
  have hl : locate at1 (root b) = at1 := by clear * - b; revert b; decide +kernel
  exact this.trans (by rw [show Tree.resolve [c!"paths", c!"/one"] (root b) = .ok (one b) from h]; simp only [AppResolve.wrap, one]; exact congrArg (fun x => Except.ok (o.num x)) hl)

theorem merge_two (n : Nat) : MergeRefs.pathItem (world o.toOutside url (root b)) order (n + 2) (o.num at2) = some (.value (two' b)) := by
  have c1 := content_one b o (r := (root b)) (by cases b <;> rfl)
  have c2 := content_two b o
  have m1 : merge v20 order [] (fresh v20 cPathItem) (two b) = some (joined (fresh v20 cPathItem) (two b)) := by clear * - b; revert b; decide +kernel
  have m2 : merge v20 order [] (joined (fresh v20 cPathItem) (two b)) (one b) = some (joined (joined (fresh v20 cPathItem) (two b)) (one b)) := by clear * - b; revert b; decide +kernel
  have m3 : merge v20 order [] (two b) (joined (joined (fresh v20 cPathItem) (two b)) (one b)) = some (two' b) := by clear * - b; revert b; decide +kernel
  have r2 : MergeRefs.refText (two b) = some (absolute url (pointer at1)) := by clear * - b; revert b; decide +kernel
  have r1 : MergeRefs.refText (one b) = none := by clear * - b; revert b; decide +kernel
  have hc : cls? (one b) = some cPathItem := rfl
  have hne : o.num at1 ∉ [o.num at2] := by
    rw [List.mem_singleton]; exact num_ne (by decide)
  unfold MergeRefs.pathItem MergeRefs.effective
  rw [c2, m1]
  dsimp only
  rw [MergeRefs.follow, c2, r2]
  dsimp only
  rw [resolve_one]
  dsimp only
  rw [c1, hc, if_neg (by simp), if_neg hne, m2]
  dsimp only
  rw [MergeRefs.follow, c1, r1]
  dsimp only
  rw [m3]

theorem merge_one {r : Tree} (h : Tree.resolve at1 r = .ok (one b)) (n : Nat) :
    MergeRefs.pathItem (world o.toOutside url r) order (n + 2) (o.num at1) = some (.value (one' b)) := by
  have c1 := content_one b o h
  have m1 : merge v20 order [] (fresh v20 cPathItem) (one b) = some (joined (fresh v20 cPathItem) (one b)) := by clear * - b; revert b; decide +kernel
  have m2 : merge v20 order [] (one b) (joined (fresh v20 cPathItem) (one b)) = some (one' b) := by clear * - b; revert b; decide +kernel
  have r1 : MergeRefs.refText (one b) = none := by clear * - b; revert b; decide +kernel
  unfold MergeRefs.pathItem MergeRefs.effective
  rw [c1, m1]
  dsimp only
  rw [MergeRefs.follow, c1, r1]
  dsimp only
  rw [m2]

theorem spread_eq (n : Nat) : _root_.Create.spread o url (root b) order (n + 2) = some (root2 b) := by
  have h1 : Index.inPlace (root b) = false := by clear * - b; revert b; decide +kernel
  have h2 : _root_.Create.itemNames (root b) = [c!"/two", c!"/one"] := by clear * - b; revert b; decide +kernel
  unfold _root_.Create.spread
  rw [h1, if_neg (by simp), h2, _root_.Create.mergeItems]
  have := merge_two b o n
  unfold at2 at this
  rw [this]
  dsimp only
  rw [_root_.Create.mergeItems]
  have := merge_one b o (r := (root1 b)) (by cases b <;> rfl) n
  unfold at1 at this
  rw [show _root_.Create.putItem (root b) c!"/two" (two' b) = (root1 b) from rfl, this]
  dsimp only
  rw [_root_.Create.mergeItems]
  rfl

theorem walk_eq : Scan.traversal (root b) [] =
    [(pointer [], (root b)), (pointer at2, (two b)), (pointer at1, (one b)), (pointer (at1 ++ [c!"get"]), .obj cOperation (fieldsAt (at1 ++ [c!"get"]) (root b)))] := by
  revert b; decide +kernel

theorem merged (n : Nat) : _root_.Create.mergeAll o (world o.toOutside url (root b)) order (n + 2) (Scan.traversal (root b) []) = some (.ok ()) := by
  have num : ∀ ts, _root_.Create.numAt o (pointer ts) = o.num ts := by
    intro ts
    unfold _root_.Create.numAt
    rw [Proofs.ScanTree.split_pointer, List.tail_cons]
  have k0 : cls? (root b) = some cSwagger := by clear * - b; revert b; decide +kernel
  rw [walk_eq]
  simp only [_root_.Create.mergeAll, _root_.Create.mergeOne, num, k0]
  simp [cls?, one, two, merge_two, merge_one b o (r := (root b)) (by cases b <;> rfl), _root_.Create.ended, cSwagger, cPathItem, cParameter, cResponse, cOperation]

theorem validated (names : Nat → Str) (strict : Bool) :
    (Validate.validate _root_.Create.mro names cSchema (some (root b)) strict).map (fun _ => ()) = .ok () := by
  have h : ∃ calls, Scan.scan _root_.Create.mro [(0, Scan.registered [([cSchema], Validate.validateSchema)])] (some (root b)) [] = .ok calls ∧ calls = [] := by
    have : (match Scan.scan _root_.Create.mro [(0, Scan.registered [([cSchema], Validate.validateSchema)])] (some (root b)) [] with
      | .ok calls => calls.isEmpty
      | .error _ => false) = true := by clear * - b; revert b; decide +kernel
    cases hs : Scan.scan _root_.Create.mro [(0, Scan.registered [([cSchema], Validate.validateSchema)])] (some (root b)) [] with
    | error e => rw [hs] at this; cases this
    | ok calls => rw [hs] at this; exact ⟨calls, rfl, List.isEmpty_iff.1 this⟩
  obtain ⟨calls, h1, h2⟩ := h
  unfold Validate.validate Validate.errors
  rw [h1, h2]
  cases strict <;> rfl

/-- creating the App ends as the index of the merged document does -/
theorem create_eq [LinearOrder Str] (names : Nat → Str) (n : Nat) (sep : Str) (strict : Bool) :
    _root_.Create.create o url (doc b) names order (n + 2) sep strict = _root_.Create.finish o url (root2 b) (n + 2) sep strict := by
  have hv : AppResolve.get_swagger_version (_root_.Effective.toVal (doc b)) = .ok (.str c!"2.0") := by clear * - b; revert b; decide +kernel
  have hs : _root_.Create.visited (root b) cSchema = [] := by clear * - b; revert b; decide +kernel
  have hs2 : _root_.Create.visited (root2 b) cSchema = [] := by clear * - b; revert b; decide +kernel
  have hsch : _root_.Create.schemesOf (root b) = .ok () := by cases b <;> rfl
  have hpatch : _root_.Create.patchAll (root2 b) (Scan.traversal (root2 b) []) = .ok () := by clear * - b; revert b; decide +kernel
  have hagg : _root_.Create.aggregated o url (root2 b) = true := by
    unfold _root_.Create.aggregated _root_.Create.composeSchemas _root_.Create.schemaHeap
    rw [hs2]
    rfl
  unfold _root_.Create.create
  rw [hv]
  dsimp only
  rw [if_neg (by decide), if_pos rfl, read_eq]
  dsimp only
  rw [root_eq]
  dsimp only
  unfold _root_.Create.prepare
  rw [hs, _root_.Create.resolveAll, validated]
  dsimp only
  rw [hsch]
  dsimp only
  rw [merged]
  dsimp only
  rw [spread_eq]
  dsimp only
  rw [hpatch]
  dsimp only
  rw [if_pos hagg]

/-- the exception is `SchemaError`, strict or not -/
theorem exact_error [LinearOrder Str] (hf : ∀ i, WF (o.foreign i)) (names : Nat → Str) (n : Nat) (sep : Str) (strict : Bool) :
    _root_.Create.create o url (doc false) names order (n + 2) sep strict = some (.error .SchemaError) := by
  have hix := C99_index (o := o) (sep := sep) (fuel := n + 2) (reads false) rfl order_perm hf (url_eq ▸ shares) (S := root2 false)
    (by rw [url_eq]; exact spread_eq false o n)
  rw [create_eq]
  unfold _root_.Create.finish
  rw [hix]

/-! ## two tags -/

theorem lends : Lends (doc true) url c!"/two" c!"/one" c!"get" (getQ true) ⟨[c!"a", c!"b"], some c!"list"⟩ where
  other := by decide
  method := by decide
  refers := ⟨twoQ, _, written_iff.2 (by simp [all]), rfl, names_one, .inl rfl⟩
  has := ⟨oneQ true, written_iff.2 (by simp [all]), rfl⟩
  label := ⟨.inl (.inl rfl), rfl⟩
  named := ⟨_, rfl, by decide⟩

def get1 : List Str := at1 ++ [c!"get"]
def get2 : List Str := at2 ++ [c!"get"]

theorem walk_two : (Scan.traversal (root2 true) []).filter (fun v => cls? v.2 == some cOperation) =
    [(pointer get2, .obj cOperation (fieldsAt get2 (root2 true))), (pointer get1, .obj cOperation (fieldsAt get1 (root2 true)))] := by
  decide +kernel

theorem ops_two : Index.ops o (root2 true) =
    [Index.infoOf (o.num get2) (fieldsAt get2 (root2 true)), Index.infoOf (o.num get1) (fieldsAt get1 (root2 true))] := by
  have h : ∀ l : List (Str × Tree), l.filterMap (Index.visit o) = (l.filter (fun v => cls? v.2 == some cOperation)).filterMap (Index.visit o) := by
    intro l
    induction l with
    | nil => rfl
    | cons v l ih =>
      obtain ⟨p, t⟩ := v
      cases t with
      | obj c fs =>
        by_cases hc : c = cOperation
        · simp [hc, cls?, Index.visit, ih]
        · simp [hc, cls?, Index.visit, ih]
      | _ => rw [List.filter_cons_of_neg (by simp [cls?]), ← ih, List.filterMap_cons_none (by rfl)]
  unfold Index.ops
  rw [h, walk_two]
  simp only [List.filterMap_cons, List.filterMap_nil, Index.visit, if_pos, Proofs.ScanTree.split_pointer, List.tail_cons]

theorem index_two (sep : Str) : TypeReduce.run sep (Index.ops o (root2 true)) =
    .ok [(c!"b" ++ sep ++ c!"list", o.num get2), (c!"a" ++ sep ++ c!"list", o.num get1)] := by
  have h2 : ∀ n, Index.infoOf n (fieldsAt get2 (root2 true)) = ⟨n, some [c!"b", c!"a"], some c!"list"⟩ := fun n => rfl
  have h1 : ∀ n, Index.infoOf n (fieldsAt get1 (root2 true)) = ⟨n, some [c!"a", c!"b"], some c!"list"⟩ := fun n => rfl
  rw [ops_two, h1, h2, C06.C06_index]
  rfl

theorem target_way {S : Tree} {ts : List Str} (hne : ts ≠ []) {x : Str} (hx : C92.Way url x ts) :
    _root_.Create.target o url S x = (Tree.resolve ts S).toOption := by
  obtain ⟨g, hg, hp⟩ := pointer_cons hne
  have e : ∃ u, (u = url ∨ u = []) ∧ jr_split o.path2url o.abspath x = .ok (u, pointer ts) := by
    rcases hx with rfl | rfl
    · exact ⟨[], .inr rfl, by rw [hp]; exact C67.split_hash _ _ _ hg⟩
    · refine ⟨_, .inl rfl, ?_⟩
      have := Props.C10.C10_split o.path2url o.abspath (reads true).canon (reads true).whole g
      unfold Props.C10.withFrag at this
      simp only [Option.getD_some, if_neg hg] at this
      rw [hp, ← url_eq, this]
  obtain ⟨u, hu, e⟩ := e
  unfold _root_.Create.target
  rw [e]
  dsimp only
  rw [if_pos hu, Proofs.ScanTree.split_pointer, List.tail_cons]

theorem out_one {x : Str} (hx : C92.Way url x at1) : _root_.Create.refOut o url (root2 true) x = [] := by
  unfold _root_.Create.refOut
  rw [target_way o (by decide) hx]
  rfl

theorem out_two {x : Str} (hx : C92.Way url x at2) : _root_.Create.refOut o url (root2 true) x = [url ++ pointer at1] := by
  have h : (Tree.resolve at2 (root2 true)).toOption.bind MergeRefs.refText = some (url ++ pointer at1) := by decide +kernel
  unfold _root_.Create.refOut
  rw [target_way o (by decide) hx, h]

/-- the document with two tags becomes an application, with the operation under two names -/
theorem accepted [LinearOrder Str] (names : Nat → Str) (sep : Str) (strict : Bool) : ∃ f0, ∀ n ≥ f0,
    _root_.Create.create o url (doc true) names order n sep strict =
      some (.ok ([(c!"b" ++ sep ++ c!"list", o.num get2), (c!"a" ++ sep ++ c!"list", o.num get1)], [])) := by
  obtain ⟨f0, res, hf⟩ := C92.refs_end (_root_.Create.refOut o url (root2 true)) [pointer at2, pointer at1, url ++ pointer at1] (by
    intro v hv w hw
    simp only [List.mem_cons, List.not_mem_nil, or_false] at hv
    rcases hv with rfl | rfl | rfl
    · rw [out_two o (.inl rfl)] at hw
      simp only [List.mem_singleton] at hw
      simp [hw]
    · rw [out_one o (.inl rfl)] at hw; cases hw
    · rw [out_one o (.inr rfl)] at hw; cases hw) [pointer at2, pointer at1] (by simp) []
  refine ⟨f0 + 2, fun n hn => ?_⟩
  obtain ⟨k, rfl⟩ : ∃ k, n = k + 2 := ⟨n - 2, by omega⟩
  have v1 : _root_.Create.visited (root2 true) cParameter = [] := by decide +kernel
  have v2 : _root_.Create.visited (root2 true) cResponse = [] := by decide +kernel
  have v3 : (_root_.Create.visited (root2 true) cPathItem).map Prod.fst = [pointer at2, pointer at1] := by decide +kernel
  have v4 : _root_.Create.visited (root2 true) cSchema = [] := by decide +kernel
  have v5 : Index.models o (root2 true) = [] := by rfl
  rw [create_eq]
  unfold _root_.Create.finish
  rw [index_two]
  dsimp only
  rw [_root_.Create.scanClasses, v1, List.map_nil, _root_.Create.scanRefs, _root_.Create.scanClasses, v2, List.map_nil,
    _root_.Create.scanRefs, _root_.Create.scanClasses, v3, hf _ (by omega), _root_.Create.scanClasses, v4, v5]
  rfl

end

end Notes

/-- **C99.** One tag at most is needed. The tags of the merged path item are those of a set, in the order of the set: an operation with two
tags may get another first tag than the one it is written with. The document then becomes an application, in which the operation is found
under either tag. -/
theorem C99_tags_false [LinearOrder Str] (o : Objects.Outside) (names : Nat → Str) (sep : Str) (strict : Bool) :
    ∃ (D T R : Tree) (p : Url) (order : List Atom → List Atom) (k k' m : Str) (q : Dict Str Tree) (l : Spec.Index.Label) (d : Dict Str Nat),
      C98.Reads D p T R ∧ (∀ l, (order l).Perm l) ∧ Lends D (urlunparse p) k k' m q l ∧ d.keys = l.tags.reverse.map (· ++ sep ++ c!"list") ∧
      ∃ f0, ∀ n ≥ f0, _root_.Create.create o (urlunparse p) D names order n sep strict = some (.ok (d, [])) :=
  ⟨_, _, _, at_, Notes.order, _, _, _, _, _, _, Notes.reads true, Notes.order_perm, url_eq ▸ Notes.lends, rfl,
    by rw [url_eq]; exact Notes.accepted o names sep strict⟩

end Props.C99
