import Verif.Model.World
import Verif.Spec.Upload
import Verif.Props.C23
import Verif.Props.C35
import Verif.Props.C72
import Verif.Props.C73
/-!
# C75: files given to an operation arrive in the multipart body

From the dicts given for file parameters to the parts a server reads in the body of the prepared request.
-/

namespace Props.C75
open Py Utils Prim Prim.World Call Spec.Calls Spec.Files Spec.Multipart Props.C23

variable {δ π : Type}

/-- what the stream with number `k` delivers -/
def content (w : Outside) (k : Nat) : Bytes :=
  match w.obj k with
  | .stream (.bytes b) => b
  | .stream (.text s) => utf8 s
  | _ => []

/-- what the file of that name holds -/
def disk (renv : Io.Env (Prim Atom) δ π) (n : Str) : Bytes := (renv.readFile n).toOption.getD []

/-! ## one file -/

theorem texts_map (l : List (Str × Str)) : texts? (l.map fun e => (e.1, Val.str e.2)) = some l := by
  induction l with
  | nil => rfl
  | cons e l ih => simp [texts?, ih]

def after (seen : List Nat) (u : Upload) : List Nat :=
  match u.source with
  | .disk => seen
  | .stream k => k :: seen

theorem parts_cons (c : Nat → Bytes) (d : Str → Bytes) (seen : List Nat) (n : Str) (u : Upload) (l) :
    parts c d seen ((n, u) :: l) = parts c d seen [(n, u)] ++ parts c d (after seen u) l := by
  simp only [parts, after]
  cases u.source <;> rfl

theorem fileOf_described {w : Outside} {renv : Io.Env (Prim Atom) δ π} {seen seen' : List Nat} {d : List (Str × Val)}
    {u : Upload} {f : FileObj} {x : Io.File} (hd : Describes d u) (hf : fileApply (.dict d) = .ok f)
    (hx : fileOf? w seen f = some (x, seen')) (n : Str) :
    [filePartOf renv (n, x)] = parts (content w) (disk renv) seen [(n, u)] ∧ seen' = after seen u := by
  obtain ⟨h1, h2, h3⟩ := hd
  have e1 : (Dict.get? d c!"filename").getD (.str []) = .str u.filename := by
    rcases h1 with h | ⟨h, h'⟩ <;> simp_all
  have e2 : (Dict.get? d c!"header").getD (.dict []) = .dict (u.headers.map fun e => (e.1, .str e.2)) := by
    rcases h2 with h | ⟨h, h'⟩ <;> simp_all
  simp only [fileApply, e1, e2] at hf
  split at hf
  · cases hf
  simp only [Except.ok.injEq] at hf
  subst hf
  simp only [fileOf?] at hx
  cases hs : u.source with
  | disk =>
    rw [hs] at h3
    have e3 : (Dict.get? d c!"data").getD .none = .none := by rcases h3.1 with h | h <;> rw [h] <;> rfl
    rw [e3] at hx
    simp only [content?, texts_map, Option.map_some, Option.some.injEq, Prod.mk.injEq] at hx
    obtain ⟨rfl, rfl⟩ := hx
    simp [filePartOf, headersOf, contentOf, parts, after, hs, disk]
  | stream k =>
    rw [hs] at h3
    have e3 : (Dict.get? d c!"data").getD .none = .other k := by rw [h3]; rfl
    rw [e3] at hx
    cases ho : w.obj k <;> simp only [content?, ho] at hx <;> try cases hx
    rename_i c
    simp only [texts_map, Option.map_some, Option.some.injEq, Prod.mk.injEq] at hx
    obtain ⟨rfl, rfl⟩ := hx
    by_cases hk : k ∈ seen
    · cases c <;> simp [filePartOf, headersOf, contentOf, parts, after, hs, hk, Io.Content.drained, utf8]
    · cases c <;> simp [filePartOf, headersOf, contentOf, parts, after, hs, hk, content, ho]

/-! ## conversion -/

variable {w : Outside} {e : Env Atom} {other : Prim Atom → Str} {fuel : Nat} {k : Dict Str Val}

theorem typed_file {i : Nat} (h : Is (env w e) i c!"file") : Typed (env w e) i (.atom .file) := by
  refine ⟨by rw [h.type]; exact ⟨by simp, by simp⟩, ?_⟩
  rw [h.type, h.format]; rfl

theorem typed_array {i : Nat} (h : Is (env w e) i c!"array") : Typed (env w e) i .array := by
  refine ⟨by rw [h.type]; exact ⟨by simp, by simp⟩, ?_⟩
  rw [h.type, h.format]; rfl

theorem convert_file {i : Nat} (h : Is (env w e) i c!"file") (n : Nat) (v : Val) (read : Bool) (hv : v ≠ .none) :
    convert (env w e) (n + 1) i v read = (fileApply v).map fun f => .atom .file (.file f) := by
  have he : effective (env w e) i v = v := by simp [effective, hv]
  rw [convert_step _ n i i v read h.deref (by rw [he]; exact hv), first_typed _ _ _ _ _ (typed_file h).1 (typed_file h).2, he]
  have hat : (env w e).atom .file i v = (fileApply v).map .file := rfl
  simp only [create, hat]
  cases fileApply v <;> rfl

/-- **C75, conversion.** What is given for a file must be a dict, and name a file or hold a file-like object. -/
theorem C75_accepted {i : Nat} (h : Is (env w e) i c!"file") (n : Nat) (v : Val) (read : Bool) (hv : v ≠ .none) :
    ((∀ d, v ≠ .dict d) → convert (env w e) (n + 1) i v read = .error .AttributeError) ∧
    ∀ d, v = .dict d →
      (((Dict.get? d c!"data" = none ∨ Dict.get? d c!"data" = some .none) ∧
        (Dict.get? d c!"filename" = none ∨ Dict.get? d c!"filename" = some (.str []))) →
          convert (env w e) (n + 1) i v read = .error .ValidationError) ∧
      (¬ ((Dict.get? d c!"data" = none ∨ Dict.get? d c!"data" = some .none) ∧
        (Dict.get? d c!"filename" = none ∨ Dict.get? d c!"filename" = some (.str []))) →
          ∃ f, convert (env w e) (n + 1) i v read = .ok (.atom .file (.file f)) ∧
            f.header = (Dict.get? d c!"header").getD (.dict []) ∧ f.data = (Dict.get? d c!"data").getD .none ∧
            f.filename = (Dict.get? d c!"filename").getD (.str [])) := by
  rw [convert_file h n v read hv]
  refine ⟨fun hd => ?_, fun d hd => ?_⟩
  · cases v <;> first | rfl | exact absurd rfl (hd _)
  · subst hd
    have key : ∀ (o : Option Val) (x : Val), o.getD x = x ↔ o = none ∨ o = some x := by
      intro o x; cases o <;> simp
    simp only [fileApply]
    rw [← key, ← key]
    split
    · next hc => exact ⟨fun _ => rfl, fun h => absurd hc h⟩
    · next hc => exact ⟨fun h => absurd h hc, fun _ => ⟨_, rfl, rfl, rfl, rfl⟩⟩

/-! ## all files -/

theorem files_described {renv : Io.Env (Prim Atom) δ π} {it : Nat} (hit : Is (env w e) it c!"file") (m : Nat) (n : Str)
    {ds : List (List (Str × Val))} {us : List Upload} (hd : List.Forall₂ Describes ds us) :
    ∀ {xs : List (Prim Atom)} {seen seen' : List Nat} {fs : List Io.File},
      List.Forall₂ (fun v x => convert (env w e) m it v true = .ok x) (ds.map .dict) xs →
      filesOf? w seen xs = some (fs, seen') →
      ∀ rest, parts (content w) (disk renv) seen (us.map (fun u => (n, u)) ++ rest) =
        fs.map (fun f => filePartOf renv (n, f)) ++ parts (content w) (disk renv) seen' rest := by
  induction hd with
  | nil =>
    intro xs seen seen' fs hx hf rest
    cases hx
    cases hf
    rfl
  | @cons d u ds us h _ ih =>
    intro xs seen seen' fs hx hf rest
    cases hx with
    | @cons _ x _ xs hx hxs =>
      cases m with
      | zero => cases hx
      | succ m =>
        rw [convert_file hit m _ true (by simp)] at hx
        cases hf' : fileApply (.dict d) with
        | error x => rw [hf'] at hx; cases hx
        | ok f =>
          rw [hf'] at hx
          cases hx
          simp only [filesOf?] at hf
          cases hg : fileOf? w seen f with
          | none => rw [hg] at hf; cases hf
          | some r =>
            obtain ⟨y, s1⟩ := r
            rw [hg] at hf
            simp only [Option.map_eq_some_iff] at hf
            obtain ⟨⟨ys, s2⟩, h1, h2⟩ := hf
            simp only [Prod.mk.injEq] at h2
            obtain ⟨rfl, rfl⟩ := h2
            obtain ⟨e1, rfl⟩ := fileOf_described (renv := renv) h hf' hg n
            rw [List.map_cons, List.cons_append, parts_cons, ← e1, ih hxs h1 rest]
            rfl

/-- the file entries -/
def fileEntries (es : List (Str × Entry Atom)) : Dict Str (FileArg Atom) :=
  es.filterMap fun x => (fileOf x.2).map fun a => (x.1, a)

theorem parts_of_entries {renv : Io.Env (Prim Atom) δ π} {ps : List Decl} {us : List (Str × Upload)}
    (hu : Uploads (env w e) (given (env w e) k) ps us) :
    ∀ {es : List (Str × Entry Atom)} {seen : List Nat} {fs : Dict Str Io.FileVal},
      Entries (env w e) (leaf w other) fuel k ps es → fileArgs? w seen (fileEntries es) = some fs →
      parts (content w) (disk renv) seen us =
        (fs.flatMap fun x => x.2.files.map fun f => (x.1, f)).map (filePartOf renv) := by
  induction hu with
  | nil =>
    intro es seen fs he hf
    cases he
    cases hf
    rfl
  | @absent p ps us hg _ ih =>
    intro es seen fs he hf
    obtain ⟨-, ⟨-, he⟩ | ⟨x, es', -, ⟨v, c, h1, -⟩, -⟩⟩ := he
    · exact ih he hf
    · rw [hg] at h1; cases h1
  | @other p ps us h1 h2 h3 _ ih =>
    intro es seen fs he hf
    obtain ⟨-, ⟨-, he⟩ | ⟨x, es', rfl, ⟨v, c, -, -, hb⟩, he⟩⟩ := he
    · exact ih he hf
    · refine ih he ?_
      have : fileOf x = none := by
        cases hb <;> first | rfl | contradiction | skip
        rename_i hl
        obtain ⟨it, a, b⟩ := hl
        exact absurd b (h2 it a)
      simpa [fileEntries, this] using hf
  | @one p ps us d u h1 h2 h3 h4 _ ih =>
    intro es seen fs he hf
    obtain ⟨-, ⟨h5, -⟩ | ⟨x, es', rfl, ⟨v, c, h5, h6, hb⟩, he⟩⟩ := he
    · rw [h3] at h5; cases h5
    · rw [h3] at h5
      cases h5
      rw [prim, if_neg (by rw [h2]; decide)] at h6
      cases fuel with
      | zero => cases h6
      | succ m =>
        rw [convert_file h1 m _ false (by simp)] at h6
        cases hf' : fileApply (.dict d) with
        | error x => rw [hf'] at h6; cases h6
        | ok f =>
          rw [hf'] at h6
          cases h6
          have hx : x = .file (.prim (.atom .file (.file f))) := by
            have := h1.type
            cases hb <;> first | rfl | contradiction
          subst hx
          have hfe : fileEntries ((p.name, Entry.file (.prim (.atom .file (.file f)))) :: es') =
            (p.name, .prim (.atom .file (.file f))) :: fileEntries es' := rfl
          rw [hfe] at hf
          simp only [fileArgs?, fileVal?] at hf
          cases hg : fileOf? w seen f with
          | none => rw [hg] at hf; cases hf
          | some r =>
            obtain ⟨y, s1⟩ := r
            rw [hg] at hf
            simp only [Option.map_some, Option.map_eq_some_iff] at hf
            obtain ⟨gs, h7, rfl⟩ := hf
            obtain ⟨e1, rfl⟩ := fileOf_described (renv := renv) h4 hf' hg p.name
            rw [parts_cons, ← e1, ih he h7]
            rfl
  | @many p ps us it ds vs h1 ha hq hi h2 h3 h4 h5 _ ih =>
    intro es seen fs he hf
    obtain ⟨-, ⟨h6, -⟩ | ⟨x, es', rfl, ⟨v, c, h6, h7, hb⟩, he⟩⟩ := he
    · rw [h4] at h6; cases h6
    · rw [h4] at h6
      cases h6
      rw [prim, if_neg (by rw [h3]; decide)] at h7
      cases fuel with
      | zero => cases h7
      | succ m =>
        have he' : effective (env w e) p.obj (.list (ds.map .dict)) = .list (ds.map .dict) := by simp [effective]
        obtain ⟨xs, rfl, hxs, -⟩ := ((C35.C35_array (env w e) m p.obj p.obj it _ false (ds.map .dict) (ds.map .dict) h1.deref
          (typed_array h1) ha hi (by rw [he']; rfl) (by simp [hq])).1 c).1 h7
        have hx : x = .file (.prim (.array (C35.formatOf ((env w e).node p.obj)) xs)) := by
          have ht : ((env w e).node p.obj).type ≠ some c!"file" := by rw [h1.type]; decide
          have ht2 := h2.type
          have hin : p.in_ ≠ c!"query" ∧ p.in_ ≠ c!"header" ∧ p.in_ ≠ c!"path" ∧ p.in_ ≠ c!"body" ∧ p.in_ ≠ c!"file" := by
            rw [h3]; decide
          cases hb with
          | files => rfl
          | aFile _ h => exact absurd h ht
          | queryArray _ _ _ _ _ h => exact absurd h hin.1
          | formArray _ _ _ it' _ _ h8 h9 =>
            rw [hi] at h8
            cases h8
            exact absurd ht2 h9
          | query _ _ _ h => exact absurd h hin.1
          | form _ _ _ _ h => exact absurd rfl (h _ _)
          | header _ _ _ h => exact absurd h hin.2.1
          | path _ _ _ h => exact absurd h hin.2.2.1
          | inFile _ _ _ h => exact absurd h hin.2.2.2.2
          | body _ _ h => exact absurd h hin.2.2.2.1
        subst hx
        generalize C35.formatOf ((env w e).node p.obj) = fmt at hf
        have hfe : fileEntries ((p.name, Entry.file (.prim (.array fmt xs))) :: es') =
          (p.name, .prim (.array fmt xs)) :: fileEntries es' := rfl
        rw [hfe] at hf
        simp only [fileArgs?, fileVal?] at hf
        cases hg : filesOf? w seen xs with
        | none => rw [hg] at hf; cases hf
        | some r =>
          obtain ⟨ys, s1⟩ := r
          rw [hg] at hf
          simp only [Option.map_some, Option.map_eq_some_iff] at hf
          obtain ⟨gs, h7, rfl⟩ := hf
          rw [files_described (renv := renv) h2 m p.name h5 hxs hg us, ih he h7]
          simp [Io.FileVal.files, Function.comp_def]

/-! ## the call -/

theorem entries_names {env' : Env Atom} {lf : Prim Atom → Except Exc Str} {fuel : Nat} {k : Dict Str Val} {ps : List Decl} :
    ∀ {es}, Entries env' lf fuel k ps es → List.Sublist (es.map Prod.fst) (ps.map Decl.name) := by
  induction ps with
  | nil => intro es h; cases h; exact List.Sublist.refl _
  | cons p ps ih =>
    intro es h
    obtain ⟨-, ⟨-, h⟩ | ⟨x, es', rfl, -, h⟩⟩ := h
    · exact (ih h).trans (List.sublist_cons_self ..)
    · exact List.Sublist.cons₂ _ (ih h)

theorem file_addAll : ∀ (es : List (Str × Entry Atom)) (s : Sent Atom), (es.map Prod.fst).Nodup →
    (∀ n ∈ es.map Prod.fst, n ∉ s.file.map Prod.fst) → (addAll s es).file = s.file ++ fileEntries es := by
  intro es
  induction es with
  | nil => intro s _ _; simp [addAll, fileEntries]
  | cons x es ih =>
    intro s hn hs
    obtain ⟨n, x⟩ := x
    have hn' := List.nodup_cons.1 hn
    have hstep : (add n s x).file = s.file ++ fileEntries [(n, x)] := by
      cases x <;> simp only [add, fileEntries, fileOf, List.filterMap_cons, Option.map_none, List.filterMap_nil,
        List.append_nil, Option.map_some]
      exact Dict.set_of_not_mem _ (hs n (by simp))
    show (addAll (add n s x) es).file = _
    rw [ih _ hn'.2 ?_, hstep]
    · simp only [fileEntries, List.filterMap_cons, List.filterMap_nil]
      cases fileOf x <;> simp
    · intro m hm hm2
      rw [hstep, List.map_append, List.mem_append] at hm2
      rcases hm2 with hm2 | hm2
      · exact hs m (by simp [hm]) hm2
      · have : m = n := by
          simp only [fileEntries, List.filterMap_cons, List.filterMap_nil] at hm2
          cases hx : fileOf x <;> simp [hx] at hm2
          exact hm2
        subst this
        exact hn'.1 hm

theorem ask_ok {ps : List Decl} {op : Io.Op δ} {r : Io.Req (Prim Atom) π}
    (h : World.ask w e other fuel ps op k = .ok (some r)) :
    ∃ s fs, call (env w e) (leaf w other) fuel ps k = .ok s ∧ fileArgs? w [] s.file = some fs ∧
      r = Io.init op ⟨s.header, s.query, s.path, s.body, s.formData, fs⟩ := by
  unfold World.ask at h
  cases hc : call (env w e) (leaf w other) fuel ps k with
  | error x => rw [hc] at h; cases h
  | ok s =>
    rw [hc] at h
    simp only [Except.ok.injEq, Option.map_eq_some_iff] at h
    obtain ⟨fs, h1, rfl⟩ := h
    exact ⟨s, fs, rfl, h1, rfl⟩

theorem call_entries {env' : Env Atom} {lf : Prim Atom → Except Exc Str} {ps : List Decl} {s : Sent Atom}
    (hs : call env' lf fuel ps k = .ok s) : ∃ es, Entries env' lf fuel k ps es ∧ s = addAll {} es := by
  obtain ⟨h1, -, h3⟩ := (C31.C31_succeeds env' lf fuel ps k).1 ⟨s, hs⟩
  obtain ⟨es, e1, e2⟩ := (convertAll_spec env' lf fuel k ps ({}, [])).1 fun p hp => ⟨h1 p hp, h3 p hp⟩
  unfold call at hs
  rw [e2] at hs
  simp only at hs
  split at hs
  · cases hs
  · cases hs
    exact ⟨es, e1, rfl⟩

/-- **C75.** A request with files is sent as multipart body. A server reads in it one part for each form text and
then one part for each file given, in the order of the parameters: with the name of the parameter, the file name, the
two headers that are sent, and the content of the file-like object or else of the file of that name. -/
theorem C75_upload {ps : List Decl} {op : Io.Op δ} {r r' : Io.Req (Prim Atom) π} {renv : Io.Env (Prim Atom) δ π}
    {sch : Io.SchemeArg} (ha : World.ask w e other fuel ps op k = .ok (some r)) (hn : (ps.map Decl.name).Nodup)
    (hp : Io.prepare renv op sch true r = .ok r') {us : List (Str × Upload)}
    (hu : Uploads (env w e) (given (env w e) k) ps us) (hne : us ≠ [])
    (henc : ∀ s, renv.encode s = .ok (utf8 s)) (hb : HexText renv.boundary)
    (hfields : ∀ kv ∈ r.p.formData, Quotable kv.1 ∧ ¬ utf8 renv.boundary <:+: utf8 kv.2)
    (hfiles : ∀ nf ∈ filesOf r.p, GoodFile renv renv.boundary nf) :
    ∃ ct body, r'.data = .bytes body ∧
      Spec.Multipart.read ct body = some (r.p.formData.map (fun kv => ⟨kv.1, none, [], utf8 kv.2⟩) ++
        parts (content w) (disk renv) [] us) ∧
      ∀ n, renv.lower n = renv.lower c!"Content-Type" → renv.lower n ≠ renv.lower c!"Accept" →
        CIDict.getitem renv.lower r'.header n = .ok ct := by
  obtain ⟨s, fs, hs, hfs, rfl⟩ := ask_ok ha
  obtain ⟨es, he, rfl⟩ := call_entries hs
  have hfile : (addAll ({} : Sent Atom) es).file = fileEntries es := by
    have := file_addAll es {} ((entries_names he).nodup hn) (by simp)
    simpa using this
  rw [hfile] at hfs
  have hparts := parts_of_entries (renv := renv) hu he hfs
  obtain ⟨ct, d, fs', hd, rfl, -, hk⟩ := C63.C63_headers renv op sch true _ _ rfl hp
  have hfne : fs ≠ [] := by
    rintro rfl
    have h0 : parts (content w) (disk renv) [] us = [] := by rw [hparts]; rfl
    cases us with
    | nil => exact hne rfl
    | cons x us =>
      obtain ⟨n, u⟩ := x
      simp only [parts] at h0
      split at h0 <;> cases h0
  unfold Io.prepareData at hd
  rw [if_pos (by exact hfne), if_pos rfl] at hd
  split at hd
  · cases hd
  · rename_i ct' b hpf
    simp only [Except.ok.injEq, Prod.mk.injEq] at hd
    obtain ⟨rfl, hdat, -⟩ := hd
    have hread := C23_roundtrip renv op _ ct' b henc hb hfields hfiles hpf
    have hct : ct' = c!"multipart/form-data; boundary=" ++ renv.boundary := by
      unfold Io.prepareFiles at hpf
      split at hpf
      · cases hpf
      obtain ⟨_, _, hpf⟩ := Io.bind_ok.1 hpf
      obtain ⟨_, _, hpf⟩ := Io.bind_ok.1 hpf
      simp only [pure, Except.pure, Except.ok.injEq, Prod.mk.injEq] at hpf
      rw [← hpf.1]
      rfl
    refine ⟨ct', b, hdat.symm, ?_, fun n h1 h2 => ?_⟩
    · rw [hread, hparts]
      rfl
    · rw [hk n, if_neg (fun h => h2 h.1), if_pos ⟨h1, by simp, by rw [hct]; simp⟩]
      rfl

/-! ## requests are made -/

/-- the streams of the files exist -/
def Readable (w : Outside) (us : List Upload) : Prop :=
  ∀ u ∈ us, ∀ k, u.source = .stream k → ∃ c, w.obj k = .stream c

theorem fileOf_exists {seen : List Nat} {d : List (Str × Val)} {u : Upload} (hd : Describes d u)
    (hr : Readable w [u]) : ∃ f x, fileApply (.dict d) = .ok f ∧ fileOf? w seen f = some (x, after seen u) := by
  obtain ⟨h1, h2, h3⟩ := hd
  have e1 : (Dict.get? d c!"filename").getD (.str []) = .str u.filename := by
    rcases h1 with h | ⟨h, h'⟩ <;> simp_all
  have e2 : (Dict.get? d c!"header").getD (.dict []) = .dict (u.headers.map fun e => (e.1, .str e.2)) := by
    rcases h2 with h | ⟨h, h'⟩ <;> simp_all
  cases hs : u.source with
  | disk =>
    rw [hs] at h3
    have e3 : (Dict.get? d c!"data").getD .none = .none := by rcases h3.1 with h | h <;> rw [h] <;> rfl
    refine ⟨⟨.dict (u.headers.map fun e => (e.1, .str e.2)), .none, .str u.filename⟩,
      ⟨u.headers, u.filename, none⟩, ?_, ?_⟩
    · simp [fileApply, e1, e2, e3, h3.2]
    · simp [fileOf?, content?, texts_map, after, hs]
  | stream k =>
    rw [hs] at h3
    have e3 : (Dict.get? d c!"data").getD .none = .other k := by rw [h3]; rfl
    obtain ⟨c, hc⟩ := hr u (by simp) k hs
    refine ⟨⟨.dict (u.headers.map fun e => (e.1, .str e.2)), .other k, .str u.filename⟩,
      ⟨u.headers, u.filename, some (if k ∈ seen then c.drained else c)⟩, ?_, ?_⟩
    · simp [fileApply, e1, e2, e3]
    · simp [fileOf?, content?, texts_map, after, hs, hc]

theorem filesOf_exists {it : Nat} (hit : Is (env w e) it c!"file") (m : Nat)
    {ds : List (List (Str × Val))} {us : List Upload} (hd : List.Forall₂ Describes ds us) :
    ∀ {xs : List (Prim Atom)} {seen : List Nat}, Readable w us →
      List.Forall₂ (fun v x => convert (env w e) m it v true = .ok x) (ds.map .dict) xs →
      ∃ r, filesOf? w seen xs = some r := by
  induction hd with
  | nil =>
    intro xs seen _ hx
    cases hx
    exact ⟨_, rfl⟩
  | @cons d u ds us h _ ih =>
    intro xs seen hr hx
    cases hx with
    | @cons _ x _ xs hx hxs =>
      cases m with
      | zero => cases hx
      | succ m =>
        rw [convert_file hit m _ true (by simp)] at hx
        obtain ⟨f, y, h1, h2⟩ := fileOf_exists (seen := seen) h fun u' hu' k hk => hr u' (by simp_all) k hk
        rw [h1] at hx
        cases hx
        obtain ⟨r, h3⟩ := ih (seen := after seen u) (fun u' hu' k hk => hr u' (by simp [hu']) k hk) hxs
        exact ⟨(y :: r.1, r.2), by simp [filesOf?, h2, h3]⟩

theorem fileArgs_exists {ps : List Decl} {us : List (Str × Upload)}
    (hu : Uploads (env w e) (given (env w e) k) ps us) :
    ∀ {es : List (Str × Entry Atom)} {seen : List Nat}, Readable w (us.map Prod.snd) →
      Entries (env w e) (leaf w other) fuel k ps es → ∃ fs, fileArgs? w seen (fileEntries es) = some fs := by
  induction hu with
  | nil =>
    intro es seen _ he
    cases he
    exact ⟨_, rfl⟩
  | @absent p ps us hg _ ih =>
    intro es seen hr he
    obtain ⟨-, ⟨-, he⟩ | ⟨x, es', -, ⟨v, c, h1, -⟩, -⟩⟩ := he
    · exact ih hr he
    · rw [hg] at h1; cases h1
  | @other p ps us h1 h2 h3 _ ih =>
    intro es seen hr he
    obtain ⟨-, ⟨-, he⟩ | ⟨x, es', rfl, ⟨v, c, -, -, hb⟩, he⟩⟩ := he
    · exact ih hr he
    · have : fileOf x = none := by
        cases hb <;> first | rfl | contradiction | skip
        rename_i hl
        obtain ⟨it, a, b⟩ := hl
        exact absurd b (h2 it a)
      simpa [fileEntries, this] using ih (seen := seen) hr he
  | @one p ps us d u h1 h2 h3 h4 _ ih =>
    intro es seen hr he
    obtain ⟨-, ⟨h5, -⟩ | ⟨x, es', rfl, ⟨v, c, h5, h6, hb⟩, he⟩⟩ := he
    · rw [h3] at h5; cases h5
    · rw [h3] at h5
      cases h5
      rw [prim, if_neg (by rw [h2]; decide)] at h6
      cases fuel with
      | zero => cases h6
      | succ m =>
        rw [convert_file h1 m _ false (by simp)] at h6
        obtain ⟨f, y, hf, hy⟩ := fileOf_exists (seen := seen) h4 fun u' hu' k hk => hr u' (by simp_all) k hk
        rw [hf] at h6
        cases h6
        have hx : x = .file (.prim (.atom .file (.file f))) := by
          have := h1.type
          cases hb <;> first | rfl | contradiction
        subst hx
        have hfe : fileEntries ((p.name, Entry.file (.prim (.atom .file (.file f)))) :: es') =
          (p.name, .prim (.atom .file (.file f))) :: fileEntries es' := rfl
        obtain ⟨gs, hgs⟩ := ih (seen := after seen u) (fun u' hu' k hk => hr u' (by
          simp only [List.map_cons, List.mem_cons]; exact .inr hu') k hk) he
        exact ⟨_, by rw [hfe]; simp [fileArgs?, fileVal?, hy, hgs]; rfl⟩
  | @many p ps us it ds vs h1 ha hq hi h2 h3 h4 h5 _ ih =>
    intro es seen hr he
    obtain ⟨-, ⟨h6, -⟩ | ⟨x, es', rfl, ⟨v, c, h6, h7, hb⟩, he⟩⟩ := he
    · rw [h4] at h6; cases h6
    · rw [h4] at h6
      cases h6
      rw [prim, if_neg (by rw [h3]; decide)] at h7
      cases fuel with
      | zero => cases h7
      | succ m =>
        have he' : effective (env w e) p.obj (.list (ds.map .dict)) = .list (ds.map .dict) := by simp [effective]
        obtain ⟨xs, rfl, hxs, -⟩ := ((C35.C35_array (env w e) m p.obj p.obj it _ false (ds.map .dict) (ds.map .dict) h1.deref
          (typed_array h1) ha hi (by rw [he']; rfl) (by simp [hq])).1 c).1 h7
        have hx : x = .file (.prim (.array (C35.formatOf ((env w e).node p.obj)) xs)) := by
          have ht : ((env w e).node p.obj).type ≠ some c!"file" := by rw [h1.type]; decide
          have ht2 := h2.type
          have hin : p.in_ ≠ c!"query" ∧ p.in_ ≠ c!"header" ∧ p.in_ ≠ c!"path" ∧ p.in_ ≠ c!"body" ∧ p.in_ ≠ c!"file" := by
            rw [h3]; decide
          cases hb with
          | files => rfl
          | aFile _ h => exact absurd h ht
          | queryArray _ _ _ _ _ h => exact absurd h hin.1
          | formArray _ _ _ it' _ _ h8 h9 =>
            rw [hi] at h8
            cases h8
            exact absurd ht2 h9
          | query _ _ _ h => exact absurd h hin.1
          | form _ _ _ _ h => exact absurd rfl (h _ _)
          | header _ _ _ h => exact absurd h hin.2.1
          | path _ _ _ h => exact absurd h hin.2.2.1
          | inFile _ _ _ h => exact absurd h hin.2.2.2.2
          | body _ _ h => exact absurd h hin.2.2.2.1
        subst hx
        generalize C35.formatOf ((env w e).node p.obj) = fmt
        have hfe : fileEntries ((p.name, Entry.file (.prim (.array fmt xs))) :: es') =
          (p.name, .prim (.array fmt xs)) :: fileEntries es' := rfl
        obtain ⟨⟨ys, s1⟩, hg⟩ := filesOf_exists (w := w) (seen := seen) h2 m h5 (fun u' hu' k hk => hr u' (by
          simp only [List.map_append, List.map_map, List.mem_append]
          exact .inl (by simpa [Function.comp_def] using hu')) k hk) hxs
        obtain ⟨gs, hgs⟩ := ih (seen := s1) (fun u' hu' k hk => hr u' (by
          simp only [List.map_append, List.mem_append]; exact .inr hu') k hk) he
        exact ⟨_, by rw [hfe]; simp [fileArgs?, fileVal?, hg, hgs]; rfl⟩

/-- **C75, the request.** When the arguments are accepted and the files given are described as they should be, there
is a request; what is no file is in it as in any other request (C32). -/
theorem C75_request {ps : List Decl} {op : Io.Op δ} {s : Sent Atom} (hn : (ps.map Decl.name).Nodup)
    (hs : call (env w e) (leaf w other) fuel ps k = .ok s) {us : List (Str × Upload)}
    (hu : Uploads (env w e) (given (env w e) k) ps us) (hr : Readable w (us.map Prod.snd)) :
    ∃ r : Io.Req (Prim Atom) π, World.ask w e other fuel ps op k = .ok (some r) ∧ r.p.header = s.header ∧
      r.p.query = s.query ∧ r.p.path = s.path ∧ r.p.body = s.body ∧ r.p.formData = s.formData := by
  obtain ⟨es, he, rfl⟩ := call_entries hs
  have hfile : (addAll ({} : Sent Atom) es).file = fileEntries es := by
    have := file_addAll es {} ((entries_names he).nodup hn) (by simp)
    simpa using this
  obtain ⟨fs, hfs⟩ := fileArgs_exists (seen := []) hu hr he
  generalize addAll ({} : Sent Atom) es = s at hs hfile
  refine ⟨Io.init op ⟨s.header, s.query, s.path, s.body, s.formData, fs⟩, ?_, rfl, rfl, rfl, rfl, rfl⟩
  unfold World.ask
  rw [hs]
  simp only
  rw [hfile, hfs]
  rfl

/-! ## one of several -/

theorem parts_append (c : Nat → Bytes) (d : Str → Bytes) (seen : List Nat) (a b : List (Str × Upload)) :
    parts c d seen (a ++ b) = parts c d seen a ++ parts c d (a.foldl (fun s x => after s x.2) seen) b := by
  induction a generalizing seen with
  | nil => rfl
  | cons x a ih =>
    obtain ⟨n, u⟩ := x
    rw [List.cons_append, parts_cons, parts_cons _ _ _ _ _ a, ih, List.append_assoc]
    rfl

theorem mem_after {a : List (Str × Upload)} {seen : List Nat} {i : Nat}
    (h : i ∈ a.foldl (fun s x => after s x.2) seen) : i ∈ seen ∨ ∃ x ∈ a, x.2.source = .stream i := by
  induction a generalizing seen with
  | nil => exact .inl h
  | cons x a ih =>
    rcases ih h with h | ⟨y, hy, hs⟩
    · simp only [after] at h
      split at h
      · exact .inl h
      · rename_i k hk
        rcases List.mem_cons.1 h with rfl | h
        · exact .inr ⟨x, by simp, hk⟩
        · exact .inl h
    · exact .inr ⟨y, by simp [hy], hs⟩

/-- **C75, the content.** Of the parts C75_upload tells of, the one of a file with a stream that is given for no file
before it has the content of that stream. -/
theorem C75_content (c : Nat → Bytes) (d : Str → Bytes) (a b : List (Str × Upload)) (n : Str) (u : Upload) (i : Nat)
    (hi : u.source = .stream i) (hfirst : ∀ x ∈ a, x.2.source ≠ .stream i) :
    ∃ part, (parts c d [] (a ++ (n, u) :: b))[a.length]? = some part ∧ part.name = n ∧ part.filename = some u.filename ∧
      part.content = c i := by
  have hlen : ∀ (seen) (a : List (Str × Upload)), (parts c d seen a).length = a.length := by
    intro seen a
    induction a generalizing seen with
    | nil => rfl
    | cons x a ih => obtain ⟨m, v⟩ := x; simp only [parts]; split <;> simp [ih]
  have hnot : i ∉ a.foldl (fun s x => after s x.2) [] := by
    intro h
    rcases mem_after h with h | ⟨x, hx, hs⟩
    · cases h
    · exact hfirst x hx hs
  rw [parts_append, List.getElem?_append_right (by rw [hlen]), hlen, Nat.sub_self]
  simp only [parts, hi]
  exact ⟨_, rfl, rfl, rfl, by simp [hnot]⟩

/-- **C75, refuted for streams given twice.** A file-like object that has been given for an earlier file arrives
empty: it is read to its end for the first. -/
theorem C75_twice_false (c : Nat → Bytes) (d : Str → Bytes) (a b : List (Str × Upload)) (n : Str) (u : Upload) (i : Nat)
    (hi : u.source = .stream i) (hbefore : ∃ x ∈ a, x.2.source = .stream i) :
    ∃ part, (parts c d [] (a ++ (n, u) :: b))[a.length]? = some part ∧ part.name = n ∧ part.content = [] := by
  have hlen : ∀ (seen) (a : List (Str × Upload)), (parts c d seen a).length = a.length := by
    intro seen a
    induction a generalizing seen with
    | nil => rfl
    | cons x a ih => obtain ⟨m, v⟩ := x; simp only [parts]; split <;> simp [ih]
  have hin : ∀ (a : List (Str × Upload)) (seen : List Nat), (i ∈ seen ∨ ∃ x ∈ a, x.2.source = .stream i) →
      i ∈ a.foldl (fun s x => after s x.2) seen := by
    intro a
    induction a with
    | nil => intro seen h; rcases h with h | ⟨x, hx, -⟩; exact h; cases hx
    | cons x a ih =>
      intro seen h
      refine ih _ ?_
      rcases h with h | ⟨y, hy, hs⟩
      · left; simp only [after]; split <;> simp [h]
      · rcases List.mem_cons.1 hy with rfl | hy
        · left; simp [after, hs]
        · exact .inr ⟨y, hy, hs⟩
  rw [parts_append, List.getElem?_append_right (by rw [hlen]), hlen, Nat.sub_self]
  simp only [parts, hi]
  exact ⟨_, rfl, rfl, by simp [hin a [] (.inr hbefore)]⟩

/-! ## a concrete case -/

def theObjs : Nat → Node
  | 0 => { type := some c!"file" }
  | 1 => { type := some c!"array", items := some 0 }
  | _ => { type := some c!"string" }

def theWorld : Outside := { C73.outside with obj := fun k => if k = 7 then .stream (.bytes [1, 2]) else .stream (.text c!"é") }

def theBase : Env Atom := { C73.base with node := theObjs }

def theParams : List Decl :=
  [⟨c!"note", c!"formData", false, 2, none⟩, ⟨c!"photo", c!"formData", true, 0, none⟩, ⟨c!"more", c!"formData", false, 1, none⟩]

def theArgs : Dict Str Val :=
  [(c!"photo", .dict [(c!"filename", .str c!"a.png"), (c!"header", .dict [(c!"Content-Type", .str c!"image/png")]), (c!"data", .other 7)]),
   (c!"note", .str c!"hi"),
   (c!"more", .list [.dict [(c!"data", .other 8)], .dict [(c!"filename", .str c!"b.txt")]])]

def theUploads : List (Str × Upload) :=
  [(c!"photo", ⟨c!"a.png", [(c!"Content-Type", c!"image/png")], .stream 7⟩),
   (c!"more", ⟨[], [], .stream 8⟩), (c!"more", ⟨c!"b.txt", [], .disk⟩)]

def theEnv : Io.Env (Prim Atom) Unit Unit where
  marshal := fun _ _ _ => .ok ()
  lower := fun s => s.map Char.toLower
  fmtExt := fun _ _ => .error .ValueError
  encode := fun s => .ok (utf8 s)
  readFile := fun n => if n = c!"b.txt" then .ok [3] else .error .ValueError
  boundary := c!"b0"

def theOp : Io.Op Unit := ⟨c!"//h/a", c!"/a", c!"post", [], [], [c!"http"], none, []⟩

/-- what a server reads in the body -/
def theParts : Option (List Part) :=
  match World.ask (π := Unit) theWorld theBase (fun _ => []) 3 theParams theOp theArgs with
  | .ok (some r) => match Io.prepare theEnv theOp (.str c!"http") true r with
    | .ok r => match r.data, CIDict.getitem theEnv.lower r.header c!"content-type" with
      | .bytes b, .ok ct => Spec.Multipart.read ct b
      | _, _ => none
    | _ => none
  | _ => none

example : theParts = some [⟨c!"note", none, [], utf8 c!"hi"⟩,
    ⟨c!"photo", some c!"a.png", [(c!"Content-Type", c!"image/png")], [1, 2]⟩,
    ⟨c!"more", some [], [], utf8 c!"é"⟩, ⟨c!"more", some c!"b.txt", [], [3]⟩] := by decide +kernel

example : Uploads (env theWorld theBase) (given (env theWorld theBase) theArgs) theParams theUploads := by
  refine .other (by decide) (by decide) (by decide) ?_
  refine .one ⟨rfl, rfl, rfl⟩ rfl rfl ⟨.inl rfl, .inl rfl, rfl⟩ ?_
  refine .many (vs := [⟨[], [], .stream 8⟩, ⟨c!"b.txt", [], .disk⟩]) (ds := [[(c!"data", .other 8)], [(c!"filename", .str c!"b.txt")]])
    ⟨rfl, rfl, rfl⟩ rfl rfl rfl ⟨rfl, rfl, rfl⟩ rfl rfl ?_ .nil
  exact .cons ⟨.inr ⟨rfl, rfl⟩, .inr ⟨rfl, rfl⟩, rfl⟩
    (.cons ⟨.inl rfl, .inr ⟨rfl, rfl⟩, ⟨.inl rfl, by decide⟩⟩ .nil)

example : Readable theWorld (theUploads.map Prod.snd) := by
  intro u _ k _
  show ∃ c, (if k = 7 then Obj.stream (.bytes [1, 2]) else Obj.stream (.text c!"é")) = .stream c
  split <;> exact ⟨_, rfl⟩

end Props.C75
