import Verif.Model.Clients
import Verif.Props.C22
import Verif.Props.C63
import Mathlib.Data.List.Forall2
/-!
# C64: every bundled client hands the whole prepared request to its library

`Core.send` prepares what is to be sent (C63, C20, C21); here: nothing of it is lost or changed on
the way into the library.
-/

namespace Props.C64
open Py Utils Io Core Clients Spec

variable {β δ π η h σ τ ρ υ D Q : Type}

/-- the bundled clients: supported schemes `http` and `https` -/
def bundled (handleFiles asDict : Bool) (security : Option (Dict Str Cred)) : Client :=
  ⟨[c!"http", c!"https"], handleFiles, asDict, security⟩

theorem exchange_sent {w : World β δ π η h σ τ ρ υ D} {c : Client} {opt hs} {req : Req β π}
    {resp : Resp η ρ D} {build : Sent π → Req β π → Except Exc Q} {server calls} {q : Q}
    (hq : (exchange w c opt hs req resp build server calls).sent = some q) :
    ∃ res, send w.env w.op c opt hs req = .ok res ∧ build res.sent res.req = .ok q := by
  unfold exchange at hq
  simp only at hq
  split at hq
  · cases hq
  · rename_i r hr
    split at hq
    · cases hq
    · rename_i q' hb
      have hq' : q' = q := by
        split at hq <;> simpa using hq
      subst hq'
      exact ⟨r, hr, hb⟩

/-- a client that leaves the files to its library sends the files given -/
theorem kept {env : Env β δ π} {op : Op δ} {c : Client} {opt hs} {req : Req β π} {res}
    (h1 : send env op c opt hs req = .ok res) (hc : c.handleFiles = false) :
    res.sent.files = req.p.file ∧ res.req.p.body = req.p.body ∧
      res.req.p.formData = req.p.formData := by
  obtain ⟨l, r2, hh, hl, h2, h3, rfl⟩ := C20.send_ok.1 h1
  have hfr := C63.C63_frame _ _ _ _ _ _ h2
  have hpa : (authorise c.security op (reset op req)).p.file = req.p.file ∧
      (authorise c.security op (reset op req)).p.body = req.p.body ∧
      (authorise c.security op (reset op req)).p.formData = req.p.formData := by
    unfold authorise; cases c.security <;> exact ⟨rfl, rfl, rfl⟩
  obtain ⟨s, path, url, ct, data, files, acc, _, _, _, hd, _, rfl⟩ := Io.prepare_ok.1 h2
  refine ⟨?_, hfr.2.2.2.1.trans hpa.2.1, hfr.2.2.2.2.1.trans hpa.2.2⟩
  have hf := C20.files_after hd
  rw [hpa.1, hc] at hf
  simpa using hf

/-- An upload stands for a file: name, file name, declared type, and its stream, or the content of
the file of that name if there is no stream. -/
def Stands (env : Env β δ π) (nf : Str × File) (u : Upload) : Prop :=
  u.name = nf.1 ∧ u.filename = nf.2.filename ∧
    u.contentType = Dict.get? nf.2.header c!"Content-Type" ∧
    (nf.2.data = some u.content ∨
      nf.2.data = none ∧ ∃ b, env.readFile nf.2.filename = .ok b ∧ u.content = .bytes b)

/-- the files of the file parameters, in order -/
def allFiles (d : Dict Str FileVal) : List (Str × File) :=
  (d.map (fun e => match e.2 with
    | .one f => [(e.1, f)]
    | .many l => l.map (fun f => (e.1, f)))).flatten

theorem fileList_eq (d : Dict Str FileVal) : fileList d = allFiles d := by
  unfold fileList allFiles
  rw [List.flatMap_def]
  congr 1
  apply List.map_congr_left
  rintro ⟨k, v⟩ _
  cases v <;> rfl

theorem uploads_spec (env : Env β δ π) : ∀ (l : List (Str × File)) (us : List Upload),
    uploads env l = .ok us → List.Forall₂ (Stands env) l us
  | [], us, hh => by cases hh; exact .nil
  | nf :: l, us, hh => by
    unfold uploads at hh
    cases hu : upload env nf.1 nf.2 with
    | error e => simp [hu, bind, Except.bind] at hh
    | ok u =>
      cases hl : uploads env l with
      | error e => simp [hu, hl, bind, Except.bind] at hh
      | ok us' =>
        simp only [hu, hl, bind, Except.bind, pure, Except.pure, Except.ok.injEq] at hh
        subst hh
        refine .cons ?_ (uploads_spec env l us' hl)
        unfold upload at hu
        simp only at hu
        split at hu
        · rename_i c hc
          cases hu
          exact ⟨rfl, rfl, rfl, Or.inl hc⟩
        · rename_i hc
          split at hu
          · rename_i b hb
            cases hu
            exact ⟨rfl, rfl, rfl, Or.inr ⟨hc, b, hb, rfl⟩⟩
          · cases hu

/-- **C64** (requests). Method in capitals, URL, query, headers and data as prepared; one upload
for every file, in order. -/
theorem C64_requests (w : World β δ π η h σ τ ρ υ D) (security) (opt) (hs) (req : Req β π)
    (resp : Resp η ρ D) (server : RequestsReq π → Except Exc (Reply ρ)) (q)
    (hq : (requestsRequest w security opt hs req resp server).sent = some q) :
    ∃ res, send w.env w.op (bundled false true security) opt hs req = .ok res ∧
      q.method = w.upper w.op.method ∧ q.url = res.sent.url ∧ q.params = res.sent.query ∧
      q.headers = res.sent.headers ∧ q.data = res.sent.data ∧
      List.Forall₂ (Stands w.env) (allFiles req.p.file) q.files := by
  obtain ⟨res, h1, h2⟩ := exchange_sent hq
  refine ⟨res, h1, ?_⟩
  have hm := (C63.C63_sent w.env w.op _ opt hs req res h1).1
  unfold requestsBuild at h2
  split at h2
  · cases h2
  · rename_i fs hfs
    cases h2
    rw [fileList_eq, (kept h1 rfl).1] at hfs
    exact ⟨by rw [← hm], rfl, rfl, rfl, rfl, uploads_spec _ _ _ hfs⟩

/-- **C64** (tornado). Everything as prepared, the method in capitals. -/
theorem C64_tornado (w : World β δ π η h σ τ ρ υ D) (security) (opt) (hs) (req : Req β π)
    (resp : Resp η ρ D) (server : TornadoReq π → Except Exc (Reply ρ)) (q)
    (hq : (tornadoRequest w security opt hs req resp server).sent = some q) :
    ∃ res, send w.env w.op (bundled true false security) opt hs req = .ok res ∧
      q.method = w.upper w.op.method ∧ q.url = res.sent.url ∧ q.query = res.sent.query ∧
      q.headers = res.sent.headers ∧ q.body = res.sent.data := by
  obtain ⟨res, h1, h2⟩ := exchange_sent hq
  refine ⟨res, h1, ?_⟩
  have hm := (C63.C63_sent w.env w.op _ opt hs req res h1).1
  unfold tornadoBuild at h2
  cases h2
  exact ⟨by rw [← hm], rfl, rfl, rfl, rfl⟩

/-! ## flask -/

/-- the value of the last field of that name -/
def lastField (l : List (Str × Str)) (k : Str) : Option Str :=
  (l.reverse.find? (fun e => e.1 = k)).map Prod.snd

/-- the field standing for a file parameter -/
def fileField : FileVal → FlaskField
  | .one f => .file f.filename f.data
  | .many l => .files (l.map (fun f => (f.filename, f.data)))

theorem get?_foldl_set {α ν : Type} (f : α → ν) (l : List (Str × α)) (d : Dict Str ν) (k : Str) :
    Dict.get? (l.foldl (fun d e => Dict.set d e.1 (f e.2)) d) k =
      match (l.reverse.find? (fun e => e.1 = k)) with
      | some e => some (f e.2)
      | none => Dict.get? d k := by
  induction l generalizing d with
  | nil => rfl
  | cons a l ih =>
    rw [List.foldl_cons, ih, List.reverse_cons, List.find?_append]
    cases hf : l.reverse.find? (fun e => e.1 = k) with
    | some e => rfl
    | none =>
      simp only [Option.none_or]
      by_cases ha : a.1 = k
      · subst ha
        simp [Dict.get?_set_self]
      · have : k ≠ a.1 := fun h => ha h.symm
        simp [ha, Dict.get?_set_ne _ _ this]

theorem find_wf {ν : Type} {d : Dict Str ν} (hd : Dict.WF d) (k : Str) :
    (d.reverse.find? (fun e => e.1 = k)).map Prod.snd = Dict.get? d k := by
  cases hf : d.reverse.find? (fun e => e.1 = k) with
  | none =>
    have : k ∉ d.keys := by
      intro hk
      obtain ⟨e, he, rfl⟩ := List.mem_map.1 hk
      have := List.find?_eq_none.1 hf e (List.mem_reverse.2 he)
      simp at this
    rw [(Dict.get?_eq_none_iff d k).2 this]; rfl
  | some e =>
    have h1 := List.mem_reverse.1 (List.mem_of_find?_eq_some hf)
    have h2 := List.find?_some hf
    simp only [decide_eq_true_eq] at h2
    subst h2
    exact (Dict.get?_of_mem hd h1).symm

/-- **C64** (flask). Method in capitals, URL, query and headers as prepared. Without files the data
is the payload if there is a body, else the form fields; with files it is a dict holding every
file, and for every other name the last form field of that name. -/
theorem C64_flask (w : World β δ π η h σ τ ρ υ D) (security) (opt) (hs) (req : Req β π)
    (resp : Resp η ρ D) (server : FlaskReq π → Except Exc (Reply ρ)) (q)
    (hq : (flaskRequest w security opt hs req resp server).sent = some q)
    (hwf : Dict.WF req.p.file) :
    ∃ res, send w.env w.op (bundled false false security) opt hs req = .ok res ∧
      q.method = w.upper w.op.method ∧ q.path = res.sent.url ∧ q.query = res.sent.query ∧
      q.headers = res.sent.headers ∧
      (req.p.file = [] → req.p.body ≠ [] → q.data = .data res.sent.data) ∧
      (req.p.file = [] → req.p.body = [] → q.data = .form req.p.formData) ∧
      (req.p.file ≠ [] → ∃ d, q.data = .dict d ∧ ∀ k, Dict.get? d k =
        match Dict.get? req.p.file k with
        | some f => some (fileField f)
        | none => (lastField req.p.formData k).map .text) := by
  obtain ⟨res, h1, h2⟩ := exchange_sent hq
  refine ⟨res, h1, ?_⟩
  have hm := (C63.C63_sent w.env w.op _ opt hs req res h1).1
  have hp : res.sent.files = req.p.file ∧ res.req.p.body = req.p.body ∧
      res.req.p.formData = req.p.formData := by
    exact kept h1 rfl
  obtain ⟨p1, p2, p3⟩ := hp
  unfold flaskBuild at h2
  rw [p1, p2, p3] at h2
  cases h2
  refine ⟨by rw [← hm], rfl, rfl, rfl, ?_, ?_, ?_⟩
  · intro hf hb
    show (if req.p.file ≠ [] then _ else if req.p.body ≠ [] then _ else _ : FlaskData π) = _
    rw [if_neg (fun h => h hf), if_pos hb]
  · intro hf hb
    show (if req.p.file ≠ [] then _ else if req.p.body ≠ [] then _ else _ : FlaskData π) = _
    rw [if_neg (fun h => h hf), if_neg (fun h => h hb)]
  · intro hf
    refine ⟨_, if_pos hf, ?_⟩
    intro k
    unfold flaskForm
    rw [get?_foldl_set flaskFile, get?_foldl_set FlaskField.text, ← find_wf hwf]
    unfold lastField
    cases req.p.file.reverse.find? (fun e => e.1 = k) with
    | some e => cases e with | mk a b => cases b <;> rfl
    | none =>
      cases req.p.formData.reverse.find? (fun e => e.1 = k) <;> rfl

/-! ## webapp2 -/

/-- the (name, value) pairs of a query; empty pieces count for nothing -/
def queryPairs (s : Str) : Option (List (Str × Str)) :=
  ((pieces '&' s).filter (· ≠ [])).mapM formPair

theorem pieces_append (a b : Str) : pieces '&' (a ++ '&' :: b) = pieces '&' a ++ pieces '&' b := by
  induction a with
  | nil => simp [pieces]
  | cons x a ih =>
    simp only [List.cons_append, pieces]
    by_cases hx : x = '&'
    · simp [hx, ih]
    · simp only [hx, if_false, ih]
      cases hp : pieces '&' a with
      | nil => 
        cases a with
        | nil => simp [pieces] at hp
        | cons y a => 
          simp only [pieces] at hp
          split at hp
          · cases hp
          · split at hp <;> cases hp
      | cons p ps => rfl

theorem queryPairs_append (a b : Str) : queryPairs (a ++ '&' :: b) = (do
    let x ← queryPairs a
    let y ← queryPairs b
    return x ++ y) := by
  unfold queryPairs
  rw [pieces_append, List.filter_append, List.mapM_append]

theorem queryPairs_urlencode (l : List (Str × Str)) (hl : l ≠ []) :
    queryPairs (urlencode l) = some l := by
  have h1 := C22.formDecode_urlencode l
  have hne : urlencode l ≠ [] := by
    obtain ⟨kv, l, rfl⟩ := List.exists_cons_of_ne_nil hl
    unfold urlencode
    cases l <;> simp [join]
  unfold formDecode at h1
  rw [if_neg hne] at h1
  unfold queryPairs
  rw [List.filter_eq_self.2]
  · exact h1
  · intro x hx
    have : x ≠ [] := by
      rintro rfl
      rw [C22.pieces_eq_splitChar, urlencode, splitChar_join] at hx
      · obtain ⟨kv, _, hkv⟩ := List.mem_map.1 hx
        simp at hkv
      · simpa using hl
      · intro y hy
        obtain ⟨kv', _, rfl⟩ := List.mem_map.1 hy
        simp only [List.append_assoc, List.mem_append, List.mem_singleton, not_or]
        exact ⟨not_mem_quote_plus (by decide), by decide, not_mem_quote_plus (by decide)⟩
    simpa using this

/-- **C64** (webapp2). Method in capitals, headers and data as prepared. The URL is the prepared
one, with the query parameters added behind those it already has: reading the query of the new URL
gives the pairs of the old one followed by the query parameters. (Not when the URL has no query and
ends in `&`, or its query ends in `?`, see `C64_webapp2_false`.) -/
theorem C64_webapp2 (w : World β δ π η h σ τ ρ υ D) (security keep ck) (opt) (hs) (req : Req β π)
    (resp : Resp η ρ D) (server : WebReq π → Except Exc (Reply ρ)) (q)
    (hq : (webRequest w security keep ck opt hs req resp server).1.sent = some q) :
    ∃ res, send w.env w.op (bundled true false security) opt hs req = .ok res ∧
      q.method = w.upper w.op.method ∧ q.headers = res.sent.headers ∧ q.post = res.sent.data ∧
      (res.sent.query = [] → q.url = res.sent.url) ∧
      (res.sent.query ≠ [] → ∀ base old, '?' ∉ base → ¬ c!"?" <:+ old →
        (res.sent.url = base ∧ old = [] ∧ ¬ c!"&" <:+ base ∨ res.sent.url = base ++ c!"?" ++ old) →
        ∃ new, q.url = base ++ c!"?" ++ new ∧
          ∀ pairs, queryPairs old = some pairs → queryPairs new = some (pairs ++ res.sent.query)) := by
  obtain ⟨res, h1, h2⟩ := exchange_sent hq
  refine ⟨res, h1, ?_⟩
  have hm := (C63.C63_sent w.env w.op _ opt hs req res h1).1
  unfold webBuild at h2
  split at h2
  · cases h2
  rename_i url hu
  cases h2
  refine ⟨by rw [← hm], rfl, rfl, ?_, ?_⟩
  · intro hqe
    unfold webUrl at hu
    rw [if_neg (fun h => h hqe)] at hu
    cases hu; rfl
  · intro hqne base old hb hmark hor
    unfold webUrl at hu
    rw [if_pos hqne] at hu
    have henc := queryPairs_urlencode _ hqne
    generalize res.sent.query = query at *
    generalize res.sent.url = url0 at *
    cases hlast : url0.getLast? with
    | none => rw [hlast] at hu; cases hu
    | some c =>
      rw [hlast] at hu
      simp only [Except.ok.injEq] at hu
      obtain ⟨init, hinit⟩ := List.getLast?_eq_some_iff.1 hlast
      rcases hor with ⟨rfl, rfl, hamp⟩ | rfl
      · have hc : ¬ (c = '?' ∨ c = '&') := by
          rintro (rfl | rfl)
          · exact hb (by rw [hinit]; simp)
          · exact hamp ⟨init, hinit.symm⟩
        rw [if_neg hc, if_neg hb] at hu
        refine ⟨urlencode query, hu.symm, ?_⟩
        intro pairs hp
        have : pairs = [] := by simpa [queryPairs, pieces] using hp.symm
        rw [this, henc]; rfl
      · by_cases hc : c = '?' ∨ c = '&'
        · rw [if_pos hc] at hu
          refine ⟨old ++ urlencode query, by rw [← hu]; simp, ?_⟩
          intro pairs hp
          rcases List.eq_nil_or_concat old with rfl | ⟨o, x, rfl⟩
          · have : pairs = [] := by simpa [queryPairs, pieces] using hp.symm
            rw [this]; simpa using henc
          · have hx : x = c := by
              rw [List.concat_eq_append, ← List.append_assoc] at hinit
              exact (List.append_inj_right' hinit rfl |> List.cons.inj).1
            subst hx
            rcases hc with rfl | rfl
            · exact absurd ⟨o, by simp⟩ hmark
            · have hsplit : o.concat '&' ++ urlencode query = o ++ '&' :: urlencode query := by simp
              have ho : o.concat '&' = o ++ '&' :: [] := by simp
              rw [ho, queryPairs_append] at hp
              rw [hsplit, queryPairs_append, henc]
              cases hqo : queryPairs o with
              | none => rw [hqo] at hp; cases hp
              | some po =>
                rw [hqo] at hp
                have hpo : pairs = po := by
                  have : (some (po ++ []) : Option (List (Str × Str))) = some pairs := hp
                  simpa using this.symm
                rw [hpo]; rfl
        · rw [if_neg hc, if_pos (by simp)] at hu
          refine ⟨old ++ '&' :: urlencode query, by rw [← hu]; simp, ?_⟩
          intro pairs hp
          rw [queryPairs_append, hp, henc]; rfl

/-! ## Concrete requests -/

/-- an operation at the given URL -/
def world (url : Str) : World Unit Unit Unit Str Unit Unit Unit Str Str Str where
  env := ⟨fun _ _ _ => .ok (), id, fun _ _ => .error .KeyError, fun _ => .ok [], fun _ => .ok [], c!"b"⟩
  renv := ⟨id, id, fun _ v => .ok v, .ok, fun _ => .ok (), fun _ raw _ => .ok raw, fun _ v => .ok v⟩
  op := ⟨url, c!"/p", c!"get", [], [], [c!"http"], none, []⟩
  table := []
  upper := fun s => s.map Char.toUpper

/-- the URL webapp2 is asked for -/
def webUrlOf (url : Str) (query : List (Str × Str)) : Option Str :=
  (webRequest (world url) none false none [] .none (init (world url).op ⟨[], query, [], [], [], []⟩)
    Resp.init (fun _ => .error .OSError)).1.sent.map (·.url)

example : webUrlOf c!"//h/p" [(c!"a", c!"1 2")] = some c!"http://h/p?a=1+2" ∧
    webUrlOf c!"//h/p?x=0" [(c!"a", c!"1")] = some c!"http://h/p?x=0&a=1" ∧
    webUrlOf c!"//h/p?" [(c!"a", c!"1")] = some c!"http://h/p?a=1" := by decide +kernel

/-- The query parameters become part of the path when the path ends in `&`, and part of the last
value when the query of the URL ends in `?`. -/
theorem C64_webapp2_false :
    webUrlOf c!"//h/q&" [(c!"a", c!"1")] = some c!"http://h/q&a=1" ∧
    webUrlOf c!"//h/p?x=?" [(c!"a", c!"1")] = some c!"http://h/p?x=?a=1" := by decide +kernel

/-- the form handed to flask -/
def flaskOf (form : List (Str × Str)) (files : Dict Str FileVal) : Option (FlaskData Unit) :=
  (flaskRequest (world c!"//h/p") none [] .none
    (init (world c!"//h/p").op ⟨[], [], [], [], form, files⟩) Resp.init
    (fun _ => .error .OSError)).sent.map (·.data)

/-- With files, of several form fields of one name flask is given only the last. -/
theorem C64_flask_false :
    flaskOf [(c!"tag", c!"a"), (c!"tag", c!"b")] [(c!"pic", .one ⟨[], c!"p.png", none⟩)] =
      some (.dict [(c!"tag", .text c!"b"), (c!"pic", .file c!"p.png" none)]) ∧
    flaskOf [(c!"tag", c!"a"), (c!"tag", c!"b")] [] =
      some (.form [(c!"tag", c!"a"), (c!"tag", c!"b")]) := by decide +kernel

/-- two files under one name and one under another, handed to requests -/
example : ((requestsRequest (world c!"//h/p") none [] .none
    (init (world c!"//h/p").op ⟨[], [(c!"q", c!"1")], [], [], [(c!"k", c!"v")],
      [(c!"a", .many [⟨[], c!"1.txt", some (.text c!"x")⟩, ⟨[(c!"Content-Type", c!"text/plain")], c!"2.txt", none⟩]),
       (c!"b", .one ⟨[], c!"3.txt", some (.bytes [1])⟩)]⟩) Resp.init
    (fun _ => .error .OSError)).sent) =
    some ⟨c!"GET", c!"http://h/p", [(c!"q", c!"1")], .form [(c!"k", c!"v")], [],
      [⟨c!"a", c!"1.txt", .text c!"x", none⟩, ⟨c!"a", c!"2.txt", .bytes [], some c!"text/plain"⟩,
       ⟨c!"b", c!"3.txt", .bytes [1], none⟩]⟩ := by decide +kernel

end Props.C64
