import Verif.Props.C96
import Verif.Props.C75
import Verif.Model.Loaded
/-!
# C96: what `Renderer` makes for files, and what is uploaded for it

Without files among the options, a dict is made that describes a file without name, of the type `text/plain`, whose content are some
letters.
-/

namespace Props.C96
open Py Prim Render Spec.Files Spec.Multipart
open Spec.Rendered (Letter)

/-- the file that is made over the file-like object with the number `k` -/
def plainFile (k : Nat) : Upload := ⟨[], [(c!"Content-Type", c!"text/plain"), (c!"Content-Transfer-Encoding", c!"binary")], .stream k⟩

/-- With files among the options one of them is made, any of them may be. -/
theorem C96_file_given (stream : Str → Val) {files : List Val} (hf : files ≠ []) (max : Nat) (r : Ends Val) :
    Run (makeFile stream files max) r ↔ ∃ v ∈ files, r = .value v := by
  unfold makeFile
  rw [if_pos (List.length_pos_iff.2 hf)]
  exact run_choice hf

/-- Otherwise it is a file of letters, at most as many as the option says, and any such letters may be drawn. -/
theorem C96_file (number : Str → Nat) (max : Nat) (r : Ends Val) :
    Run (makeFile (fun s => .other (number s)) [] max) r ↔ ∃ (s : Str) (d : List (Str × Val)), r = .value (.dict d) ∧
      d.map Prod.fst = [c!"header", c!"filename", c!"data"] ∧ Describes d (plainFile (number s)) ∧
      s.length ≤ max ∧ ∀ c ∈ s, Letter c := by
  have draw : Run (makeFile (fun s => .other (number s)) [] max) r ↔ ∃ s : Str, s.length ≤ max ∧ (∀ c ∈ s, Letter c) ∧
      r = .value (.dict [(c!"header", .dict [(c!"Content-Type", .str c!"text/plain"), (c!"Content-Transfer-Encoding", .str c!"binary")]),
        (c!"filename", .str []), (c!"data", .other (number s))]) := by
    unfold makeFile
    rw [if_neg (by simp)]
    constructor
    · intro h
      rcases run_bind.1 h with ⟨n, h1, h2⟩ | ⟨e, h, _⟩ | ⟨h, _⟩
      · obtain ⟨n0, n1⟩ := run_randint_value.1 h1
        rcases run_bind.1 h2 with ⟨s, h3, h4⟩ | ⟨e, h, _⟩ | ⟨h, _⟩
        · obtain ⟨_, e, hl, hc⟩ := (run_text (by decide)).1 h3
          cases e
          exact ⟨s, by omega, fun c hcs => (mem_letters c).1 (hc c hcs), run_ret.1 h4⟩
        · obtain ⟨_, e, _⟩ := (run_text (by decide)).1 h
          cases e
        · obtain ⟨_, e, _⟩ := (run_text (by decide)).1 h
          cases e
      · have := (run_randint_raises.1 h).1
        omega
      · exact absurd h run_randint_running
    · rintro ⟨s, hl, hc, rfl⟩
      refine run_bind.2 (.inl ⟨s.length, run_randint_value.2 ⟨by omega, by omega⟩, run_bind.2 (.inl ⟨s, ?_, run_ret.2 rfl⟩)⟩)
      exact (run_text (by decide)).2 ⟨s, rfl, by simp, fun c h => (mem_letters c).2 (hc c h)⟩
  rw [draw]
  constructor
  · rintro ⟨s, hl, hc, rfl⟩
    exact ⟨s, _, rfl, rfl, ⟨.inl rfl, .inl rfl, rfl⟩, hl, hc⟩
  · rintro ⟨s, d, rfl, hk, ⟨h1, h2, h3⟩, hl, hc⟩
    refine ⟨s, hl, hc, ?_⟩
    match d, hk with
    | [(a, x), (b, y), (c, z)], hk =>
      simp only [List.map_cons, List.map_nil, List.cons.injEq, and_true] at hk
      obtain ⟨rfl, rfl, rfl⟩ := hk
      simp [Dict.get?, plainFile, Content] at h1 h2 h3
      rw [h1, h2, h3]

/-- What is made is accepted for a parameter of type file, and the part of the body that is sent for it (C75_upload) has the two headers
and the letters. -/
theorem C96_file_sent {w : World.Outside} {e : Prim.Env World.Atom} {i : Nat} (hi : Is (World.env w e) i c!"file") (number : Str → Nat)
    (hw : ∀ s, w.obj (number s) = .stream (.text s)) (max : Nat) {v : Val}
    (h : Run (makeFile (fun s => .other (number s)) [] max) (.value v)) (fuel : Nat) (read : Bool) (name : Str) (disk : Str → Bytes) :
    ∃ (s : Str) (d : List (Str × Val)) (u : Upload), s.length ≤ max ∧ (∀ c ∈ s, Letter c) ∧ v = .dict d ∧ Describes d u ∧
      (∃ f, convert (World.env w e) (fuel + 1) i v read = .ok (.atom .file (.file f))) ∧
      parts (C75.content w) disk [] [(name, u)] =
        [⟨name, some [], [(c!"Content-Type", c!"text/plain"), (c!"Content-Transfer-Encoding", c!"binary")], utf8 s⟩] := by
  obtain ⟨s, d, hv, -, hd, hl, hc⟩ := (C96_file number max _).1 h
  cases hv
  refine ⟨s, d, plainFile (number s), hl, hc, rfl, hd, ?_, ?_⟩
  · have hdata : Dict.get? d c!"data" = some (.other (number s)) := hd.source
    obtain ⟨f, hf, -⟩ := (((C75.C75_accepted hi fuel (.dict d) read (by simp)).2 d rfl).2 (by rw [hdata]; simp))
    exact ⟨f, hf⟩
  · simp [parts, plainFile, C75.content, hw, Dict.get?]

/-! ## cases -/

/-- a world in which there is a file-like object over each text -/
def library (o : _root_.Loaded.Outside) : World.Outside :=
  { C73.outside with obj := fun k => .stream (.text ((o.pos k).headD [])) }

theorem in_library (o : _root_.Loaded.Outside) (s : Str) : (library o).obj (o.num [s]) = .stream (.text s) := by
  simp [library, o.left]

example (w : World.Outside) : Is (World.env w C75.theBase) 0 c!"file" := ⟨rfl, rfl, rfl⟩

example (number : Str → Nat) : Run (makeFile (fun s => .other (number s)) [] 3) (.value (.dict
    [(c!"header", .dict [(c!"Content-Type", .str c!"text/plain"), (c!"Content-Transfer-Encoding", .str c!"binary")]),
      (c!"filename", .str []), (c!"data", .other (number c!"aZ"))])) :=
  (C96_file number 3 _).2 ⟨c!"aZ", _, rfl, rfl, ⟨.inl rfl, .inl rfl, rfl⟩, by decide, by
    intro c hc; simp at hc; rcases hc with rfl | rfl <;> simp [Letter]⟩

example (stream : Str → Val) : Run (makeFile stream [.other 3, .other 4] 0) (.value (.other 4)) :=
  (C96_file_given stream (by simp) 0 _).2 ⟨.other 4, by simp, rfl⟩

end Props.C96
