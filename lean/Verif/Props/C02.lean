import Verif.Proofs.Scan
/-!
# C02: every path shown to a scanner resolves back to the visited object
-/

namespace Props.C02
open Py Utils Tree Scan Spec Spec.Places Proofs.ScanTree

/-- what the walk over a document yields -/
theorem traversal_spec (root : Tree) (leaves : List Nat) (hw : WF root) (hr : isObj root = true) :
    ∃ out : List (List Str × Tree), traversal root leaves = onStack out ∧
      (∀ ts o, (ts, o) ∈ out ↔ isObj o = true ∧ At leaves root ts o) ∧
      out.Pairwise (fun a b => ¬ b.1 <+: a.1) := by
  obtain ⟨out, h1, h2, h3⟩ := walk_spec leaves _ [([], root)] rfl
    (fun x hx => by rw [List.mem_singleton] at hx; subst hx; exact ⟨hw, hr⟩)
    (List.pairwise_singleton ..)
  refine ⟨out, h1, fun ts o => ?_, h3⟩
  rw [h2]
  refine and_congr_right fun _ => ?_
  constructor
  · rintro ⟨x, hx, vs, rfl, h⟩
    rw [List.mem_singleton] at hx; subst hx; exact h
  · intro h; exact ⟨_, List.mem_singleton.2 rfl, ts, rfl, h⟩

/-- **C02**. Splitting a visited path as a JSON pointer gives '#' and tokens, and resolving the
tokens from the root gives the visited object. -/
theorem C02_resolves (root : Tree) (leaves : List Nat) (hw : WF root) (hr : isObj root = true)
    (p : Str) (o : Tree) (h : (p, o) ∈ traversal root leaves) :
    ∃ ts, jp_split (some p) = ['#'] :: ts ∧ resolve ts root = .ok o := by
  obtain ⟨out, h1, h2, _⟩ := traversal_spec root leaves hw hr
  rw [h1] at h
  simp only [onStack, List.mem_map] at h
  obtain ⟨⟨ts, u⟩, hx, e⟩ := h
  cases e
  exact ⟨ts, split_pointer ts, resolve_at ((h2 ts u).1 hx).2 hw⟩

/-- **C02** (tokens). The visited path is the JSON pointer of the place where the object stands. -/
theorem C02_pointer (root : Tree) (leaves : List Nat) (hw : WF root) (hr : isObj root = true)
    (p : Str) (o : Tree) (h : (p, o) ∈ traversal root leaves) :
    ∃ ts, p = pointer ts ∧ At [] root ts o := by
  obtain ⟨out, h1, h2, _⟩ := traversal_spec root leaves hw hr
  rw [h1] at h
  simp only [onStack, List.mem_map] at h
  obtain ⟨⟨ts, u⟩, hx, e⟩ := h
  cases e
  refine ⟨ts, rfl, ?_⟩
  have := ((h2 ts u).1 hx).2
  clear hx h2 h1 hw hr
  induction this with
  | here => exact .here _
  | field c fs n v ts u _ hn _ ih => exact .field c fs n v ts u (by simp) hn ih
  | item l i v ts u hi _ ih => exact .item l i v ts u hi ih
  | key d k v ts u hk _ ih => exact .key d k v ts u hk ih

/-! A document with a path item under '/a~b' holding an operation with two parameters. -/

def param (n : Str) : Tree := .obj 2 [(c!"name", .atom (.str n))]
def op : Tree := .obj 1 [(c!"parameters", .list [param c!"x", param c!"y"])]
def doc : Tree := .obj 0 [(c!"host", .atom (.str c!"h")),
  (c!"paths", .dict [(c!"/a~b", .obj 3 [(c!"get", op)]), (c!"/c", .obj 3 [])])]

theorem doc_wf : WF doc := by
  simp [doc, op, param, WF, WFDict, WFList, Dict.keys]

example : (traversal doc []).map Prod.fst =
    [c!"#", c!"#/paths/~1c", c!"#/paths/~1a~0b", c!"#/paths/~1a~0b/get", c!"#/paths/~1a~0b/get/parameters/1",
     c!"#/paths/~1a~0b/get/parameters/0"] := by decide +kernel
example : resolve [c!"paths", c!"/a~b", c!"get", c!"parameters", c!"1"] doc = .ok (param c!"y") := by rfl

end Props.C02
