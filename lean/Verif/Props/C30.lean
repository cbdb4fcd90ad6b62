import Verif.Model.Codec
import Verif.Proofs.Dict
/-!
# C30: the media-type registry matches types ignoring case and parameters

A history is a list of events; `unregister` of a name not registered raises and changes nothing.
-/

namespace Props.C30
open Py Codec

variable {κ : Type}

/-- an event in the life of a registry -/
inductive Event (κ : Type) where
  | register (mime : Str) (codec : κ)
  | unregister (mime : Str)

/-- the registry after one event, the caller catching `KeyError` -/
def step (t : Text) (d : Dict Str κ) : Event κ → Dict Str κ
  | .register m c => register t d m c
  | .unregister m => match unregister t d m with | .ok d' => d' | .error _ => d

/-- the codec in force for the type named `m` after a history (most recent event last): the last
one registered under a name equal up to case and not unregistered since, `start` if none was -/
def inForce (t : Text) (m : Str) (start : Option κ) (es : List (Event κ)) : Option κ :=
  es.foldl (fun acc e =>
    match e with
    | .register n c => if t.lower n = t.lower m then some c else acc
    | .unregister n => if t.lower n = t.lower m then none else acc) start

theorem WF_step (t : Text) {d : Dict Str κ} (hd : Dict.WF d) (e : Event κ) : Dict.WF (step t d e) := by
  cases e with
  | register m c => exact Dict.WF_set hd _ _
  | unregister m =>
    simp only [step, unregister]
    cases Dict.get? d (t.lower m) with
    | none => exact hd
    | some _ => exact Dict.WF_del hd _

theorem get_step (t : Text) {d : Dict Str κ} (hd : Dict.WF d) (e : Event κ) (m : Str) :
    Dict.get? (step t d e) (t.lower m) = inForce t m (Dict.get? d (t.lower m)) [e] := by
  cases e with
  | register n c =>
    simp only [step, register, inForce, List.foldl_cons, List.foldl_nil, Dict.get?_set, eq_comm]
  | unregister n =>
    simp only [step, unregister, inForce, List.foldl_cons, List.foldl_nil]
    cases hg : Dict.get? d (t.lower n) with
    | none =>
      simp only
      split
      next h => rw [← h, hg]
      next => rfl
    | some _ => simp only [Dict.get?_del hd, eq_comm]

theorem WF_init (t : Text) (p j : κ) : Dict.WF (init t p j) :=
  Dict.WF_set (Dict.WF_set (Dict.WF_set Dict.WF_nil _ _) _ _) _ _

theorem get_history (t : Text) (es : List (Event κ)) {d : Dict Str κ} (hd : Dict.WF d) (m : Str) :
    Dict.get? (es.foldl (step t) d) (t.lower m) = inForce t m (Dict.get? d (t.lower m)) es := by
  induction es generalizing d with
  | nil => rfl
  | cons e es ih =>
    rw [List.foldl_cons, ih (WF_step t hd e), get_step t hd]
    rfl

theorem dropWhile_all {α : Type} {p : α → Bool} {a l : List α} (ha : ∀ x ∈ a, p x = true) :
    (a ++ l).dropWhile p = l.dropWhile p := by
  induction a with
  | nil => rfl
  | cons x a ih =>
    rw [List.cons_append, List.dropWhile_cons, if_pos (ha x (List.mem_cons_self ..)),
      ih (fun y hy => ha y (List.mem_cons_of_mem _ hy))]

theorem dropWhile_id {α : Type} {p : α → Bool} {l : List α} (hl : ∀ x, l.head? = some x → p x = false) :
    l.dropWhile p = l := by
  cases l with
  | nil => rfl
  | cons x l => rw [List.dropWhile_cons, if_neg (by simp [hl x rfl])]

theorem strip_eq (blank : Char → Bool) (a m b : Str)
    (ha : ∀ x ∈ a, blank x = true) (hb : ∀ x ∈ b, blank x = true)
    (hm : ∀ x, m.head? = some x → blank x = false) (hm' : ∀ x, m.getLast? = some x → blank x = false) :
    strip blank (a ++ m ++ b) = m := by
  unfold strip
  rw [List.append_assoc, dropWhile_all ha]
  by_cases hem : m = []
  · subst hem
    simp only [List.nil_append]
    have := dropWhile_all (l := []) hb
    rw [List.append_nil] at this
    rw [this]; rfl
  · have : (m ++ b).dropWhile blank = m ++ b := by
      apply dropWhile_id
      cases m with
      | nil => exact absurd rfl hem
      | cons x m => intro y hy; simp at hy; subst hy; exact hm x rfl
    rw [this, List.reverse_append, dropWhile_all (fun x hx => hb x (List.mem_reverse.1 hx)),
      dropWhile_id (by intro x hx; exact hm' x (by rw [List.head?_reverse] at hx; exact hx)),
      List.reverse_reverse]

theorem beforeSemicolon_eq {s r : Str} (hs : ';' ∉ s) (hr : r = [] ∨ ∃ q, r = ';' :: q) :
    beforeSemicolon (s ++ r) = s := by
  unfold beforeSemicolon
  induction s with
  | nil => rcases hr with rfl | ⟨q, rfl⟩ <;> simp
  | cons x s ih =>
    have hx : x ≠ ';' := fun h => hs (h ▸ List.mem_cons_self ..)
    have := ih (fun h => hs (List.mem_cons_of_mem _ h))
    simp only [List.cons_append, List.takeWhile_cons, hx, ne_eq, not_false_iff, decide_true, if_true]
    rw [this]

/-- **C30**. After any history of a registry that starts with the built-in codecs, the codec used
for a `Content-Type` written as a type name `m` with blanks around it and, after a semicolon, any
parameters: the last one registered under a name equal to `m` up to case and not unregistered
since, an `Exception` when there is none. -/
theorem C30_lookup (t : Text) (plain json : κ) (es : List (Event κ)) {α : Type}
    (use : κ → Except Exc α) (a m b params : Str)
    (ha : ∀ x ∈ a, t.blank x = true) (hb : ∀ x ∈ b, t.blank x = true)
    (hm : ∀ x, m.head? = some x → t.blank x = false) (hm' : ∀ x, m.getLast? = some x → t.blank x = false)
    (hs : ';' ∉ a ++ m ++ b) (hp : params = [] ∨ ∃ q, params = ';' :: q) :
    withCodec t (es.foldl (step t) (init t plain json)) (a ++ m ++ b ++ params) use =
      match inForce t m none ([Event.register c!"text/plain" plain, .register c!"application/json" json,
        .register c!"text/json" json] ++ es) with
      | some c => use c
      | none => .error .Exception := by
  unfold withCodec codec
  rw [beforeSemicolon_eq hs hp, strip_eq t.blank a m b ha hb hm hm']
  have h0 : es.foldl (step t) (init t plain json) =
      ([Event.register c!"text/plain" plain, .register c!"application/json" json,
        .register c!"text/json" json] ++ es).foldl (step t) [] := rfl
  rw [h0, get_history t _ Dict.WF_nil]
  rw [Dict.get?_nil]
  split <;> simp_all

/-- every `Content-Type` text is of the form treated by `C30_lookup` -/
theorem C30_every_text (t : Text) (hsemi : t.blank ';' = false) (s : Str) :
    ∃ a m b params, s = a ++ m ++ b ++ params ∧
      (∀ x ∈ a, t.blank x = true) ∧ (∀ x ∈ b, t.blank x = true) ∧
      (∀ x, m.head? = some x → t.blank x = false) ∧ (∀ x, m.getLast? = some x → t.blank x = false) ∧
      ';' ∉ a ++ m ++ b ∧ (params = [] ∨ ∃ q, params = ';' :: q) := by
  have _ := hsemi
  let u := s.takeWhile (· ≠ ';')
  let r := s.dropWhile (· ≠ ';')
  have hsr : s = u ++ r := (List.takeWhile_append_dropWhile ..).symm
  have hu : ';' ∉ u := by
    intro h
    have := List.all_takeWhile (p := (· ≠ ';')) (l := s)
    have := List.all_eq_true.1 this _ h
    simp at this
  have hr : r = [] ∨ ∃ q, r = ';' :: q := by
    cases hrr : r with
    | nil => exact Or.inl rfl
    | cons x q =>
      right
      have := List.head?_dropWhile_not (p := (· ≠ ';')) (l := s)
      rw [show s.dropWhile (· ≠ ';') = x :: q from hrr] at this
      simp at this
      exact ⟨q, by rw [this]⟩
  let a := u.takeWhile t.blank
  let v := u.dropWhile t.blank
  have huv : u = a ++ v := (List.takeWhile_append_dropWhile ..).symm
  let b := (v.reverse.takeWhile t.blank).reverse
  let m := (v.reverse.dropWhile t.blank).reverse
  have hvm : v = m ++ b := by
    have : v.reverse = v.reverse.takeWhile t.blank ++ v.reverse.dropWhile t.blank :=
      (List.takeWhile_append_dropWhile ..).symm
    have h2 := congrArg List.reverse this
    rw [List.reverse_reverse, List.reverse_append] at h2
    exact h2
  have hall : ∀ l : Str, ∀ x ∈ l.takeWhile t.blank, t.blank x = true := by
    intro l x hx
    exact List.all_eq_true.1 (List.all_takeWhile (p := t.blank) (l := l)) x hx
  refine ⟨a, m, b, r, ?_, hall u, ?_, ?_, ?_, ?_, hr⟩
  · rw [List.append_assoc a, ← hvm, ← huv]; exact hsr
  · intro x hx; exact hall _ x (List.mem_reverse.1 hx)
  · intro x hx
    have hv : v.head? = some x := by
      rw [hvm]
      cases hmm : m with
      | nil => rw [hmm] at hx; simp at hx
      | cons y m' => rw [hmm] at hx; simpa using hx
    have := List.head?_dropWhile_not (p := t.blank) (l := u)
    rw [show (u.dropWhile t.blank).head? = some x from hv] at this
    simpa using this
  · intro x hx
    have h1 : (v.reverse.dropWhile t.blank).head? = some x := by
      rw [← List.getLast?_reverse]; exact hx
    have := List.head?_dropWhile_not (p := t.blank) (l := v.reverse)
    rw [h1] at this
    simpa using this
  · rw [List.append_assoc, ← hvm, ← huv]; exact hu

/-- **C30** (unregister). `unregister` raises `KeyError` exactly when no codec is in force for the
name. -/
theorem C30_unregister (t : Text) (plain json : κ) (es : List (Event κ)) (m : Str) :
    (unregister t (es.foldl (step t) (init t plain json)) m).toOption = none ↔
      inForce t m none ([Event.register c!"text/plain" plain, .register c!"application/json" json,
        .register c!"text/json" json] ++ es) = none := by
  have h0 : es.foldl (step t) (init t plain json) =
      ([Event.register c!"text/plain" plain, .register c!"application/json" json,
        .register c!"text/json" json] ++ es).foldl (step t) [] := rfl
  have hg := get_history t ([Event.register c!"text/plain" plain, .register c!"application/json" json,
        .register c!"text/json" json] ++ es) (Dict.WF_nil (ν := κ)) m
  rw [← h0] at hg
  rw [Dict.get?_nil] at hg
  rw [← hg]
  unfold unregister
  cases Dict.get? (es.foldl (step t) (init t plain json)) (t.lower m) <;> simp [Except.toOption]

/-- ASCII lower case and the blank -/
def ascii : Text := ⟨fun s => s.map Char.toLower, fun c => c = ' '⟩

example : withCodec ascii (List.foldl (step ascii) (init ascii 1 2)
    [.register c!"Text/PLAIN" 3, .register c!"x/y" 4, .unregister c!"X/Y"])
    c!" text/Plain ; charset=utf-8" (fun c => .ok c) = .ok 3 := by decide

example : (withCodec ascii (List.foldl (step ascii) (init ascii 1 2)
    [.register c!"x/y" 4, .unregister c!"X/Y"]) c!"x/y" (fun c => .ok c)) = .error .Exception := by decide

/-- Names with parameters or blanks can be registered but never found: only the looked-up text is
cut at the semicolon and stripped, not the registered name. -/
theorem C30_registered_parameters_false :
    ¬ ∀ (es : List (Event Nat)) (m : Str) (c : Nat),
      codec ascii ((es ++ [Event.register m c]).foldl (step ascii) (init ascii 1 2)) m = some c := by
  intro H
  have := H [] c!"text/x;v=1" 5
  revert this; decide

/-- A registered name containing a semicolon is never used for any `Content-Type`. -/
theorem C30_unreachable (t : Text) (d : Dict Str κ) (n : Str) (c : κ)
    (hlow : ∀ s, ';' ∈ t.lower s ↔ ';' ∈ s) (hn : ';' ∈ n) (s : Str) :
    codec t (register t d n c) s = codec t d s := by
  unfold codec register
  rw [Dict.get?_set, if_neg]
  intro h
  have h1 : ';' ∈ t.lower n := (hlow n).2 hn
  rw [← h] at h1
  have h2 := (hlow _).1 h1
  have h3 : ';' ∉ beforeSemicolon s := by
    intro h
    have := List.all_eq_true.1 (List.all_takeWhile (p := (· ≠ ';')) (l := s)) _ h
    simp at this
  apply h3
  unfold strip at h2
  have h4 := (List.dropWhile_suffix _).subset (List.mem_reverse.1 h2)
  exact (List.dropWhile_suffix _).subset (List.mem_reverse.1 h4)

end Props.C30
