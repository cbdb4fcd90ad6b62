import Verif.Spec.Pointed
import Verif.Spec.SchemaDoc
import Verif.Proofs.Dict
/-!
Places inside other places, and what is written below `definitions`.
-/

namespace Proofs.Fit
open Py Tree _root_.Doc Spec.Pointed

theorem place_append {k k' k'' : Kind} {t u v : Tree} {ts us : List Str} (h : Place k t ts k' u) (h' : Place k' u us k'' v) :
    Place k t (ts ++ us) k'' v := by
  induction h with
  | here => exact h'
  | field h1 h2 h3 _ ih => exact .field h1 h2 h3 (ih h')
  | item h1 _ ih => exact .item h1 (ih h')
  | key h1 _ ih => exact .key h1 (ih h')

theorem written_field {D : Tree} {ts : List Str} {c : Nat} {q : Dict Str Tree} (h : Written D ts c q) {n : Str} {k : Kind}
    {v : Tree} (hq : Dict.get? q n = some v) (hk : Dict.get? (v20 c).child n = some k) {us : List Str} {k' : Kind} {u : Tree}
    (hp : Place k v us k' u) : Place (.one cSwagger) D (ts ++ n :: us) k' u := by
  obtain ⟨k0, hk0, h⟩ := h
  exact place_append h (.field hk0 hq hk hp)

end Proofs.Fit

namespace Proofs.Under
open Py Tree _root_.Doc Spec.Pointed Spec.SchemaDoc

variable {D : Tree} {ts : List Str} {q d : Dict Str Tree}

theorem written_one {c c' : Nat} (h : Written D ts c q) {n : Str} (hq : Dict.get? q n = some (.dict d)) {k : Kind}
    (hk : Dict.get? (v20 c).child n = some k) (ht : Takes k c') : Written D (ts ++ [n]) c' d :=
  ⟨k, ht, Proofs.Fit.written_field h hq hk .here⟩

theorem written_items (h : Written D ts cSchema q) (hq : Dict.get? q c!"items" = some (.dict d)) :
    Written D (ts ++ [c!"items"]) cSchema d := written_one h hq rfl (.inl rfl)

theorem written_further (h : Written D ts cSchema q) (hq : Dict.get? q c!"additionalProperties" = some (.dict d)) :
    Written D (ts ++ [c!"additionalProperties"]) cSchema d := written_one h hq rfl (.inr rfl)

theorem written_property (h : Written D ts cSchema q) {k : Str} (hq : propertyAt q k = some (.dict d)) :
    Written D (ts ++ [c!"properties", k]) cSchema d := by
  unfold propertyAt at hq
  split at hq
  · next ps hps => exact ⟨_, .inl rfl, Proofs.Fit.written_field h hps rfl (.key hq .here)⟩
  · cases hq

theorem written_part (h : Written D ts cSchema q) {i : Nat} (hq : (listAt q c!"allOf")[i]? = some (.dict d)) :
    Written D (ts ++ [c!"allOf", natStr i]) cSchema d := by
  unfold listAt at hq
  split at hq
  · next l hl => exact ⟨_, .inl rfl, Proofs.Fit.written_field h hl rfl (.item hq .here)⟩
  · simp at hq

/-- the class of the objects expected -/
def classOf : Kind → Nat
  | .one c => c
  | .list c => c
  | .dict c => c
  | .boolOr c => c

/-- what a Schema object contains, at any depth -/
def below (c : Nat) : Bool := c = cSchema || c = cXML || c = cExternalDocs

theorem below_child : ∀ c, below c = true → ∀ e ∈ (v20 c).child, below (classOf e.2) = true := by
  intro c hc
  unfold below at hc
  simp only [Bool.or_eq_true, decide_eq_true_eq] at hc
  rcases hc with (rfl | rfl) | rfl <;> decide

theorem place_below {k k' : Kind} {t u : Tree} (h : Place k t ts k' u) : below (classOf k) = true → below (classOf k') = true := by
  induction h with
  | here => exact id
  | @field k c d n v k' ts k'' u ht _ hc _ ih =>
    intro hb
    have : below c = true := by rcases ht with rfl | rfl <;> exact hb
    exact ih (below_child c this _ (Dict.mem_of_get? hc))
  | item _ _ ih => exact ih
  | key _ _ ih => exact ih

theorem definitions_below {c : Nat} (h : Written D ts c q) (hd : ts.head? = some c!"definitions") : below c = true := by
  obtain ⟨k, hk, hp⟩ := h
  have : below (classOf k) = true := by
    cases hp with
    | here => cases hd
    | @field _ c' _ _ _ _ _ _ _ ht _ hc hp =>
      cases hd
      have : c' = cSwagger := by rcases ht with ht | ht <;> cases ht; rfl
      subst this
      have : some (Kind.dict cSchema) = some _ := hc
      cases this
      exact place_below hp rfl
  rcases hk with rfl | rfl <;> exact this

/-- where something else than a schema is written, that is not below `definitions` -/
theorem outside {c : Nat} (h : Written D ts c q) (hc : below c = false) (us : List Str) : (ts ++ us).head? ≠ some c!"definitions" ∨ ts = [] := by
  cases ts with
  | nil => exact .inr rfl
  | cons t ts =>
    refine .inl fun hd => ?_
    have := definitions_below h hd
    rw [hc] at this; cases this

end Proofs.Under
