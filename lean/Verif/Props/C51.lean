import Verif.Model.Patch
import Verif.Proofs.Url
import Verif.Proofs.Scan
/-!
# C51: operations inherit service-wide media types, schemes, host and base path

`prepared` is what becomes of an operation declared in field `n` of the path item at `path` when
`PatchObject` runs over the document: `PathItem` and `Operation` are both handled, in some order.
-/

namespace Props.C51
open Py Utils Patch Spec Spec.Places

variable {ρ σ : Type}

/-- the operation after both handlers -/
def prepared (name : ρ → Option Str) (app : App σ) (path n : Str) (o : Op ρ σ) : Op ρ σ :=
  operation name app (locate app (lastToken path) n o)

/-- The order of the handlers does not matter. -/
theorem C51_order (name : ρ → Option Str) (app : App σ) (path n : Str) (o : Op ρ σ) :
    prepared name app path n o = locate app (lastToken path) n (operation name app o) := rfl

/-! ## lists -/

/-- own list if not empty, else the other -/
def orElse (own other : List Str) : List Str :=
  match own with
  | [] => other
  | own => own

/-- **C51** (media types). -/
theorem C51_media (name : ρ → Option Str) (app : App σ) (path n : Str) (o : Op ρ σ) :
    (∀ r, app.root = some r →
      (prepared name app path n o).consumes = orElse o.consumes r.consumes ∧
      (prepared name app path n o).produces = orElse o.produces r.produces) ∧
    (app.root = none →
      (prepared name app path n o).consumes = o.consumes ∧
      (prepared name app path n o).produces = o.produces) := by
  refine ⟨fun r hr => ?_, fun hr => ?_⟩
  · simp only [prepared, operation, locate, hr]
    constructor
    · cases o.consumes <;> simp [orElse]
    · cases o.produces <;> simp [orElse]
  · simp [prepared, operation, locate, hr]

/-- **C51** (schemes). Own schemes, else those of the document, else the scheme of the URL the
document was loaded from. -/
theorem C51_schemes (name : ρ → Option Str) (r : Root σ) (u : Url) (hu : Canon u) (path n : Str) (o : Op ρ σ) :
    (prepared name ⟨some r, urlunparse u, schemesOf (some r) (urlunparse u)⟩ path n o).cached_schemes =
      orElse o.schemes (orElse r.schemes [u.scheme]) := by
  simp only [prepared, operation, locate, schemesOf, urlparse_urlunparse hu]
  have := hu.scheme_ne
  cases o.schemes <;> cases r.schemes <;> simp [orElse, this]

/-! ## place -/

/-- the host: the document's, else that of the loaded URL, else `localhost` -/
inductive Host : Option Str → Str → Str → Prop where
  | own (h netloc) : h ≠ [] → Host (some h) netloc h
  | loaded (h netloc) : h = none ∨ h = some [] → netloc ≠ [] → Host h netloc netloc
  | local_ (h) : h = none ∨ h = some [] → Host h [] c!"localhost"

/-- `path` with a slash in front if it has none and is not empty -/
def rooted : Str → Str
  | [] => []
  | '/' :: s => '/' :: s
  | c :: s => '/' :: c :: s

theorem host_eq (r : Root σ) (u : Url) (hu : Canon u) : Host r.host u.netloc (hostOf r (urlunparse u)) := by
  unfold hostOf
  rw [urlparse_urlunparse hu]
  cases hh : r.host with
  | none =>
    cases hn : u.netloc with
    | nil => exact .local_ _ (Or.inl rfl)
    | cons c t => simpa [truthyStr] using Host.loaded none (c :: t) (Or.inl rfl) (by simp)
  | some h =>
    cases h with
    | nil =>
      cases hn : u.netloc with
      | nil => exact .local_ _ (Or.inr rfl)
      | cons c t => simpa [truthyStr] using Host.loaded (some []) (c :: t) (Or.inr rfl) (by simp)
    | cons c t => simpa [truthyStr] using Host.own (c :: t) u.netloc (by simp)

theorem hostOf_ne (r : Root σ) (url : Str) : hostOf r url ≠ [] := by
  unfold hostOf
  generalize (if truthyStr r.host = true then r.host.getD [] else (urlparse url).netloc) = h
  cases h <;> simp

theorem last_pointer (ts : List Str) (k : Str) : lastToken (pointer (ts ++ [k])) = k := by
  unfold lastToken
  rw [Proofs.ScanTree.split_pointer]
  simp [List.getLast?_cons]

theorem unparse_host (h q : Str) (hne : h ≠ []) :
    urlunparse { scheme := [], netloc := h, path := q, params := [], query := [], fragment := [] } =
      c!"//" ++ h ++ rooted q := by
  simp only [urlunparse, unparseHead]
  cases q with
  | nil => simp [hne, rooted]
  | cons c q =>
    by_cases hc : c = '/'
    · subst hc; simp [hne, rooted]
    · have : rooted (c :: q) = '/' :: c :: q := by
        unfold rooted
        split
        · simp_all
        · simp_all
        · rename_i h'; cases h'; rfl
      simp [hne, this, hc]

/-- **C51** (place). The operation found in field `n` of the path item at `ts ++ [k]` gets the key
`k` as its path, the field as its method, the base path of the document, and the URL
`//host` + base path + path (with a slash after the host if there is none). -/
theorem C51_place (name : ρ → Option Str) (r : Root σ) (u : Url) (hu : Canon u) (schemes : List Str)
    (ts : List Str) (k n : Str) (o : Op ρ σ) :
    let p := prepared name ⟨some r, urlunparse u, schemes⟩ (pointer (ts ++ [k])) n o
    p.path = some k ∧ p.method = some n ∧ p.base_path = r.basePath ∧
    ∃ h, Host r.host u.netloc h ∧ p.url = some (c!"//" ++ h ++ rooted (r.basePath.getD [] ++ k)) := by
  intro p
  have hp : p = prepared name ⟨some r, urlunparse u, schemes⟩ (pointer (ts ++ [k])) n o := rfl
  simp only [prepared, operation, locate, last_pointer] at hp
  rw [hp]
  refine ⟨rfl, rfl, rfl, hostOf r (urlunparse u), host_eq r u hu, ?_⟩
  exact congrArg some (unparse_host _ _ (hostOf_ne r (urlunparse u)))

/-- **C51** (reading back). Sent with a scheme, the URL addresses exactly that host and path. -/
theorem C51_reads (name : ρ → Option Str) (r : Root σ) (u : Url) (hu : Canon u) (schemes : List Str)
    (ts : List Str) (k n s b : Str) (o : Op ρ σ) (hb : r.basePath.getD [] ++ k = '/' :: b)
    (hs : s ∈ [c!"http", c!"https", c!"ws", c!"wss"])
    (h1 : '?' ∉ b) (h2 : '#' ∉ b) (h3 : ';' ∉ b)
    (hh : ∀ h, r.host = some h → ∀ c ∈ h, endsNetloc c = false) :
    ∃ url h, (prepared name ⟨some r, urlunparse u, schemes⟩ (pointer (ts ++ [k])) n o).url = some url ∧
      Host r.host u.netloc h ∧
      urlparse (s ++ c!":" ++ url) = { scheme := s, netloc := h, path := '/' :: b, params := [], query := [], fragment := [] } := by
  obtain ⟨_, _, _, h, hhost, he⟩ := C51_place name r u hu schemes ts k n o
  refine ⟨_, h, he, hhost, ?_⟩
  have hne : h ≠ [] ∧ ∀ c ∈ h, endsNetloc c = false := by
    clear he
    generalize hg : r.host = g at hhost
    generalize hn : u.netloc = m at hhost
    cases hhost with
    | own _ _ h0 => exact ⟨h0, hh h hg⟩
    | loaded _ _ _ h0 => exact ⟨h0, hn ▸ hu.netloc_ok⟩
    | local_ _ _ => exact ⟨by simp, by decide⟩
  have hcanon : Canon ({ scheme := s, netloc := h, path := '/' :: b, params := [], query := [], fragment := [] } : Url) :=
    { scheme_ne := by rintro rfl; revert hs; decide
      scheme_chars := by
        show _ = _
        simp only []
        clear he
        revert hs; revert s
        decide
      scheme_lower := by
        show _ = _
        simp only []
        clear he
        revert hs; revert s
        decide
      netloc_ok := hne.2
      auth := Or.inl hne.1
      path_abs := Or.inr ⟨b, rfl⟩
      path_query := by simp [h1]
      path_frag := by simp [h2]
      path_auth := fun h0 => absurd h0 hne.1
      path_rooted := fun h0 => absurd rfl h0
      seg_params := by
        intro _ hm
        have : ';' ∈ '/' :: b := by
          unfold lastSeg at hm
          cases hb : breakAtLast '/' ('/' :: b) with
          | none => rw [hb] at hm; exact hm
          | some x =>
            obtain ⟨d, x⟩ := x
            rw [hb] at hm
            obtain ⟨d', _, e, _⟩ := breakAtLast_some_iff.1 hb
            rw [e]
            simp [show ';' ∈ x from hm]
        simp [h3] at this
      params_scheme := fun _ => rfl
      params_slash := by simp
      params_query := by simp
      params_frag := by simp
      query_frag := by simp }
  have hs0 := hcanon.scheme_ne
  have := urlparse_urlunparse hcanon
  have e : urlunparse ({ scheme := s, netloc := h, path := '/' :: b, params := [], query := [], fragment := [] } : Url) =
      s ++ c!":" ++ (c!"//" ++ h ++ rooted (r.basePath.getD [] ++ k)) := by
    rw [hb]
    simp only [urlunparse, unparseHead]
    simp [hs0, hne.1, rooted]
  rw [← e]
  exact this

/-! ## which operations -/

/-- **C51** (every method). In a path item, the operations in the seven method fields are placed,
each under its own method, and nothing else changes. -/
theorem C51_item (app : App σ) (path : Str) (ops : Dict Str (Op ρ σ)) (n : Str) :
    Dict.get? (pathItem app path ops) n = (Dict.get? ops n).map fun o =>
      if n ∈ [c!"get", c!"put", c!"post", c!"delete", c!"options", c!"head", c!"patch"]
      then locate app (lastToken path) n o else o := by
  unfold pathItem
  induction ops with
  | nil => rfl
  | cons e ops ih =>
    obtain ⟨m, o⟩ := e
    rw [List.map_cons]
    by_cases hm : m ∈ methods
    · simp only [hm, if_true, Dict.get?]
      by_cases e : m = n
      · subst e
        have hm' : m ∈ [c!"get", c!"put", c!"post", c!"delete", c!"options", c!"head", c!"patch"] := hm
        simp only [if_true, Option.map_some, hm']
      · simp only [e, if_false]; exact ih
    · simp only [hm, if_false, Dict.get?]
      by_cases e : m = n
      · subst e
        have hm' : ¬ m ∈ [c!"get", c!"put", c!"post", c!"delete", c!"options", c!"head", c!"patch"] := hm
        simp only [if_true, Option.map_some, hm', if_false]
      · simp only [e, if_false]; exact ih

/-- An operation outside a Swagger object has no URL. -/
theorem C51_detached (name : ρ → Option Str) (app : App σ) (path n : Str) (o : Op ρ σ)
    (h : app.root = none) :
    (prepared name app path n o).url = none ∧ (prepared name app path n o).base_path = none := by
  simp [prepared, operation, locate, h]

/-! ## example -/

def root : Root Nat := { basePath := some c!"/v1", consumes := [c!"application/json"] }
def u : Url := ⟨c!"https", c!"api.example.com:8080", c!"/docs/swagger.json", [], [], []⟩
def o : Op Nat Nat := { produces := [c!"text/plain"] }

example : Canon u := by
  constructor <;> first | decide | exact Or.inr ⟨_, rfl⟩ | (intro h; exact absurd h (by decide))
def done : Op Nat Nat :=
  prepared (fun _ => none) ⟨some root, urlunparse u, schemesOf (some root) (urlunparse u)⟩
    c!"#/paths/~1pets~1{id}" c!"get" o
example : done.url = some c!"//api.example.com:8080/v1/pets/{id}" ∧ done.path = some c!"/pets/{id}" ∧
    done.method = some c!"get" ∧ done.consumes = [c!"application/json"] ∧
    done.produces = [c!"text/plain"] ∧ done.cached_schemes = [c!"https"] := by decide +kernel
example : pointer [c!"paths", c!"/pets/{id}"] = c!"#/paths/~1pets~1{id}" := by decide +kernel
example : root.basePath.getD [] ++ c!"/pets/{id}" = '/' :: c!"v1/pets/{id}" := by decide

end Props.C51
