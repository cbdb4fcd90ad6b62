import Verif.Model.Patch
import Verif.Props.C18
/-!
# C19: operations that opt out of security are sent without credentials

The security list of a request is that of its operation after `PatchObject`
(`pyswagger/io.py`:330-332); `Core.applySecurity` is what a client does with it.
-/

namespace Props.C19
open Py Utils Core Patch

variable {ρ : Type}

/-- a requirement: scheme names with scopes -/
abbrev Req := Dict Str (List Str)

/-- the list in force: the operation's own if it has one, else the document's -/
def inForceList (own service : Option (List Req)) : Option (List Req) :=
  match own with
  | some l => some l
  | none => service

/-- **C19**. After preparation an operation has its own list if it declares one (be it empty), else
the service-wide one; without a Swagger object its own. -/
theorem C19_list (name : ρ → Option Str) (app : App Req) (o : Op ρ Req) :
    (operation name app o).security = inForceList o.security (app.root.bind fun r => r.security) := by
  unfold operation inForceList
  cases h : o.security <;> cases h2 : app.root <;> simp

/-- **C19** (opting out). With an empty list of its own, the request is sent as it is, whatever the
document declares and whatever credentials are registered. -/
theorem C19_opt_out (name : ρ → Option Str) (app : App Req) (o : Op ρ Req) (h : o.security = some [])
    (info : Dict Str Cred) (p : HQ) : applySecurity info (operation name app o).security p = p := by
  rw [C19_list, h]
  rfl

/-- **C19** (inheriting). Declaring nothing, the operation is sent like one declaring the
service-wide list. -/
theorem C19_inherit (name : ρ → Option Str) (app : App Req) (r : Root Req) (o o' : Op ρ Req)
    (hr : app.root = some r) (h : o.security = none) (l : List Req) (hl : r.security = some l)
    (h' : o'.security = some l) (info : Dict Str Cred) (p : HQ) :
    applySecurity info (operation name app o).security p =
      applySecurity info (operation name app o').security p := by
  rw [C19_list, C19_list, h, h', hr]
  simp [inForceList, hl]

/-- **C19** (overriding). A list of its own makes the service-wide one irrelevant: exactly the
credentials of the own list that are registered are applied (see C18). -/
theorem C19_override (name : ρ → Option Str) (app app' : App Req) (o : Op ρ Req) (l : List Req)
    (h : o.security = some l) (info : Dict Str Cred) (p : HQ) :
    applySecurity info (operation name app o).security p =
      applySecurity info (operation name app' o).security p ∧
    ((∀ s ∈ l, ∀ n ∈ Dict.keys s, Dict.get? info n = none) →
      applySecurity info (operation name app o).security p = p) := by
  rw [C19_list, C19_list, h]
  exact ⟨rfl, fun hn => C18.C18_unchanged info (some l) p fun l' e => by cases e; exact hn⟩

/-- **C19** (nothing declared anywhere). -/
theorem C19_open (name : ρ → Option Str) (app : App Req) (o : Op ρ Req) (h : o.security = none)
    (hr : ∀ r, app.root = some r → r.security = none) (info : Dict Str Cred) (p : HQ) :
    applySecurity info (operation name app o).security p = p := by
  rw [C19_list, h]
  cases h2 : app.root with
  | none => rfl
  | some r => simp [inForceList, hr r h2, applySecurity]

/-! ## example: service-wide `key`, an operation opting out, one inheriting, one overriding -/

def root : Root Req := { security := some [[(c!"key", [])]] }
def app : App Req := { root := some root, url := c!"http://h/s.json", schemes := [c!"http"] }
def info : Dict Str Cred := [(c!"key", ⟨true, c!"X-Key", c!"s3cret"⟩), (c!"tok", ⟨false, c!"t", c!"1"⟩)]
def op (s : Option (List Req)) : Op Str Req := { security := s }

example : (applySecurity info (operation some app (op (some []))).security ⟨[], []⟩) = ⟨[], []⟩ := by decide
example : (applySecurity info (operation some app (op none)).security ⟨[], []⟩) =
    ⟨[(c!"X-Key", c!"s3cret")], []⟩ := by decide
example : (applySecurity info (operation some app (op (some [[(c!"tok", [])]]))).security ⟨[], []⟩) =
    ⟨[], [(c!"t", c!"1")]⟩ := by decide

end Props.C19
