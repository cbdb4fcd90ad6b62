import Verif.Py.Basic
/-!
# Python dictionaries

A `dict` is an insertion-ordered association list. Assignment to an existing key keeps its
position, a new key goes to the end (CPython 3.6+).
-/

namespace Py

/-- An insertion-ordered dictionary. -/
abbrev Dict (κ ν : Type) := List (κ × ν)

namespace Dict
variable {κ ν : Type} [DecidableEq κ]

/-- `d.get(k)` / the partial `d[k]` -/
def get? (d : Dict κ ν) (k : κ) : Option ν :=
  match d with
  | [] => none
  | (k', v) :: d => if k' = k then some v else get? d k

/-- `k in d` -/
def has (d : Dict κ ν) (k : κ) : Bool := (get? d k).isSome

/-- `d[k] = v` -/
def set (d : Dict κ ν) (k : κ) (v : ν) : Dict κ ν :=
  match d with
  | [] => [(k, v)]
  | (k', v') :: d => if k' = k then (k', v) :: d else (k', v') :: set d k v

/-- `del d[k]` / `d.pop(k)` (the caller checks presence) -/
def del (d : Dict κ ν) (k : κ) : Dict κ ν :=
  match d with
  | [] => []
  | (k', v') :: d => if k' = k then d else (k', v') :: del d k

/-- `d.update(e)` -/
def update (d e : Dict κ ν) : Dict κ ν := e.foldl (fun d kv => set d kv.1 kv.2) d

/-- `list(d.keys())` -/
def keys (d : Dict κ ν) : List κ := d.map Prod.fst

/-- the keys of a real dict are pairwise distinct -/
def WF (d : Dict κ ν) : Prop := d.keys.Nodup

instance (d : Dict κ ν) : Decidable (WF d) := inferInstanceAs (Decidable d.keys.Nodup)

end Dict
end Py
