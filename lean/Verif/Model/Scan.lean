import Verif.Model.Tree
/-!
# `pyswagger/scan.py`: walking a document

Handlers are taken not to add or remove objects while the walk goes on.
-/

namespace Scan
open Py Tree

/-! ## the number of objects in a tree (for termination only) -/

mutual
/-- number of objects -/
def weight : Tree → Nat
  | .atom _ => 0
  | .list l => weightL l
  | .dict d => weightD d
  | .obj _ fs => 1 + weightD fs
def weightL : List Tree → Nat
  | [] => 0
  | t :: l => weight t + weightL l
def weightD : List (Str × Tree) → Nat
  | [] => 0
  | (_, t) :: d => weight t + weightD d
end

theorem weightD_append (d e : List (Str × Tree)) : weightD (d ++ e) = weightD d + weightD e := by
  induction d with
  | nil => simp [weightD]
  | cons x d ih => obtain ⟨k, t⟩ := x; simp [weightD, ih]; omega

theorem weightD_reverse (d : List (Str × Tree)) : weightD d.reverse = weightD d := by
  induction d with
  | nil => rfl
  | cons x d ih => obtain ⟨k, t⟩ := x; rw [List.reverse_cons, weightD_append, ih]; simp [weightD]; omega

theorem weightD_map (f : Str × Tree → Str) (d : List (Str × Tree)) :
    weightD (d.map fun i => (f i, i.2)) = weightD d := by
  induction d with
  | nil => rfl
  | cons x d ih => obtain ⟨k, t⟩ := x; simp [weightD, ih]

theorem weightD_set (d : Dict Str Tree) (k : Str) (t : Tree) :
    weightD (Dict.set d k t) ≤ weightD d + weight t := by
  induction d with
  | nil => simp [Dict.set, weightD]
  | cons x d ih =>
    obtain ⟨k', t'⟩ := x
    rw [Dict.set]
    split <;> simp only [weightD] <;> omega

mutual
theorem weight_down (name : Str) : ∀ (t : Tree) (ret : Dict Str Tree),
    weightD (down name t ret) ≤ weightD ret + weight t
  | .obj c fs, ret => by rw [down]; exact weightD_set ret name (.obj c fs)
  | .list l, ret => by rw [down, weight]; exact weight_downList name 0 l ret
  | .dict d, ret => by rw [down, weight]; exact weight_downDict name d ret
  | .atom _, ret => by rw [down]; omega
theorem weight_downList (name : Str) (i : Nat) : ∀ (l : List Tree) (ret : Dict Str Tree),
    weightD (downList name i l ret) ≤ weightD ret + weightL l
  | [], ret => by rw [downList]; omega
  | v :: l, ret => by
    rw [downList, weightL]
    refine Nat.le_trans (weight_downList name (i + 1) l _) ?_
    refine Nat.le_trans (Nat.add_le_add_right (weight_down _ v ret) _) ?_
    omega
theorem weight_downDict (name : Str) : ∀ (d : List (Str × Tree)) (ret : Dict Str Tree),
    weightD (downDict name d ret) ≤ weightD ret + weightD d
  | [], ret => by rw [downDict]; omega
  | (k, v) :: d, ret => by
    rw [downDict, weightD]
    refine Nat.le_trans (weight_downDict name d _) ?_
    refine Nat.le_trans (Nat.add_le_add_right (weight_down _ v ret) _) ?_
    omega
end

theorem weight_downFields : ∀ (d : List (Str × Tree)) (ret : Dict Str Tree),
    weightD (downFields d ret) ≤ weightD ret + weightD d
  | [], ret => by rw [downFields]; omega
  | (k, v) :: d, ret => by
    rw [downFields, weightD]
    refine Nat.le_trans (weight_downFields d _) ?_
    refine Nat.le_trans (Nat.add_le_add_right (weight_down _ v ret) _) ?_
    omega

theorem weight_children (c : Nat) (fs : List (Str × Tree)) :
    weightD (children (.obj c fs)) < weight (.obj c fs) := by
  have := weight_downFields fs []
  simp only [children, weight, weightD] at *
  omega

/-! ## the walk -/

/-- `pyswagger/scan.py`:14-15: what is pushed for an object. -/
def pushed (leaves : List Nat) (path : Str) : Tree → List (Str × Tree)
  | .obj c fs =>
    if c ∈ leaves then [] else (children (.obj c fs)).map fun i => (path ++ '/' :: i.1, i.2)
  | _ => []

/-- `pyswagger/scan.py`:9-19, the loop. The list `objs` is kept reversed: its last element first.
Everything on it is an object; on other values `_children_` would not exist. -/
def walk (leaves : List Nat) (objs : List (Str × Tree)) : List (Str × Tree) :=
  match objs with
  | [] => []
  | (_, .atom _) :: _ => []
  | (_, .list _) :: _ => []
  | (_, .dict _) :: _ => []
  | (path, .obj c fs) :: rest =>
    (path, .obj c fs) :: walk leaves ((pushed leaves path (.obj c fs)).reverse ++ rest)
termination_by weightD objs
decreasing_by
  rw [weightD_append, weightD_reverse, weightD]
  have := weight_children c fs
  simp only [pushed]
  by_cases h : c ∈ leaves
  · rw [if_pos h]; first | (simp only [weightD, weight]; omega) | (rw [weightD_map]; omega)
  · rw [if_neg h]; first | (rw [weightD_map]; omega) | (simp only [weightD]; omega)

/-- `pyswagger/scan.py`:6-19 `default_tree_traversal`: the pairs it yields, in order. -/
def traversal (root : Tree) (leaves : List Nat) : List (Str × Tree) := walk leaves [(['#'], root)]

/-! ## dispatch -/

variable {η : Type}

/-- `pyswagger/scan.py`:50-53 `__add_route`. -/
def addRoute (route : Dict Nat (List η)) (t : Nat) (f : η) : Dict Nat (List η) :=
  match Dict.get? route t with
  | some fs => Dict.set route t (fs ++ [f])
  | none => Dict.set route t [f]

/-- `pyswagger/scan.py`:56-69 `register`, applied to a handler. -/
def register (route : Dict Nat (List η)) (target : List Nat) (f : η) : Dict Nat (List η) :=
  target.foldl (fun r t => addRoute r t f) route

/-- the routes after a history of registrations -/
def registered (history : List (List Nat × η)) : Dict Nat (List η) :=
  history.foldl (fun r h => register r h.1 h.2) []

/-- `pyswagger/scan.py`:112-125: the handlers called for one object, with the number of their route;
`mro` gives the classes of a class up to and without `BaseObj`. -/
def handlers (mro : Nat → List Nat) (routes : List (Nat × Dict Nat (List η))) (o : Tree) :
    List (Nat × η) :=
  match cls? o with
  | none => []
  | some c => routes.flatMap fun r => (mro c).flatMap fun k =>
      match Dict.get? r.2 k with
      | some fs => fs.map fun f => (r.1, f)
      | none => []

/-- A call of a handler. -/
structure Called (η : Type) where
  route : Nat
  handler : η
  path : Str
  obj : Tree

/-- `pyswagger/scan.py`:104-125 `Scanner.scan`: the calls made, in order (as long as none raises).
A missing root raises `ValueError`. -/
def scan (mro : Nat → List Nat) (routes : List (Nat × Dict Nat (List η))) (root : Option Tree)
    (leaves : List Nat) : Except Exc (List (Called η)) :=
  match root with
  | none => .error .ValueError
  | some root =>
    .ok ((traversal root leaves).flatMap fun v =>
      (handlers mro routes v.2).map fun h => ⟨h.1, h.2, v.1, v.2⟩)

end Scan
