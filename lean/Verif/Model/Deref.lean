import Verif.Py.Basic
/-! # `pyswagger/utils.py`: `CycleGuard`, `deref`, `final`, `nv_tuple_list_replace` -/

namespace Utils
open Py

/-- `pyswagger/utils.py`:103-106 `CycleGuard.update(obj)`, on the list of visited objects.
Objects are identified by their identity (a weak proxy compares as its referent). -/
def CycleGuard.update {α : Type} [DecidableEq α] (visited : List α) (obj : α) :
    Except Exc (List α) :=
  if obj ∈ visited then .error .CycleDetectionError else .ok (visited ++ [obj])

/-- `pyswagger/utils.py`:270-272, the loop of `deref`, cut off after `fuel` rounds.
`refObj o` is the attribute `ref_obj` of `o` (`none`: `None` or no such attribute). Returns the
object and the objects the guard has seen. -/
def derefLoop {α : Type} [DecidableEq α] (refObj : α → Option α) :
    Nat → α → List α → Option (Except Exc (α × List α))
  | 0, _, _ => none
  | fuel + 1, cur, visited =>
    match refObj cur with
    | none => some (.ok (cur, visited))
    | some nxt =>
      match CycleGuard.update visited nxt with
      | .error e => some (.error e)
      | .ok visited' => derefLoop refObj fuel nxt visited'

/-- `pyswagger/utils.py`:265-273 `deref(obj, guard)`, with the guard's visited list before and
after (`[]` for a fresh guard), cut off after `fuel` rounds. -/
def deref {α : Type} [DecidableEq α] (fuel : Nat) (refObj : α → Option α) (obj : α)
    (visited : List α := []) : Option (Except Exc (α × List α)) :=
  match CycleGuard.update visited obj with
  | .error e => some (.error e)
  | .ok visited' => derefLoop refObj fuel obj visited'

/-- `pyswagger/utils.py`:275-276 `final(obj)`; `fin o` is the attribute `final`
(`none`: absent or `None`). -/
def final {α : Type} (fin : α → Option α) (obj : α) : α :=
  match fin obj with
  | some o => o
  | none => obj

/-- `pyswagger/utils.py`:286-296 `nv_tuple_list_replace(l, v)`: the list after the call. -/
def nv_tuple_list_replace {α β : Type} [DecidableEq α] (l : List (α × β)) (v : α × β) :
    List (α × β) :=
  let r := loop l
  if r.2 then r.1 else r.1 ++ [v]
where
  /-- lines 289-293: the rewritten list and `_found` -/
  loop : List (α × β) → List (α × β) × Bool
    | [] => ([], false)
    | x :: xs =>
      let r := loop xs
      if x.1 = v.1 then (v :: r.1, true) else (x :: r.1, r.2)

end Utils
