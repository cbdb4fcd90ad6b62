import Verif.Model.Scan
/-!
# `pyswagger/scan.py`: dispatchers, scanners and the calls of handlers

Dispatchers are numbered in the order of their definition; number 0 is `Dispatcher` itself. A class body that supplies `obj_route`
itself is not modelled, only `Dispatcher` does.
-/

namespace Dispatch
open Py Tree Scan

variable {η κ ρ σ : Type}

/-- A class made by `DispatcherMeta`: `obj_route` and `result_fn[0]`. -/
structure Cls (η κ : Type) where
  route : Dict Nat (List η)
  result : Option κ

/-- What a program does with dispatchers. -/
inductive Event (η κ : Type) where
  | define (parent : Nat)
  | register (d : Nat) (target : List Nat) (f : η)
  | result (d : Nat) (g : κ)

/-- `pyswagger/scan.py`:62-64, the loop of `register`: `__add_route` (lines 42-53) raises `ValueError` for a class that is no
subclass of `BaseObj`; what was added before stays. -/
def addRoutes (isObj : Nat → Bool) (f : η) : List Nat → Dict Nat (List η) → Dict Nat (List η) × Except Exc Unit
  | [], route => (route, .ok ())
  | t :: target, route => if isObj t then addRoutes isObj f target (addRoute route t f) else (route, .error .ValueError)

/-- `pyswagger/scan.py`:22-32 `DispatcherMeta.__new__` (a new class has its own empty route and no result function, whatever its
parent has), 55-69 `register`, 71-78 `result`. The exception of `register` is the caller's business. -/
def step (isObj : Nat → Bool) (st : List (Cls η κ)) : Event η κ → List (Cls η κ)
  | .define _ => st ++ [⟨[], none⟩]
  | .register d target f => st.modify d fun c => { c with route := (addRoutes isObj f target c.route).1 }
  | .result d g => st.modify d fun c => { c with result := some g }

/-- `pyswagger/scan.py`:35-39: at first there is `Dispatcher`. -/
def start : List (Cls η κ) := [⟨[], none⟩]

def after (isObj : Nat → Bool) (es : List (Event η κ)) : List (Cls η κ) := es.foldl (step isObj) start

/-- The class of a scanner object: the dispatchers among the attributes of its body, in order; `none` is another attribute. -/
structure Body where
  parent : Option Nat
  attrs : List (Option Nat)

/-- `pyswagger/scan.py`:92-102 `__build_route`: the attributes of the class of each object, not of its parents. The objects are
numbered. -/
def buildRoute (st : List (Cls η κ)) (bodies : List Body) (route : List (Nat × Nat)) : List (Nat × Cls η κ) :=
  route.flatMap fun r =>
    match bodies[r.2]? with
    | none => []
    | some b => b.attrs.filterMap fun a =>
      match a with
      | none => none
      | some d => (st[d]?).map fun c => (r.1, c)

/-- `for x in l: body`, ended by an exception -/
def forEach {α : Type} (body : α → σ → σ × Except Exc Unit) : List α → σ → σ × Except Exc Unit
  | [], s => (s, .ok ())
  | x :: l, s =>
    match body x s with
    | (s, .ok ()) => forEach body l s
    | (s, .error e) => (s, .error e)

/-- `pyswagger/scan.py`:115-120 `handle_cls`. `call` and `accept` are what handlers and result functions do. -/
def handleCls (call : η → Nat → Str → Tree → σ → σ × Except Exc ρ) (accept : κ → Nat → ρ → σ → σ × Except Exc Unit)
    (self : Nat) (c : Cls η κ) (path : Str) (obj : Tree) (k : Nat) (s : σ) : σ × Except Exc Unit :=
  match Dict.get? c.route k with
  | none => (s, .ok ())
  | some fs =>
    forEach (fun f s =>
      match call f self path obj s with
      | (s, .error e) => (s, .error e)
      | (s, .ok ret) =>
        match c.result with
        | some g => accept g self ret s
        | none => (s, .ok ())) fs s

/-- `pyswagger/scan.py`:104-125 `scan`, with what the handlers do; `mro` gives the classes of a class up to and without `BaseObj`. -/
def scan (call : η → Nat → Str → Tree → σ → σ × Except Exc ρ) (accept : κ → Nat → ρ → σ → σ × Except Exc Unit)
    (mro : Nat → List Nat) (st : List (Cls η κ)) (bodies : List Body) (route : List (Nat × Nat)) (root : Option Tree)
    (leaves : List Nat) (s : σ) : σ × Except Exc Unit :=
  match root with
  | none => (s, .error .ValueError)
  | some root =>
    forEach (fun v s => forEach (fun m s =>
      forEach (fun k s => handleCls call accept m.1 m.2 v.1 v.2 k s) (((cls? v.2).map mro).getD []) s)
      (buildRoute st bodies route) s) (traversal root leaves) s

end Dispatch
