import Verif.Model.Dispatch
/-!
# What registrations say about the calls of a scan (C97)

Said about the history of definitions and registrations. Of the model the events are used, and the class bodies.
-/

namespace Spec.Dispatched
open Py Tree Dispatch

variable {η κ ρ σ : Type}

/-- how many dispatchers there are after a history -/
def count (es : List (Event η κ)) : Nat := 1 + (es.filter fun e => match e with | .define _ => true | _ => false).length

/-- every registration is with a dispatcher that has been defined -/
def Sound (es : List (Event η κ)) : Prop := ∀ l e r, es = l ++ e :: r → match e with
  | .define _ => True
  | .register d _ _ => d < count l
  | .result d _ => d < count l

/-- the handlers registered with a dispatcher for a class, in order; the targets of one registration count up to the first that is no
class of objects -/
def handlersFor (isObj : Nat → Bool) (es : List (Event η κ)) (d t : Nat) : List η :=
  es.flatMap fun e => match e with
    | .register d' target f => if d' = d then List.replicate ((target.takeWhile isObj).count t) f else []
    | _ => []

/-- the result function of a dispatcher: the last one given to it -/
inductive ResultOf : List (Event η κ) → Nat → Option κ → Prop
  | never {es d} : (∀ g, .result d g ∉ es) → ResultOf es d none
  | last {l r d g} : (∀ g', .result d g' ∉ r) → ResultOf (l ++ .result d g :: r) d (some g)

/-- a call of a handler that is due -/
structure Due (η : Type) where
  self : Nat
  dispatcher : Nat
  handler : η
  path : Str
  obj : Tree

/-- What comes of calls one after the other: the return value goes to the result function, if there is one; an exception of either
ends it. -/
inductive Does (call : η → Nat → Str → Tree → σ → σ × Except Exc ρ) (accept : κ → Nat → ρ → σ → σ × Except Exc Unit)
    (result : Nat → Option κ) : List (Due η) → σ → σ → Except Exc Unit → Prop
  | done {s} : Does call accept result [] s s (.ok ())
  | raises {c l s s' e} : call c.handler c.self c.path c.obj s = (s', .error e) → Does call accept result (c :: l) s s' (.error e)
  | plain {c l s s' v t r} : call c.handler c.self c.path c.obj s = (s', .ok v) → result c.dispatcher = none →
      Does call accept result l s' t r → Does call accept result (c :: l) s t r
  | passed {c l s s' v g s'' t r} : call c.handler c.self c.path c.obj s = (s', .ok v) → result c.dispatcher = some g →
      accept g c.self v s' = (s'', .ok ()) → Does call accept result l s'' t r → Does call accept result (c :: l) s t r
  | refused {c l s s' v g s'' e} : call c.handler c.self c.path c.obj s = (s', .ok v) → result c.dispatcher = some g →
      accept g c.self v s' = (s'', .error e) → Does call accept result (c :: l) s s'' (.error e)

/-- the calls that are due: object after object, for each the scanner objects in order, the dispatchers in the body of the class of
each, the classes of the object from its own upwards, and the handlers registered -/
def due (isObj : Nat → Bool) (es : List (Event η κ)) (mro : Nat → List Nat) (bodies : List Body) (route : List (Nat × Nat))
    (visits : List (Str × Tree)) : List (Due η) :=
  visits.flatMap fun v => route.flatMap fun r => ((bodies[r.2]?).map Body.attrs).getD [] |>.flatMap fun a => a.toList.flatMap fun d =>
    (((cls? v.2).map mro).getD []).flatMap fun k => (handlersFor isObj es d k).map fun f => ⟨r.1, d, f, v.1, v.2⟩

end Spec.Dispatched
