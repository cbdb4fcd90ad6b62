import Mathlib.Order.Defs.LinearOrder
import Verif.Py.Dict
/-! # `pyswagger/utils.py`: `walk` -/

namespace Utils
open Py

/-- `min(l)`; `ValueError` (here `none`) on an empty list. -/
def pyMin {α : Type} [LinearOrder α] : List α → Option α
  | [] => none
  | x :: xs => some (xs.foldl min x)

/-- The local variables of `walk`: `ctx` (outgoing edges still to be explored, by vertex),
`stk` (the current path, last element on top) and `cyc` (cycles found so far). -/
structure WalkState (α : Type) where
  ctx : Dict α (List α)
  stk : List α
  cyc : List (List α)
  deriving Repr, DecidableEq

/-- One iteration of the `while` loop, `pyswagger/utils.py`:451-478. `none`: the loop is left.
`ofn` is assumed not to raise. -/
def walkStep {α : Type} [LinearOrder α] (ofn : α → List α) (s : WalkState α) :
    Option (Except Exc (WalkState α)) :=
  match s.stk.getLast? with
  | none => none
  | some top =>
    -- lines 454-455
    let ctx := if s.ctx.has top then s.ctx else s.ctx.set top (ofn top)
    match ctx.get? top with
    | none => some (.error .KeyError)
    | some (n :: rest) =>
      if n ∈ s.stk then
        -- lines 465-471
        let nc := s.stk.drop (s.stk.idxOf n)
        match pyMin nc with
        | none => some (.error .ValueError)
        | some m =>
          let ni := nc.idxOf m
          let nc := nc.drop ni ++ nc.take ni ++ [m]
          let cyc := if nc ∈ s.cyc then s.cyc else s.cyc ++ [nc]
          some (.ok { ctx := ctx.set top rest, stk := s.stk, cyc := cyc })
      else
        -- line 473
        some (.ok { ctx := ctx, stk := s.stk ++ [n], cyc := s.cyc })
    | some [] =>
      -- lines 475-478
      let ctx := ctx.del top
      let stk := s.stk.dropLast
      match stk.getLast? with
      | none => some (.ok { ctx := ctx, stk := stk, cyc := s.cyc })
      | some p =>
        match ctx.get? p with
        | none => some (.error .KeyError)
        | some l =>
          if top ∈ l then
            some (.ok { ctx := ctx.set p (l.erase top), stk := stk, cyc := s.cyc })
          else some (.error .ValueError)

/-- The loop, cut off after `fuel` iterations (`none`: cut off). -/
def walkRun {α : Type} [LinearOrder α] (ofn : α → List α) :
    Nat → WalkState α → Option (Except Exc (List (List α)))
  | 0, _ => none
  | fuel + 1, s =>
    match walkStep ofn s with
    | none => some (.ok s.cyc)
    | some (.error e) => some (.error e)
    | some (.ok s') => walkRun ofn fuel s'

/-- `pyswagger/utils.py`:439-480 `walk(start, ofn, cyc)`, cut off after `fuel` iterations. -/
def walk {α : Type} [LinearOrder α] (fuel : Nat) (start : α) (ofn : α → List α)
    (cyc : Option (List (List α)) := none) : Option (Except Exc (List (List α))) :=
  walkRun ofn fuel { ctx := [], stk := [start], cyc := cyc.getD [] }

end Utils
