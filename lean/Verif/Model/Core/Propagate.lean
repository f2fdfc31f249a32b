import Verif.Model.Core.State

/-! # Propagation: `proplit.h`, `propsearch.c`, `trail.c` -/

namespace Verif.Core

open Verif.Spec (neg)

/-- Search for a non false replacement literal (proplit.h:118-135): positions
`searched..size`, then `2..searched`.  Returns its position. -/
def findReplacement (values : Nat → Int) (lits : List Nat) (searched : Nat) : Option Nat :=
  match (lits.drop searched).findIdx? (fun l => decide (0 ≤ values l)) with
  | some i => some (searched + i)
  | none =>
    match ((lits.take searched).drop 2).findIdx? (fun l => decide (0 ≤ values l)) with
    | some i => some (2 + i)
    | none => none

/-- State of the watch loop: the solver, the watches written back so far (`begin..q`)
and the delayed watches. -/
structure Loop where
  s : Solver
  kept : List Watch
  delayed : List (Nat × Nat × Nat)

/-- Rest of the loop body for a large watch whose blocking literal is not true
(proplit.h:94-176). -/
def propagateLarge (notLit blocking ref : Nat) (t : Loop) : Loop × Option Conflict :=
  let c := t.s.clause ref
  if c.garbage then (t, none)
  else
    let other := c.lits.getD 0 0 ^^^ c.lits.getD 1 0 ^^^ notLit
    if 0 < t.s.values other then
      ({ t with kept := t.kept ++ [.large other ref] }, none)
    else
      match findReplacement t.s.values c.lits c.searched with
      | some r =>
        let replacement := c.lits.getD r 0
        let lits := ((c.lits.set 0 other).set 1 replacement).set r notLit
        ({ t with
            s := t.s.setClause ref { c with lits := lits, searched := r }
            delayed := t.delayed ++ [(replacement, other, ref)] }, none)
      | none =>
        let t := { t with kept := t.kept ++ [.large blocking ref] }
        if t.s.values other ≠ 0 then (t, some (.large ref))
        else ({ t with s := t.s.assignReference other ref }, none)

/-- Body of the watch loop (proplit.h:71-177). -/
def propagateWatch (level notLit : Nat) (w : Watch) (t : Loop) : Loop × Option Conflict :=
  match w with
  | .binary other =>
    let t := { t with kept := t.kept ++ [w] }
    if 0 < t.s.values other then (t, none)
    else if t.s.values other < 0 then (t, some (.binary notLit other))
    else ({ t with s := t.s.fastAssignBinary level other notLit }, none)
  | .large blocking ref =>
    if 0 < t.s.values blocking then ({ t with kept := t.kept ++ [w] }, none)
    else propagateLarge notLit blocking ref t

/-- The watch loop (proplit.h:71-181): on a conflict the rest is copied. -/
def propagateWatches (level notLit : Nat) : List Watch → Loop → Loop × Option Conflict
  | [], t => (t, none)
  | w :: ws, t =>
    match propagateWatch level notLit w t with
    | (t, some c) => ({ t with kept := t.kept ++ ws }, some c)
    | (t, none) => propagateWatches level notLit ws t

/-- `kissat_watch_large_delayed` (proplit.h:1-23). -/
def watchDelayed (s : Solver) (d : List (Nat × Nat × Nat)) : Solver :=
  d.foldl (fun s (x : Nat × Nat × Nat) => s.pushWatch x.1 (.large x.2.1 x.2.2)) s

/-- `PROPAGATE_LITERAL` (proplit.h:34-187). -/
def propagateLiteral (s : Solver) (lit : Nat) : Solver × Option Conflict :=
  let notLit := neg lit
  match propagateWatches (s.lev lit) notLit (s.watches notLit) ⟨s, [], []⟩ with
  | (t, c) => (watchDelayed { t.s with watches := upd t.s.watches notLit t.kept } t.delayed, c)

/-- `search_propagate` (propsearch.c:35-42).  The first argument bounds the number
of iterations; `vars + 1` always suffices (`searchPropagate_complete`). -/
def propagateLoop : Nat → Solver → Solver × Option Conflict
  | 0, s => (s, none)
  | n + 1, s =>
    match s.trail[s.propagate]? with
    | none => (s, none)
    | some lit =>
      match propagateLiteral { s with propagate := s.propagate + 1 } lit with
      | (s, some c) => (s, some c)
      | (s, none) => propagateLoop n s

/-- The watch loop if compiled with `CONTINUE_PROPAGATING_AFTER_CONFLICT`
(proplit.h:71-177, propbeyond.c:5-9): conflicts are ignored. -/
def propagateWatchesBeyond (level notLit : Nat) : List Watch → Loop → Loop
  | [], t => t
  | w :: ws, t => propagateWatchesBeyond level notLit ws (propagateWatch level notLit w t).1

/-- `propagate_literal_beyond_conflicts` (proplit.h:34-187 included in
propbeyond.c:5-9). -/
def propagateLiteralBeyond (s : Solver) (lit : Nat) : Solver :=
  let notLit := neg lit
  let t := propagateWatchesBeyond (s.lev lit) notLit (s.watches notLit) ⟨s, [], []⟩
  watchDelayed { t.s with watches := upd t.s.watches notLit t.kept } t.delayed

/-- `propagate_literals_beyond_conflicts` (propbeyond.c:26-32), called by
`kissat_propagate_beyond_conflicts` (propbeyond.c:34-48).  The first argument bounds the
number of iterations; `vars + 1` always suffices. -/
def propagateBeyond : Nat → Solver → Solver
  | 0, s => s
  | n + 1, s =>
    match s.trail[s.propagate]? with
    | none => s
    | some lit => propagateBeyond n (propagateLiteralBeyond { s with propagate := s.propagate + 1 } lit)

/-- `kissat_flush_trail` (trail.c:6-16). -/
def Solver.flushTrail (s : Solver) : Solver :=
  { s with trail := [], propagate := 0, unflushed := 0 }

/-- `kissat_update_conflicts_and_trail` (proplit.h:189-204) with `flush` true. -/
def updateConflictsAndTrail (s : Solver) (conflict : Option Conflict) : Solver :=
  match conflict with
  | some _ =>
    let s := { s with conflicts := s.conflicts + 1 }
    if s.level = 0 then { s with inconsistent := true }.emit (.add []) else s
  | none => if s.level = 0 ∧ s.unflushed ≠ 0 then s.flushTrail else s

/-- `kissat_search_propagate` (propsearch.c:44-71). -/
def searchPropagate (s : Solver) : Solver × Option Conflict :=
  match propagateLoop (s.vars + 1) s with
  | (s, c) => (updateConflictsAndTrail s c, c)

end Verif.Core
