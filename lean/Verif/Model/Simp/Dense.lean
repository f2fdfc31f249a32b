import Verif.Model.Simp.State

/-!
# Propagation over full occurrence lists (propdense.c, eliminate.c, dense.c)
-/

namespace Verif.Simp

open Verif.Spec Verif.Model

/-- The other literal of a binary clause with the literal `l`: `watch.binary.lit` in the watches
of `l`; none for large clauses. -/
def State.binaryOther (s : State) (l r : Nat) : Option Nat :=
  if (s.clause r).lits.length = 2 then (s.clause r).lits.find? (· ≠ l) else none

/-- What the loop over the literals of a large clause finds (propdense.c:49-67). -/
inductive Scan
  | satisfied
  | falsified
  | unit (l : Nat)
  | undecided
  deriving DecidableEq, Repr

/-- The loop over the literals of a large clause (propdense.c:46-67), where `unit` is the
variable `unit`, none for `INVALID_LIT`. -/
def State.scan (s : State) (notLit : Nat) : List Nat → Option Nat → Scan
  | [], none => .falsified
  | [], some u => .unit u
  | other :: rest, unit =>
    if other = notLit then s.scan notLit rest unit
    else if s.values other < 0 then s.scan notLit rest unit
    else if s.values other > 0 then .satisfied
    else match unit with
      | none => s.scan notLit rest (some other)
      | some _ => .undecided

/-- One watch in `non_watching_propagate_literal` (propdense.c:20-78), and whether there is
no conflict. -/
def State.propagateWatch (s : State) (notLit r : Nat) : State × Bool :=
  if (s.clause r).garbage then (s, true)
  else match s.binaryOther notLit r with
    | some other =>
      if s.values other > 0 then (s, true)
      else if s.values other < 0 then (s, false)
      else if s.removed (other / 2) then (s, true)
      else (s.learnedUnit other, true)
    | none =>
      match s.scan notLit (s.clause r).lits none with
      | .satisfied => (s.markGarbage r, true)
      | .falsified => (s, false)
      | .unit u => (s.learnedUnit u, true)
      | .undecided => (s, true)

/-- The loop over the watches (propdense.c:20-78). -/
def State.propagateWatches (s : State) (notLit : Nat) : List Nat → State × Bool
  | [] => (s, true)
  | r :: rs =>
    match s.propagateWatch notLit r with
    | (s, false) => (s, false)
    | (s, true) => s.propagateWatches notLit rs

/-- The part of the occurrence list of `l` that is connected: all of it during elimination
(`kissat_connect_irredundant_large_clauses`, watch.c:169-208), but only some large clauses during forward subsumption. -/
def State.connected (s : State) (conn : Nat → Nat → Bool) (l : Nat) : List Nat :=
  (s.occurrences l).filter (conn l)

/-- The loop of `kissat_dense_propagate` (propdense.c:93-94).  The number of iterations is bounded by
`fuel` only to have a definition by recursion. -/
def State.densePropagateLoop (s : State) (conn : Nat → Nat → Bool) : Nat → State × Bool
  | 0 => (s, true)
  | fuel + 1 =>
    if s.propagate < s.trail.length then
      let lit := s.trail.getD s.propagate 0
      let s := { s with propagate := s.propagate + 1 }
      match s.propagateWatches (neg lit) (s.connected conn (neg lit)) with
      | (s, false) => (s, false)
      | (s, true) => s.densePropagateLoop conn fuel
    else (s, true)

/-- `kissat_dense_propagate` (propdense.c:86-108).  Every iteration takes another literal
from the trail, and no variable is twice on it. -/
def State.densePropagate (s : State) (conn : Nat → Nat → Bool) : State × Bool :=
  match s.densePropagateLoop conn (s.trail.length + s.exports.length) with
  | (s, true) => (s, true)
  | (s, false) => (s.learnedEmpty, false)

/-- Marking the large clauses with a true literal (eliminate.c:183-197). -/
def State.flushSatisfied (s : State) : List Nat → State
  | [] => s
  | r :: rs =>
    if (s.clause r).garbage || (s.clause r).lits.length = 2 then s.flushSatisfied rs
    else (s.markGarbage r).flushSatisfied rs

/-- The loop over the units (eliminate.c:175-204). -/
def State.flushUnits (s : State) (conn : Nat → Nat → Bool) : List Nat → State
  | [] => s
  | unit :: units => (s.flushSatisfied (s.connected conn unit)).flushUnits conn units

/-- `kissat_flush_units_while_connected` (eliminate.c:160-205). -/
def State.flushUnitsWhileConnected (s : State) (conn : Nat → Nat → Bool := fun _ _ => true) : State :=
  if s.propagate = s.trail.length then s
  else match s.densePropagate conn with
    | (s', false) => s'
    | (s', true) => s'.flushUnits conn (s'.trail.drop s.propagate)

/-- `resume_watching_large_clauses_after_elimination` (dense.c:141-197), without watching. -/
def State.flushEliminated (s : State) : List Nat → State
  | [] => s
  | r :: rs =>
    if (s.clause r).garbage || (s.clause r).lits.length = 2 then s.flushEliminated rs
    else if (s.clause r).lits.any fun l => s.values l > 0 || s.removed (l / 2) then
      (s.markGarbage r).flushEliminated rs
    else s.flushEliminated rs

end Verif.Simp
