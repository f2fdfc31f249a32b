import Verif.Model.Core.State

/-! # Backtracking: `backtrack.c` -/

namespace Verif.Core

open Verif.Spec (neg)

/-- One iteration of the loop over the trail in
`kissat_backtrack_without_updating_phases` (backtrack.c:94-112, 115-133; the two
copies differ only in heap and queue updates).  The solver's trail is the part
kept so far (`begin..q`). -/
def backtrackLiteral (newLevel : Nat) (s : Solver) (lit : Nat) : Solver :=
  if s.lev lit ≤ newLevel then
    { s with
      assigned := upd s.assigned (lit / 2)
        { s.assigned (lit / 2) with trail := s.trail.length }
      trail := s.trail ++ [lit] }
  else
    { s with
      values := upd (upd s.values lit 0) (neg lit) 0
      unassigned := s.unassigned + 1 }

/-- `kissat_backtrack_without_updating_phases` (backtrack.c:72-148). -/
def Solver.backtrack (s : Solver) (newLevel : Nat) : Solver :=
  if s.level ≤ newLevel then s
  else
    match s.frames[newLevel]? with
    | none => s
    | some f =>
      let t := (s.trail.drop f.trail).foldl (backtrackLiteral newLevel)
        { s with frames := s.frames.take newLevel, trail := s.trail.take f.trail }
      { t with level := newLevel, propagate := f.trail }

/-- `kissat_backtrack_after_conflict` (backtrack.c:156-161). -/
def Solver.backtrackAfterConflict (s : Solver) (newLevel : Nat) : Solver :=
  let s := if s.level ≠ 0 then s.backtrack (s.level - 1) else s
  s.backtrack newLevel

end Verif.Core
