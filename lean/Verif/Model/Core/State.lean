import Verif.Spec.Drat

/-!
# Solver state of the CDCL core

Model of the part of `struct kissat` (`internal.h`) that the search loop uses.

Simplifications, for all files in this directory:
* a clause reference is the index of the clause in the arena, not a word offset
  (`arena.c`/`clause.h` layout is modelled separately);
* arrays indexed by literals or variables are functions;
* saved/target/best phases, scores, queue, glue, usage counts, statistics other
  than conflicts and decisions, ticks and averages are left out: they only feed
  heuristics, which are arguments of the model;
* the marks of `struct assigned` used by conflict analysis are kept in a separate
  record which lives as long as the analysis, since they are all reset at its end;
* `fixed` and `active` flags: `removed v` says variable `v` was eliminated or
  substituted, so that it occurs in no clause.
-/

namespace Verif.Core

open Verif.Spec (neg)

/-- `struct assigned` (assign.h:10-26): reason and its `binary` bit.  `unit` is
`UNIT_REASON`, `decision` is `DECISION_REASON` (assign.h:6-7). -/
inductive Reason
  | unit
  | decision
  | binary (other : Nat)
  | large (ref : Nat)
  deriving DecidableEq, Repr

/-- `struct assigned` (assign.h:10-26) without the analysis marks. -/
structure Assigned where
  level : Nat
  trail : Nat
  reason : Reason
  deriving DecidableEq, Repr

/-- `struct clause` (clause.h:18-38) without glue, usage and inprocessing marks. -/
structure Clause where
  lits : List Nat
  garbage : Bool
  redundant : Bool
  searched : Nat
  deriving DecidableEq, Repr

/-- `union watch` (watch.h:12-50): a binary watch holds the other literal, a large
watch is the pair of a blocking literal and a clause reference. -/
inductive Watch
  | binary (other : Nat)
  | large (blocking ref : Nat)
  deriving DecidableEq, Repr

/-- `struct frame` (frames.h:12-20). -/
structure Frame where
  decision : Nat
  trail : Nat
  deriving DecidableEq, Repr

/-- A line of the clausal proof in internal literals (proof.c:317-404). -/
abbrev Line := Verif.Spec.Line

/-- The options the modelled functions read (options.h). -/
structure Options where
  jumpreasons : Bool
  /-- `solver->classification.bigbig`, not an option but constant during propagation -/
  bigbig : Bool
  chrono : Bool
  chronolevels : Nat
  otfs : Bool
  minimize : Bool
  minimizedepth : Nat
  shrink : Nat
  eagersubsume : Nat
  deriving Repr

/-- The solver state. -/
structure Solver where
  /-- number of internal variables -/
  vars : Nat
  /-- eliminated or substituted variables -/
  removed : Nat → Bool
  /-- `solver->values`, indexed by literal: 1, 0, -1 -/
  values : Nat → Int
  /-- `solver->assigned`, indexed by variable -/
  assigned : Nat → Assigned
  trail : List Nat
  /-- `solver->propagate` as index into the trail -/
  propagate : Nat
  /-- `solver->frames` without the frame of level zero: entry `i` is level `i + 1` -/
  frames : List Frame
  level : Nat
  unassigned : Nat
  unflushed : Nat
  /-- `solver->watches`, indexed by literal -/
  watches : Nat → List Watch
  arena : List Clause
  inconsistent : Bool
  iterating : Bool
  /-- `solver->last_learned`; `none` is `INVALID_REF` -/
  lastLearned : List (Option Nat)
  conflicts : Nat
  decisions : Nat
  /-- proof lines written so far -/
  proof : List Line
  options : Options
  /-- not in the code and not read by any function: garbage was collected on a positive
  decision level since all clauses were watched anew.  Used to state what collection does to the watch invariant. -/
  loose : Bool := false

/-- Array update. -/
def upd {α : Type} (f : Nat → α) (i : Nat) (v : α) : Nat → α := fun j => if j = i then v else f j

/-- `kissat_dereference_clause` (inline.h:157-172).  Total: an invalid reference
yields a garbage clause without literals. -/
def Solver.clause (s : Solver) (ref : Nat) : Clause :=
  s.arena.getD ref ⟨[], true, false, 2⟩

/-- `LEVEL (LIT)` (internal.h:232). -/
def Solver.lev (s : Solver) (l : Nat) : Nat := (s.assigned (l / 2)).level

/-- `kissat_push_blocking_watch`, `kissat_push_binary_watch` (inline.h:75-91). -/
def Solver.pushWatch (s : Solver) (l : Nat) (w : Watch) : Solver :=
  { s with watches := upd s.watches l (s.watches l ++ [w]) }

/-- The reference of a large watch. -/
def Watch.ref? : Watch → Option Nat
  | .binary _ => none
  | .large _ r => some r

/-- `kissat_remove_blocking_watch` (watch.c:44-79). -/
def Solver.unwatch (s : Solver) (l ref : Nat) : Solver :=
  { s with watches := upd s.watches l ((s.watches l).filter fun w => w.ref? ≠ some ref) }

/-- `kissat_watch_reference` (inline.h:142-147). -/
def Solver.watchReference (s : Solver) (a b ref : Nat) : Solver :=
  (s.pushWatch a (.large b ref)).pushWatch b (.large a ref)

/-- `kissat_watch_binary` (inline.h:101-105). -/
def Solver.watchBinary (s : Solver) (a b : Nat) : Solver :=
  (s.pushWatch a (.binary b)).pushWatch b (.binary a)

/-- Emission of a proof line (proof.c:317-404). -/
def Solver.emit (s : Solver) (l : Line) : Solver := { s with proof := s.proof ++ [l] }

/-- Modification of a clause in the arena. -/
def Solver.setClause (s : Solver) (ref : Nat) (c : Clause) : Solver :=
  { s with arena := s.arena.set ref c }

/-- The value part of `kissat_assign` (inlineassign.h:26-33, 47-48, 61-77). -/
def Solver.assignCore (s : Solver) (level lit : Nat) (reason : Reason) : Solver :=
  { s with
    values := upd (upd s.values lit 1) (neg lit) (-1)
    unassigned := s.unassigned - 1
    unflushed := if level = 0 then s.unflushed + 1 else s.unflushed
    trail := s.trail ++ [lit]
    assigned := upd s.assigned (lit / 2) ⟨level, s.trail.length, reason⟩ }

/-- `kissat_assign` (inlineassign.h:8-78): at level zero a non unit reason writes
the unit clause to the proof and becomes `UNIT_REASON`. -/
def Solver.assign (s : Solver) (level lit : Nat) (reason : Reason) : Solver :=
  if level = 0 then
    if reason = .unit then s.assignCore level lit .unit
    else (s.assignCore level lit .unit).emit (.add [lit])
  else s.assignCore level lit reason

/-- `kissat_assignment_level` (inlineassign.h:80-98). -/
def Solver.assignmentLevel (s : Solver) (lit : Nat) (lits : List Nat) : Nat :=
  lits.foldl (fun res other => if other = lit then res else max res (s.lev other)) 0

/-- `kissat_assign_unit` and `kissat_original_unit` (assign.c:8-14, 22-24). -/
def Solver.assignUnit (s : Solver) (lit : Nat) : Solver := s.assign 0 lit .unit

/-- `kissat_learned_unit` (assign.c:16-20). -/
def Solver.learnedUnit (s : Solver) (lit : Nat) : Solver := (s.assignUnit lit).emit (.add [lit])

/-- `kissat_assign_decision` (assign.c:26-30). -/
def Solver.assignDecision (s : Solver) (lit : Nat) : Solver := s.assign s.level lit .decision

/-- The reason after jumping (assign.c:38-42 and fastassign.h:12-20). -/
def jumpReason (a : Assigned) (jump : Bool) (other : Nat) : Nat :=
  if jump ∧ a.level ≠ 0 then
    match a.reason with
    | .binary r => r
    | _ => other
  else other

/-- `kissat_assign_binary` (assign.c:32-45). -/
def Solver.assignBinary (s : Solver) (lit other : Nat) : Solver :=
  let a := s.assigned (other / 2)
  s.assign a.level lit (.binary (jumpReason a s.options.jumpreasons other))

/-- `kissat_fast_binary_assign` (fastassign.h:9-24).  The level argument is the
level of the propagated literal, whose variable is the one of `other`. -/
def Solver.fastAssignBinary (s : Solver) (level lit other : Nat) : Solver :=
  let a := s.assigned (other / 2)
  s.assign level lit
    (.binary (jumpReason a (s.options.jumpreasons && s.options.bigbig) other))

/-- `kissat_assign_reference` (assign.c:47-59) and `kissat_fast_assign_reference`
(fastassign.h:26-39). -/
def Solver.assignReference (s : Solver) (lit ref : Nat) : Solver :=
  s.assign (s.assignmentLevel lit (s.clause ref).lits) lit (.large ref)

/-- `kissat_fixed` (inline.h:29-37). -/
def Solver.fixed (s : Solver) (lit : Nat) : Int :=
  if s.values lit = 0 then 0 else if s.lev lit ≠ 0 then 0 else s.values lit

/-- A conflict: either the binary conflict clause `solver->conflict`
(`kissat_binary_conflict`, inline.h:232-241) or a clause in the arena. -/
inductive Conflict
  | binary (a b : Nat)
  | large (ref : Nat)
  deriving DecidableEq, Repr

/-- Literals of the conflicting clause. -/
def Solver.conflictLits (s : Solver) : Conflict → List Nat
  | .binary a b => [a, b]
  | .large r => (s.clause r).lits

end Verif.Core
