import Verif.Model.Extend
import Verif.Spec.Drat

/-!
# Solver state of the simplification techniques

Model of the part of `struct kissat` (`internal.h`) that techniques working at decision
level zero on the clauses use.

Simplifications, for all files in this directory:
* a clause reference is the index of the clause in the arena;
* binary clauses, which the code stores inlined in the two watch lists, are entries of
  the arena too;
* full occurrence lists (`solver->watches` in dense mode) are not stored: the occurrences of
  a literal are the live irredundant clauses which contain it, in the order of the arena
  (the code: in the order in which they were connected).  Flushing references to garbage
  clauses from them is therefore invisible;
* scores, schedules, `eliminate`, `subsume`, `factor` and similar flags, statistics and ticks
  are left out: they only determine which candidate is tried next and are arguments of
  the model;
* proof lines are written in external literals coded by `Spec.code` (the encoding in the
  file is in `Model/ProofWriter.lean`).
-/

namespace Verif.Simp

open Verif.Spec Verif.Model

/-- `struct clause` (clause.h:18-38), or a binary clause. -/
structure Clause where
  lits : List Nat
  garbage : Bool
  redundant : Bool
  deriving DecidableEq, Repr

/-- The solver state.  `toState` has the import and export tables, the values (here those of
the root level) and the extension stack. -/
structure State extends Extend.State where
  trail : List Nat
  /-- number of literals on the trail which are propagated -/
  propagate : Nat
  arena : List Clause
  inconsistent : Bool
  /-- flag `eliminated` of internal variables -/
  removed : Nat → Bool
  proof : List Line

/-- Code of the external literal of an internal literal. -/
def State.ext (s : State) (l : Nat) : Nat := code (s.exportLiteral l)

/-- `kissat_dereference_clause` (inline.h:157-172).  Total: an invalid reference yields a
garbage clause. -/
def State.clause (s : State) (r : Nat) : Clause := s.arena.getD r ⟨[], true, false⟩

/-- `ADD_CLAUSE_TO_PROOF` and friends (proof.h:38-78). -/
def State.emitAdd (s : State) (c : List Nat) : State :=
  { s with proof := s.proof ++ [.add (c.map s.ext)] }

/-- `DELETE_CLAUSE_FROM_PROOF` and friends (proof.h:85-116). -/
def State.emitDelete (s : State) (c : List Nat) : State :=
  { s with proof := s.proof ++ [.delete (c.map s.ext)] }

/-- `kissat_assign` at the root level (inlineassign.h:8-77). -/
def State.assignUnit (s : State) (l : Nat) : State :=
  { s with
    values := fun k => if k = l then 1 else if k = neg l then -1 else s.values k
    trail := s.trail ++ [l] }

/-- `kissat_learned_unit` (assign.c:16-20), and assigning a propagated literal at the root
level, which writes the unit as well (inlineassign.h:33-43). -/
def State.learnedUnit (s : State) (l : Nat) : State := (s.assignUnit l).emitAdd [l]

/-- `CHECK_AND_ADD_EMPTY (); ADD_EMPTY_TO_PROOF (); solver->inconsistent = true` -/
def State.learnedEmpty (s : State) : State := { s.emitAdd [] with inconsistent := true }

/-- `new_binary_clause`, `new_large_clause` for a derived clause (clause.c:60-111).  Binary clauses
are always irredundant. -/
def State.newClause (s : State) (c : List Nat) (redundant : Bool) : State :=
  { s.emitAdd c with arena := s.arena ++ [⟨c, false, redundant && c.length ≠ 2⟩] }

/-- `kissat_mark_clause_as_garbage`, `kissat_delete_binary` (clause.c:146-190). -/
def State.markGarbage (s : State) (r : Nat) : State :=
  { s.emitDelete (s.clause r).lits with
    arena := s.arena.set r { s.clause r with garbage := true } }

/-- The occurrences of a literal: `WATCHES (lit)` in dense mode
(`kissat_connect_literal`, inline.h:149-155). -/
def State.occurrences (s : State) (l : Nat) : List Nat :=
  (List.range s.arena.length).filter fun r =>
    !(s.clause r).garbage && !(s.clause r).redundant && (s.clause r).lits.contains l

/-- `kissat_weaken_clause` (weaken.c:36-44). -/
def State.weaken (s : State) (w : Nat) (c : List Nat) : State :=
  { s with toState := s.toState.weakenClause w c }

/-- `kissat_mark_eliminated_variable` (flags.c:77-107). -/
def State.markEliminated (s : State) (v : Nat) : State :=
  { s with
    toState := s.toState.markEliminated v
    removed := fun u => if u = v then true else s.removed u }

/-! ## Clauses of the solver -/

/-- The irredundant clauses and root level units. -/
def State.irr (s : State) : Formula := fun c =>
  (∃ l ∈ s.trail, c = [l]) ∨
    ∃ r, (s.clause r).garbage = false ∧ (s.clause r).redundant = false ∧ c = (s.clause r).lits

/-- All clauses and root level units. -/
def State.formula (s : State) : Formula := fun c =>
  (∃ l ∈ s.trail, c = [l]) ∨ ∃ r, (s.clause r).garbage = false ∧ c = (s.clause r).lits

end Verif.Simp
