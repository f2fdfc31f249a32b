import Verif.Model.Simp.Gates

/-!
# Bounded variable elimination (resolve.c, eliminate.c)
-/

namespace Verif.Simp

open Verif.Spec Verif.Model

/-- Options and heuristic arguments of one attempt to eliminate a variable. -/
structure ElimOptions extends GateOptions where
  clslim : Nat
  /-- `solver->bounds.eliminate.additional_clauses` -/
  bound : Nat
  incremental : Bool
  /-- the watch list of the negated literal still has references to garbage clauses -/
  stale : Bool

/-- The resolvents of `lit` (resolve.c:326-352), with the antecedents as computed by
`kissat_get_antecedents` (gates.c:61-104). -/
def Gen.all (g : Gen) (clslim limit lit : Nat) (pos negs : List Nat) : Option Gates → Gen × Bool
  | none => g.outer clslim limit lit pos negs
  | some gates =>
    let ante0 := pos.filter fun r => !gates.pos.contains r
    let ante1 := negs.filter fun r => !gates.neg.contains r
    match g.outer clslim limit lit gates.pos ante1 with
    | (g, false) => (g, false)
    | (g, true) =>
      match g.outer clslim limit (neg lit) gates.neg ante0 with
      | (g, false) => (g, false)
      | (g, true) =>
        if gates.resolve then g.outer clslim limit lit gates.pos gates.neg else (g, true)

/-- `kissat_generate_resolvents` (resolve.c:264-370): the literal of the variable with fewer occurrences
and the resolvents, none if the variable is not to be eliminated. -/
def State.generateResolvents (s : State) (o : ElimOptions) (idx : Nat) :
    State × Option (Nat × List (List Nat)) :=
  let lit := 2 * idx
  let (s, count) := s.countOccurrences o.clslim lit (s.occurrences lit) 0
  let (s, notCount) := s.countOccurrences o.clslim (neg lit) (s.occurrences (neg lit)) 0
  let (lit, count, notCount) :=
    if count > notCount then (neg lit, notCount, count) else (lit, count, notCount)
  if count ≠ 0 ∧ count + notCount > o.occlim then (s, none)
  else if count = 0 then (s, some (lit, []))
  else
    let limit := count + notCount + o.bound
    let pos := s.occurrences lit
    let negs := s.occurrences (neg lit)
    let (s, gates) := s.findGates o.toGateOptions lit pos negs
    if s.values lit ≠ 0 then (s, none)
    else match Gen.all ⟨s, [], 0⟩ o.clslim limit lit pos negs gates with
      | (g, true) => (g.s, some (lit, g.res))
      | (g, false) => (g.s, none)

/-- `connect_resolvents` (eliminate.c:207-255). -/
def State.connectResolvents (s : State) : List (List Nat) → State
  | [] => s
  | r :: rs =>
    if r.any fun other => s.values other > 0 then s.connectResolvents rs
    else match r.filter fun other => ¬ s.values other < 0 with
      | [] => s.learnedEmpty
      | [u] => (s.learnedUnit u).connectResolvents rs
      | c => (s.newClause c false).connectResolvents rs

/-- The loops of `weaken_clauses` (eliminate.c:265-290, 296-321): weaken the clauses with `lit` which
are not satisfied (if `push`) and remove them.  For a binary clause the code only looks at the other
literal; the value of `lit` is zero. -/
def State.weakenLoop (s : State) (lit : Nat) (push : Bool) : List Nat → State
  | [] => s
  | r :: rs =>
    if (s.clause r).garbage then s.weakenLoop lit push rs
    else if !push || (s.clause r).lits.any fun other => s.values other > 0 then
      (s.markGarbage r).weakenLoop lit push rs
    else ((s.weaken lit (s.clause r).lits).markGarbage r).weakenLoop lit push rs

/-- `weaken_clauses` (eliminate.c:257-327). -/
def State.weakenClauses (s : State) (o : ElimOptions) (lit : Nat) : State :=
  let s := s.weakenLoop lit true (s.occurrences lit)
  let negs := s.occurrences (neg lit)
  let s := s.weakenLoop (neg lit) o.incremental negs
  let s := if !o.incremental && (!negs.isEmpty || o.stale) then s.weaken (neg lit) [neg lit] else s
  s.flushUnitsWhileConnected

/-- `eliminate_variable` (eliminate.c:385-414). -/
def State.eliminateVariable (s : State) (o : ElimOptions) (idx : Nat) : State :=
  match s.generateResolvents o idx with
  | (s, none) => s
  | (s, some (lit, res)) =>
    let s := s.connectResolvents res
    let s := if s.inconsistent then s else s.weakenClauses o lit
    s.markEliminated idx

/-- `can_eliminate_variable` (eliminate.c:374-383): active variables only. -/
def State.active (s : State) (idx : Nat) : Bool :=
  idx < s.exports.length && !s.removed idx && s.values (2 * idx) = 0

/-- The loop over the schedule (eliminate.c:468-495).  The schedule, limits and termination are
arguments: any list of candidates. -/
def State.eliminateLoop (s : State) : List (ElimOptions × Nat) → State
  | [] => s
  | (o, idx) :: rest =>
    if s.inconsistent then s
    else if !s.active idx then s.eliminateLoop rest
    else
      let s := s.eliminateVariable o idx
      if s.inconsistent then s
      else s.flushUnitsWhileConnected.eliminateLoop rest

end Verif.Simp
