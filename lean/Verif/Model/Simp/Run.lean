import Verif.Model.Simp.Eliminate
import Verif.Model.Simp.Forward
import Verif.Model.Simp.Fastel
import Verif.Model.Simp.Substitute
import Verif.Model.Simp.Probe
import Verif.Model.Simp.Vivify
import Verif.Model.Simp.Factor
import Verif.Model.Simp.Congruence
import Verif.Model.Simp.Sweep

/-!
# Runs of the simplification techniques
-/

namespace Verif.Simp

open Verif.Spec Verif.Model

/-- The internal literal of an external literal if external variables are imported in order
(`kissat_import_literal`, import.c:108-136). -/
def internal (e : Int) : Nat := 2 * (e.natAbs - 1) + if e < 0 then 1 else 0

/-- A solver with the variables 1, …, n and the given clauses, after `kissat_add`
(internal.c:300-470).  Adding clauses which get simplified while they are added is modelled in
`Model/Api.lean`. -/
def State.ofClauses (n : Nat) (cnf : List (List Int)) : State where
  exports := (List.range n).map fun (v : Nat) => (v : Int) + 1
  imports := ⟨0, false, false⟩ :: (List.range n).map fun v => ⟨2 * v, true, false⟩
  values := fun _ => 0
  extend := []
  eliminated := []
  etrail := []
  extended := false
  trail := []
  propagate := 0
  arena := cnf.map fun c => ⟨c.map internal, false, false⟩
  inconsistent := false
  removed := fun _ => false
  proof := []

/-- Clauses which are stored as they are: literals of the variables 1, …, n, at least two, no duplicates, no
complementary ones. -/
def Clean (n : Nat) (cnf : List (List Int)) : Prop :=
  ∀ c ∈ cnf, 2 ≤ c.length ∧ c.Nodup ∧ ∀ e ∈ c, e ≠ 0 ∧ e.natAbs ≤ n ∧ - e ∉ c

/-- States reached from the states `I` by any sequence of simplification techniques with any
choices of the heuristics. -/
inductive Reach (I : State → Prop) : State → Prop
  | start {s : State} : I s → Reach I s
  /-- bounded variable elimination with any schedule -/
  | eliminate {s : State} (sched : List (ElimOptions × Nat)) : Reach I s →
      (∀ e ∈ sched, e.1.kitten.Sound) → Reach I (s.eliminateLoop sched)
  /-- forward subsumption with any candidates -/
  | forward {s : State} (elig : Nat → Bool) (conn : Nat → Nat → Bool) (flushed : List Nat)
      (candidates : List (Nat × (Nat → List Nat) × (Nat → Nat → Bool))) : Reach I s →
      s.inconsistent = false → Reach I (s.forwardSubsume elig conn flushed candidates)
  /-- fast variable elimination with any number of rounds, and any candidates in each -/
  | fastel {s : State} (rounds : List (List (FastOptions × Nat) × List (FastOptions × Nat))) :
      Reach I s → Reach I (s.fastElimination rounds)
  /-- one round of equivalent literal substitution -/
  | substitute {s : State} (o : SubstituteOptions) : Reach I s → s.inconsistent = false →
      Reach I (s.substituteRound o)
  /-- transitive reduction with any schedule -/
  | transitive {s : State} (sched : List (Nat × Nat × List Nat)) : Reach I s → s.inconsistent = false →
      Reach I (s.transitiveReduction sched)
  /-- backbone extraction with any candidates, after complete propagation of binary clauses -/
  | backbone {s s' : State} (rounds : List (List Nat × List Nat)) : Reach I s → s.inconsistent = false →
      s.unitBinary (fun _ => true) = none → s.backbone rounds = some s' → Reach I s'
  /-- one round of vivification with any schedule and any order of propagation -/
  | vivify {s s' : State} (simplified : List Nat) (sched : List (Nat × VivifyOptions)) : Reach I s → s.inconsistent = false →
      s.vivifyRound simplified sched = some s' → Reach I s'
  /-- bounded variable addition with any schedule -/
  | factor {s : State} (bound : Nat) (sched : List (Nat × (Nat → Bool) × List Nat)) : Reach I s → s.inconsistent = false →
      Reach I (s.factorize bound sched)
  /-- congruence closure with any choice of the clauses tried -/
  | congruence {s : State} (o : Congruence.Options) : Reach I s → s.inconsistent = false →
      Reach I (Congruence.congruence s o).solver
  /-- sweeping with any variables, clauses, candidates and order of propagation -/
  | sweep {s : State} (os : List SweepOptions) (order : List Nat) : Reach I s → s.inconsistent = false →
      (∀ o ∈ os, o.kitten.Sound) → Reach I (s.sweep os order)
  /-- propagation at the root level until nothing is left to be done for binary clauses
  (`kissat_probing_propagate`, proprobe.c) -/
  | propagate {s : State} (order : List Nat) : Reach I s → s.inconsistent = false →
      Reach I (s.propagateRoot (fun _ => true) order)
  /-- one literal assigned by propagation at the root level, over any kind of clause
  (`kissat_propagate_literal`, proplit.h:53-277, `kissat_assign` inlineassign.h:33-43) -/
  | unit {s : State} (r u : Nat) : Reach I s → s.inconsistent = false →
      (s.clause r).garbage = false → u ∈ (s.clause r).lits → s.values u = 0 →
      (∀ l ∈ (s.clause r).lits, l ≠ u → s.values l < 0) → s.removed (u / 2) = false →
      Reach I (s.learnedUnit u)
  /-- a root level conflict (`kissat_initially_propagate` propinitially.c, analyze.c:58-63) -/
  | conflict {s : State} (r : Nat) : Reach I s → s.inconsistent = false →
      (s.clause r).garbage = false → (∀ l ∈ (s.clause r).lits, s.values l < 0) → Reach I s.learnedEmpty
  /-- a clause satisfied by a root level unit is deleted (`kissat_mark_clause_as_garbage` in collect.c:16-140,
  watch.c:169-203, dense.c:13-97) -/
  | satisfied {s : State} (r o : Nat) : Reach I s → s.inconsistent = false →
      (s.clause r).garbage = false → o ∈ (s.clause r).lits → 0 < s.values o → Reach I (s.markGarbage r)
  /-- a redundant clause is deleted (`mark_less_useful_clauses_as_garbage`, reduce.c:102-151) -/
  | reduce {s : State} (r : Nat) : Reach I s → s.inconsistent = false →
      (s.clause r).garbage = false → (s.clause r).redundant = true → Reach I (s.markGarbage r)
  /-- leaving dense mode -/
  | resume {s : State} (rs : List Nat) : Reach I s → s.inconsistent = false → Reach I (s.flushEliminated rs)
  /-- `kissat_reset_propagate` (trail.h), and advancing it while propagating -/
  | propagated {s : State} (k : Nat) : Reach I s → s.inconsistent = false → Reach I { s with propagate := k }
  /-- the search learns a clause of at least two literals: it has the RUP property (C38), no variable twice, and none
  which was eliminated -/
  | learn {s : State} (c : List Nat) : Reach I s → s.inconsistent = false → RUP s.formula c → 2 ≤ c.length →
      c.Nodup → (∀ l ∈ c, l / 2 < s.exports.length ∧ s.removed (l / 2) = false ∧ neg l ∉ c) → Reach I (s.newClause c true)
  /-- the search learns a unit -/
  | learnUnit {s : State} (l : Nat) : Reach I s → s.inconsistent = false → RUP s.formula [l] → l / 2 < s.exports.length →
      s.values l = 0 → s.removed (l / 2) = false → Reach I (s.learnedUnit l)

/-- States reached from the given clauses by any sequence of simplification techniques with any
choices of the heuristics. -/
abbrev Run (n : Nat) (cnf : List (List Int)) : State → Prop :=
  Reach fun s => Clean n cnf ∧ s = .ofClauses n cnf

/-- The values if the search has found the assignment `τ` of the internal variables. -/
def State.found (s : State) (τ : Assignment) : Extend.State :=
  { s.toState with values := fun l => if τ (l / 2) = decide (l % 2 = 0) then 1 else -1 }

end Verif.Simp
