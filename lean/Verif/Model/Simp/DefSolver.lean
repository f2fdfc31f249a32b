import Verif.Model.Simp.Gates
import Verif.Model.KittenRun

/-!
# The sub-solver used for extracting definitions

The calls of kitten made by `kissat_find_definition`, over the model of `kitten.c` in `Model/Kitten.lean`.
-/

namespace Verif.Simp

open Verif.Spec Verif.Model

/-- Heuristic choices for one call of the search: decisions and phases, the number of rounds before it is given up (ticks limit), and the
random numbers for shuffling clauses before. -/
structure DefChoice where
  choice : Nat → Kitten.Choice
  rounds : Nat
  pick : Nat → Nat → Nat
  pickUnit : Nat → Nat

/-- Exporting clauses with increasing identifiers (definition.c:106-127).  The exception is left out already. -/
def defAdd : Nat → List (List Nat) → Kitten.Kitten → Option Kitten.Kitten
  | _, [], k => some k
  | id, c :: cs, k =>
    match k.clause id c none with
    | none => none
    | some k => defAdd (id + 1) cs k

/-- A search with answer `20` and the core (definition.c:132-137, 145-154). -/
def defSolve (o : DefChoice) (k : Kitten.Kitten) : Option Kitten.Kitten :=
  match k.solve o.choice o.rounds with
  | .done res k => if res = 20 then k.computeCore else none
  | _ => none

/-- The loop which tries to find smaller cores (definition.c:140-163). -/
def defCores (o : Nat → DefChoice) : Nat → Kitten.Kitten → Option Kitten.Kitten
  | 0, k => some k
  | n + 1, k =>
    match k.shrink with
    | none => none
    | some k =>
      match k.shuffle (o n).pick (o n).pickUnit with
      | none => none
      | some k =>
        match defSolve (o n) k with
        | none => none
        | some k => defCores o n k

/-- The learned clauses traversed before the empty one (`traverse_one_sided_core_lemma`, definition.c:53-87). -/
def coreLemmas : List (Bool × List Nat) → List (List Nat)
  | [] => []
  | (false, _) :: cs => coreLemmas cs
  | (true, []) :: _ => []
  | (true, c) :: cs => c :: coreLemmas cs

/-- The sub-solver as used by `kissat_find_definition` (definition.c:91-230) with `cores` further attempts. -/
def defSolver (o : Nat → DefChoice) (cores : Nat) : Kitten := fun cs =>
  match Kitten.Kitten.init.track with
  | none => none
  | some k =>
    match defAdd 0 cs k with
    | none => none
    | some k =>
      match defSolve (o cores) k with
      | none => none
      | some k =>
        match defCores o cores k with
        | none => none
        | some k =>
          match k.coreIds, k.coreClauses with
          | some ids, some clauses => some (ids, coreLemmas clauses)
          | _, _ => none

end Verif.Simp
