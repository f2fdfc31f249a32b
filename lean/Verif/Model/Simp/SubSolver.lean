import Verif.Model.Simp.Sweep
import Verif.Model.KittenRun

/-!
# The sub-solver used for sweeping

The calls of kitten made by `sweep.c` for one variable, over the model of `kitten.c` in `Model/Kitten.lean`.  Which literals are flipped
after the answer `10` (sweep.c:629-666, 681, 1086-1136, 1153-1169) is arbitrary.
-/

namespace Verif.Simp

open Verif.Spec Verif.Model

/-- The clauses copied (`sweep_clause`, sweep.c:241-251, with `kitten_clause`, kitten.c:1820-1822). -/
def subAdd : List (List Nat) → Kitten.Kitten → Option Kitten.Kitten
  | [], k => some k
  | c :: cs, k =>
    match k.clause 0 c none with
    | none => none
    | some k => subAdd cs k

/-- `kitten_assume` for all assumptions (sweep.c:691, 1188-1189, 1212-1213). -/
def subAssume (k : Kitten.Kitten) (assumptions : List Nat) : Kitten.Kitten := assumptions.foldl (fun k a => k.assume a) k

/-- `kitten_flip_literal` for some literals; not observed are its results. -/
def subFlips : List Nat → Kitten.Kitten → Option Kitten.Kitten
  | [], k => some k
  | e :: es, k =>
    match k.flip e with
    | none => none
    | some (k, _) => subFlips es k

/-- Heuristic choices for one call: decisions and phases, the number of rounds before it is given up, and the literals flipped. -/
structure SubChoice where
  choice : Nat → Kitten.Choice
  rounds : Nat
  flips : List Nat

/-- One call: assumptions, `sweep_solve` (sweep.c:39-51), the core for the answer `20` (`save_core`, sweep.c:425-433) and
flipping for the answer `10`.  It is `none` if there is no answer within the given rounds. -/
def subCall (o : SubChoice) (k : Kitten.Kitten) (assumptions : List Nat) : Option (Kitten.Kitten × Option SweepCore) :=
  match (subAssume k assumptions).solve o.choice o.rounds with
  | .done res k =>
    if res = 20 then
      match k.computeCore with
      | none => none
      | some k => k.coreClauses.map fun core => (k, some core)
    else if res = 10 then (subFlips o.flips k).map fun k => (k, none)
    else some (k, none)
  | _ => none

/-- The calls before. -/
def subCalls (o : Nat → SubChoice) : Nat → List (List Nat) → Kitten.Kitten → Option Kitten.Kitten
  | _, [], k => some k
  | n, as :: calls, k =>
    match subCall (o n) k as with
    | none => none
    | some (k, _) => subCalls o (n + 1) calls k

/-- The answers of kitten, for any choice of decisions, phases, limits and flipped literals in each call.  A new kitten tracks antecedents
(`clear_sweeper`, sweep.c:176-197). -/
def subSolver (o : Nat → SubChoice) : SweepKitten := fun env calls assumptions =>
  match Kitten.Kitten.init.track with
  | none => none
  | some k =>
    match subAdd env k with
    | none => none
    | some k =>
      match subCalls o 0 calls k with
      | none => none
      | some k =>
        match subCall (o calls.length) k assumptions with
        | none => none
        | some (_, core) => core

end Verif.Simp
