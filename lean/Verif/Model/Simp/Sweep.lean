import Verif.Model.Simp.Forward
import Verif.Model.Simp.Probe

/-!
# Sweeping

`sweep.c`: clauses around a variable are copied to the sub-solver kitten, which is asked for backbone literals and equivalent
literals.  The learned clauses in the core of its answers are written to the proof, then the unit or the equivalence is added, and
equivalent literals are replaced in the irredundant clauses.

Left open (arguments of the model): which variables are tried, which clauses are copied (sweep.c:1270-1344), the candidates
(initialization, refinement and flipping, sweep.c:474-666, 1080-1136), effort limits, the order of watches and the answers of
the sub-solver, for which `SweepKitten.Sound` is required.
-/

namespace Verif.Simp

open Verif.Spec Verif.Model

/-- The clauses of a core in the order in which `kitten_traverse_core_clauses` (kitten.c:1971-2002) passes them, with a flag
for learned ones. -/
abbrev SweepCore := List (Bool × List Nat)

/-- The answers of the sub-solver: given the clauses copied to it, the assumptions of the calls before and the assumptions.  It is
`none` for the answers `10` and `0`, and the core for `20`. -/
abbrev SweepKitten := List (List Nat) → List (List Nat) → List Nat → Option SweepCore

/-- What a core consists of: original clauses, learned clauses with a proof by unit propagation from the ones before,
among them a clause of negated assumptions, and only variables known to the sub-solver. -/
structure SweepCore.Sound (env calls : List (List Nat)) (assumptions : List Nat) (core : SweepCore) : Prop where
  original : ∀ c, (false, c) ∈ core → ∃ d ∈ env, c.Perm d
  learned : ∀ (i : Nat) (c : List Nat), core[i]? = some (true, c) → RUP (fun d => ∃ b, (b, d) ∈ core.take i) c
  failed : ∃ b c, (b, c) ∈ core ∧ ∀ l ∈ c, neg l ∈ assumptions
  known : ∀ b c, (b, c) ∈ core → ∀ l ∈ c, (∃ d ∈ env, ∃ m ∈ d, m / 2 = l / 2) ∨
    (∃ a ∈ assumptions, a / 2 = l / 2) ∨ ∃ as ∈ calls, ∃ a ∈ as, a / 2 = l / 2

/-- The sub-solver only claims what it has a core for.  Assumptions are given for different variables. -/
def SweepKitten.Sound (k : SweepKitten) : Prop := ∀ env calls assumptions core, (∀ a ∈ assumptions, neg a ∉ assumptions) →
  k env calls assumptions = some core → core.Sound env calls assumptions

/-! ## Cores -/

/-- `save_core_clause` (sweep.c:311-345): clauses with a true literal are skipped, as well as original clauses with more than one
literal which is not false. -/
def State.saveCoreClause (s : State) (learned : Bool) (lits : List Nat) : Option (List Nat) :=
  if lits.any fun l => s.values l > 0 then none
  else if !learned && (lits.filter fun l => s.values l = 0).length > 1 then none
  else some lits

/-- `save_core` (sweep.c:425-433). -/
def State.saveCore (s : State) (core : SweepCore) : List (List Nat) :=
  core.filterMap fun e => s.saveCoreClause e.1 e.2

/-- The loop of `add_core` (sweep.c:359-418), with the lemmas which are deleted later.  After the empty clause nothing is deleted
any more. -/
def State.addCoreLoop (s : State) : List (List Nat) → State × List (List Nat)
  | [] => (s, [])
  | c :: cs =>
    if c.any fun l => s.values l > 0 then s.addCoreLoop cs
    else match c.filter fun l => s.values l = 0 with
      | [] => (s.learnedEmpty, [])
      | [unit] => (s.learnedUnit unit).addCoreLoop cs
      | d =>
        let (s, lemmas) := (s.emitAdd d).addCoreLoop cs
        (s, d :: lemmas)

/-- `add_core` (sweep.c:347-423). -/
def State.addCore (s : State) (saved : List (List Nat)) : State × List (List Nat) :=
  if s.inconsistent then (s, []) else s.addCoreLoop saved

/-- `clear_core` (sweep.c:435-458). -/
def State.clearCore (s : State) (lemmas : List (List Nat)) : State :=
  if s.inconsistent then s else lemmas.foldl (fun s c => s.emitDelete c) s

/-- `save_add_clear_core` (sweep.c:460-464). -/
def State.saveAddClearCore (s : State) (core : SweepCore) : State :=
  let (s, lemmas) := s.addCore (s.saveCore core)
  s.clearCore lemmas

/-! ## Copying clauses -/

/-- `sweep_binary` and `sweep_reference` (sweep.c:253-309) for one clause: the solver and the clause copied. -/
def State.sweepClause (s : State) (r : Nat) : State × Option (List Nat) :=
  if (s.clause r).garbage || (s.clause r).redundant then (s, none)
  else if (s.clause r).lits.any fun l => s.values l > 0 then
    if (s.clause r).lits.length = 2 then (s, none) else (s.markGarbage r, none)
  else (s, some ((s.clause r).lits.filter fun l => s.values l = 0))

/-- The clauses copied to the sub-solver (sweep.c:1300-1344), for the references visited. -/
def State.sweepClauses (s : State) : List Nat → State × List (List Nat)
  | [] => (s, [])
  | r :: rs =>
    match s.sweepClause r with
    | (s, none) => s.sweepClauses rs
    | (s, some c) =>
      let (s, env) := s.sweepClauses rs
      (s, c :: env)

/-! ## Substitution -/

/-- A binary clause with `lit` and `other` (sweep.c:856-883).  The flag is false if the loop ends. -/
def State.sweepBinary (s : State) (lit repr r other : Nat) : State × Bool :=
  if other = neg repr then (s, true)
  else if s.values other < 0 then (s, false)
  else if s.values other > 0 then (s, true)
  else if other = repr then (s.learnedUnit lit, false)
  else ((s.newClause [repr, other] false).markGarbage r, true)

/-- The literals of a large clause after substitution, `none` if it is satisfied (sweep.c:892-928). -/
def State.sweepLits (s : State) (lit repr : Nat) : List Nat → Option (List Nat)
  | [] => some []
  | other :: rest =>
    if other = lit then (s.sweepLits lit repr rest).map (repr :: ·)
    else if other = repr then s.sweepLits lit repr rest
    else if other = neg repr then none
    else if s.values other < 0 then s.sweepLits lit repr rest
    else if s.values other > 0 then none
    else (s.sweepLits lit repr rest).map (other :: ·)

/-- A large clause (sweep.c:884-1018).  The clause is changed in place there, here the result gets a new reference. -/
def State.sweepLarge (s : State) (lit repr r : Nat) : State × Bool :=
  match s.sweepLits lit repr (s.clause r).lits with
  | none => (s.markGarbage r, true)
  | some [] => (s.learnedEmpty, false)
  | some [unit] => (s.learnedUnit unit, false)
  | some c => ((s.newClause c (s.clause r).redundant).markGarbage r, true)

/-- The loop over the watches (sweep.c:854-1023). -/
def State.sweepWatches (s : State) (lit repr : Nat) : List Nat → State
  | [] => s
  | r :: rs =>
    if (s.clause r).garbage then s.sweepWatches lit repr rs
    else
      match (match s.binaryOther lit r with
        | some other => s.sweepBinary lit repr r other
        | none => s.sweepLarge lit repr r) with
      | (s, true) => s.sweepWatches lit repr rs
      | (s, false) => s

/-- `substitute_connected_clauses` (sweep.c:822-1044). -/
def State.sweepSubstitute (s : State) (watches : Nat → List Nat) (lit repr : Nat) : State :=
  if s.inconsistent then s
  else if s.values lit ≠ 0 then s
  else if s.values repr ≠ 0 then s
  else s.sweepWatches lit repr ((watches lit).filter fun r => (s.occurrences lit).contains r)

/-! ## Candidates -/

/-- What is tried (sweep.c:1354-1432). -/
inductive SweepAction
  | backbone (lit : Nat)
  | equivalence (lit other : Nat)

/-- `sweep_backbone_candidate` (sweep.c:668-711); candidates are active (sweep.c:1378).  The calls of the sub-solver so far are
passed on. -/
def State.sweepBackbone (s : State) (kitten : SweepKitten) (env calls : List (List Nat)) (lit : Nat) : State × List (List Nat) :=
  if !s.active (lit / 2) then (s, calls)
  else match kitten env calls [neg lit] with
    | none => (s, calls ++ [[neg lit]])
    | some core => (s.saveAddClearCore core, calls ++ [[neg lit]])

/-- The end of `sweep_equivalence_candidates` (sweep.c:1241-1268). -/
def State.sweepMerge (s : State) (watches : Nat → List Nat) (lit other : Nat) (core0 core1 : List (List Nat)) : State :=
  let (s, lemmas0) := s.addCore core0
  let s := s.newClause [lit, neg other] false
  let s := s.clearCore lemmas0
  let (s, lemmas1) := s.addCore core1
  let s := s.newClause [neg lit, other] false
  let s := s.clearCore lemmas1
  if lit < other then
    (s.sweepSubstitute watches other lit).sweepSubstitute watches (neg other) (neg lit)
  else
    (s.sweepSubstitute watches lit other).sweepSubstitute watches (neg lit) (neg other)

/-- `sweep_equivalence_candidates` (sweep.c:1138-1268) if no literal can be flipped.  Candidates are literals of different variables
which are not eliminated, as they are taken from active variables (sweep.c:477-487). -/
def State.sweepEquivalence (s : State) (kitten : SweepKitten) (watches : Nat → List Nat) (env calls : List (List Nat))
    (lit other : Nat) : State × List (List Nat) :=
  if lit / 2 = other / 2 || s.removed (lit / 2) || s.removed (other / 2) || decide (s.exports.length ≤ lit / 2) ||
    decide (s.exports.length ≤ other / 2) then (s, calls)
  else match kitten env calls [neg lit, other] with
    | none => (s, calls ++ [[neg lit, other]])
    | some core0 =>
      match kitten env (calls ++ [[neg lit, other]]) [lit, neg other] with
      | none => (s, calls ++ [[neg lit, other], [lit, neg other]])
      | some core1 =>
        (s.sweepMerge watches lit other (s.saveCore core0) (s.saveCore core1), calls ++ [[neg lit, other], [lit, neg other]])

/-- The loops over the candidates (sweep.c:1361-1432). -/
def State.sweepActions (s : State) (kitten : SweepKitten) (watches : State → Nat → List Nat) (env calls : List (List Nat)) :
    List SweepAction → State
  | [] => s
  | a :: as =>
    if s.inconsistent then s
    else match (match a with
      | .backbone lit => s.sweepBackbone kitten env calls lit
      | .equivalence lit other => s.sweepEquivalence kitten (watches s) env calls lit other) with
      | (s, calls) => s.sweepActions kitten watches env calls as

/-- The choices for one variable. -/
structure SweepOptions where
  kitten : SweepKitten
  /-- references of the clauses visited -/
  visited : List Nat
  /-- the order of the watches -/
  watches : State → Nat → List Nat
  actions : List SweepAction
  /-- clauses connected -/
  connected : Nat → Nat → Bool

/-- `sweep_variable` (sweep.c:1270-1461). -/
def State.sweepVariable (s : State) (o : SweepOptions) : State :=
  let (s, env) := s.sweepClauses o.visited
  let s := match o.kitten env [] [] with
    | some core => s.saveAddClearCore core
    | none => s.sweepActions o.kitten o.watches env [[]] o.actions
  if s.inconsistent || s.propagate = s.trail.length then s
  else (s.densePropagate o.connected).1

/-- The loop of `kissat_sweep` (sweep.c:1669-1694). -/
def State.sweepLoop (s : State) : List SweepOptions → State
  | [] => s
  | o :: os => if s.inconsistent then s else (s.sweepVariable o).sweepLoop os

/-- `kissat_sweep` (sweep.c:1648-1724), where `order` is the order of propagation at the end. -/
def State.sweep (s : State) (os : List SweepOptions) (order : List Nat) : State :=
  if s.inconsistent then s
  else
    let s := s.sweepLoop os
    if s.inconsistent then s
    else ({ s with propagate := 0 } : State).propagateRoot (fun _ => true) order

end Verif.Simp
