import Verif.Model.Decide

/-!
# Phases: `phases.c`, `rephase.c`, `backtrack.c`, `inlineassign.h`

Which values variables get when they are decided.  Arrays are lists; accesses out of range are the result `none`.
Renumbering of variables (compact.c:288-318) and new variables are not modelled.
-/

namespace Verif.Model.Phases

/-- The parts of the solver phases depend on.  `initial` is `INITIAL_PHASE` (decide.h:12). -/
structure State where
  vars : Nat
  initial : Int
  stable : Bool
  probing : Bool
  values : List Int
  unassigned : Nat
  best : List Int
  saved : List Int
  target : List Int
  targetAssigned : Nat
  bestAssigned : Nat
  rephased : Nat

/-- `kissat_assigned` (internal.h:260-263). -/
def State.assigned (s : State) : Nat := s.vars - s.unassigned

/-- The loop of `save_phases` (phases.c:48-56), where `v` moves by two. -/
def saveLoop : List Int → List Int → Option (List Int)
  | [], [] => some []
  | p :: ps, v :: _ :: vs => (saveLoop ps vs).map fun r => (if v ≠ 0 then v else p) :: r
  | _, _ => none

/-- The first half of `kissat_update_target_and_best_phases` (backtrack.c:51-59). -/
def State.updateTarget (s : State) : Option State :=
  if s.targetAssigned < s.assigned then
    (saveLoop s.target s.values).map fun t => { s with targetAssigned := s.assigned, target := t }
  else some s

/-- The second half (backtrack.c:61-69). -/
def State.updateBest (s : State) : Option State :=
  if s.bestAssigned < s.assigned then
    (saveLoop s.best s.values).map fun t => { s with bestAssigned := s.assigned, best := t }
  else some s

/-- `kissat_update_target_and_best_phases` (backtrack.c:38-70). -/
def State.update (s : State) : Option State :=
  if s.probing then some s
  else if s.stable = false then some s
  else s.updateTarget.bind State.updateBest

/-- `kissat_assign` (inlineassign.h:7-59), the part concerning phases. -/
def State.assign (s : State) (lit : Nat) : Option State :=
  let notLit := if lit % 2 = 0 then lit + 1 else lit - 1
  if lit < s.values.length ∧ notLit < s.values.length ∧ lit / 2 < s.saved.length then
    some { s with
      values := (s.values.set lit 1).set notLit (-1)
      unassigned := s.unassigned - 1
      saved := if s.probing then s.saved else s.saved.set (lit / 2) (if lit % 2 = 1 then -1 else 1) }
  else none

/-- `unassign` (backtrack.c:11-18). -/
def State.unassign (s : State) (lit : Nat) : Option State :=
  let notLit := if lit % 2 = 0 then lit + 1 else lit - 1
  if lit < s.values.length ∧ notLit < s.values.length then
    some { s with values := (s.values.set lit 0).set notLit 0, unassigned := s.unassigned + 1 }
  else none

/-- The loop of `rephase_best` (rephase.c:40-55). -/
def bestLoop : List Int → List Int → Option (List Int)
  | s, [] => some s
  | s :: ss, b :: bs => (bestLoop ss bs).map fun r => (if b ≠ 0 then b else s) :: r
  | [], _ :: _ => none

/-- Kinds of rephasing (rephase.c:86-89). -/
inductive Kind
  | best | walking | inverted | original
  deriving DecidableEq

/-- `rephase_schedule` (rephase.c:86-89). -/
def schedule : List Kind := [.best, .walking, .inverted, .best, .walking, .original]

/-- The functions of the schedule (rephase.c:40-84).  `walk` is the assignment local search exports if it improved
(walk.c:783-818). -/
def State.reset (s : State) (walk : Option (List Int)) : Kind → Option State
  | .best => (bestLoop s.saved s.best).map fun r => { s with saved := r }
  | .original => some { s with saved := List.replicate s.vars s.initial ++ s.saved.drop s.vars }
  | .inverted => some { s with saved := List.replicate s.vars (-s.initial) ++ s.saved.drop s.vars }
  | .walking =>
    match walk with
    | none => some s
    | some vs => if vs.length = s.vars then some { s with saved := vs ++ s.saved.drop s.vars } else none

/-- `INC (rephased)` and `reset_phases` (rephase.c:109-137). -/
def State.rephase (s : State) (walk : Option (List Int)) : Option State :=
  let s := { s with rephased := s.rephased + 1 }
  match schedule[(s.rephased - 1) % schedule.length]? with
  | none => none
  | some kind =>
    (s.reset walk kind).map fun s =>
      let s := { s with target := s.saved.take s.vars ++ s.target.drop s.vars }
      let s := { s with targetAssigned := 0 }
      if kind = .best then { s with bestAssigned := 0 } else s

/-- Calls.  `remove` and `insert` are changes of the number of unassigned variables when variables are removed or
come back (flags.c:5-75); `mode` and `probe` set the flags `stable` and `probing`; `walk` is local search or warm-up
outside of rephasing (walk.c:783-818). -/
inductive Op
  | assign (lit : Nat)
  | unassign (lit : Nat)
  | update
  | rephase (walk : Option (List Int))
  | walk (values : List Int)
  | remove
  | insert
  | mode (stable : Bool)
  | probe (probing : Bool)

/-- Execution of a call. -/
def exec (s : State) : Op → Option State
  | .assign lit => s.assign lit
  | .unassign lit => s.unassign lit
  | .update => s.update
  | .rephase walk => s.rephase walk
  | .walk vs => if vs.length = s.vars then some { s with saved := vs ++ s.saved.drop s.vars } else none
  | .remove => some { s with unassigned := s.unassigned - 1 }
  | .insert => some { s with unassigned := s.unassigned + 1 }
  | .mode b => some { s with stable := b }
  | .probe b => some { s with probing := b }

/-- Execution of a list of calls. -/
def run : State → List Op → Option State
  | s, [] => some s
  | s, op :: ops => (exec s op).bind fun s => run s ops

/-- The state after `kissat_increase_phases` (phases.c:20-28) for `vars` variables. -/
def State.init (vars : Nat) (initial : Int) : State :=
  ⟨vars, initial, false, false, List.replicate (2 * vars) 0, vars, List.replicate vars 0, List.replicate vars 0,
   List.replicate vars 0, 0, 0, 0⟩

end Verif.Model.Phases
