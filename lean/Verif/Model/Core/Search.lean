import Verif.Model.Core.Propagate
import Verif.Model.Core.Backtrack
import Verif.Model.Core.Minimize
import Verif.Model.Core.Collect

/-! # The search loop: `decide.c`, `reduce.c`, `restart.c`, `search.c`

Heuristics are arguments: every iteration of the loop gets an `Oracle` which says
what the heuristic tests answer.  Probing and elimination (inprocessing) are not
part of this model: it describes runs in which `kissat_probing` and
`kissat_eliminating` answer `false` (for instance with `--probing=false
--eliminate=false`). -/

namespace Verif.Core

open Verif.Spec (neg)

/-- `kissat_push_frame` (frames.h), `kissat_assign_decision` (assign.c:26-30) as used
by `kissat_decide` (decide.c:221-231) and `kissat_internal_assume`
(decide.c:235-244). -/
def Solver.assume (s : Solver) (lit : Nat) : Solver :=
  ({ s with level := s.level + 1, frames := s.frames ++ [⟨lit, s.trail.length⟩] : Solver }).assignDecision lit

/-- `kissat_next_decision_variable` (decide.c:126-153).  `order` is the sequence in
which the heuristic looks at variables: the queue from its search position backwards
(decide.c:9-30), the heap in the order of its maxima (decide.c:32-55) or random
variables (decide.c:86-124).  All three take the first one without value. -/
def nextDecisionVariable (s : Solver) (order : List Nat) : Option Nat :=
  order.find? fun v => s.values (2 * v) == 0

/-- `kissat_decide` (decide.c:209-233).  `phase` is the result of
`kissat_decide_phase`.  `none`: no unassigned variable found. -/
def Solver.decide (s : Solver) (order : List Nat) (phase : Bool) : Option Solver :=
  match nextDecisionVariable s order with
  | none => none
  | some v =>
    let s := { s with decisions := s.decisions + 1 }
    let lit := 2 * v
    some (s.assume (if phase then lit else neg lit))

/-- The loop in `kissat_warmup` (warmup.c:22-27).  Every element of the list is one decision: the
variables the heuristic looks at first (`order` has all others) and the phase.  The list ends
when termination is requested.  Decisions are not counted since `solver->warming` is set.
`none`: no unassigned variable found. -/
def warmupLoop (order : List Nat) : List (List Nat × Bool) → Solver → Option Solver
  | [], s => some s
  | (first, phase) :: ds, s =>
    if s.unassigned = 0 then some s
    else
      match nextDecisionVariable s (first.filter (order.contains ·) ++ order) with
      | none => none
      | some v =>
        warmupLoop order ds
          (propagateBeyond (s.vars + 1) (s.assume (if phase then 2 * v else neg (2 * v))))

/-- `kissat_warmup` (warmup.c:9-54). -/
def warmup (order : List Nat) (ds : List (List Nat × Bool)) (s : Solver) : Option Solver :=
  (warmupLoop order ds s).map (·.backtrack 0)

/-- The test in `collect_reducibles` (reduce.c:63-79): redundant, not garbage, not
the reason of a literal on the trail (`kissat_mark_reason_clauses`, trail.c:18-45).
The test of glue and usage is part of the oracle. -/
def Solver.reducible (s : Solver) (r : Nat) : Bool :=
  (s.clause r).redundant && !(s.clause r).garbage &&
  s.trail.all fun l => (s.assigned (l / 2)).reason != .large r

/-- `mark_less_useful_clauses_as_garbage` (reduce.c:102-151) for a list of
candidates (after `collect_reducibles`, reduce.c:37-94). -/
def markLessUseful (s : Solver) (refs : List Nat) : Solver :=
  refs.foldl (fun s r => if s.reducible r then s.markGarbage r else s) s

/-- `kissat_backtrack_propagate_and_flush_trail` (backtrack.c:163-177).  As in the
code the result of propagation is ignored (there is only an assertion). -/
def Solver.flushToRoot (s : Solver) : Solver :=
  if s.level ≠ 0 then (searchPropagate (s.backtrack 0)).1 else s

/-- The assertion `!conflict` in `kissat_backtrack_propagate_and_flush_trail`
(backtrack.c:171-172) does not hold. -/
def Solver.rootConflict (s : Solver) : Bool :=
  s.level != 0 && (searchPropagate (s.backtrack 0)).2.isSome

/-- `kissat_flush_and_mark_reason_clauses` (trail.c:47-62). -/
def Solver.flushAndMark (s : Solver) : Solver :=
  if s.unflushed ≠ 0 then s.flushToRoot else s

/-- `kissat_reduce` (reduce.c:153-185) before `kissat_sparse_collect` is called.  `refs` are
the clauses the ranking selects. -/
def Solver.markReducible (s : Solver) (refs : List Nat) : Solver := markLessUseful s.flushAndMark refs

/-- `kissat_reduce` (reduce.c:153-198): returns 20 if the solver is inconsistent.
`start` is the first clause `kissat_sparse_collect` considers; `none` if it is not
called.  Simplification: variables are not renumbered (see `Verif.Compact` for that). -/
def reduce (s : Solver) (refs : List Nat) (start : Option Nat) : Solver × Nat :=
  let s := s.markReducible refs
  let s := match start with
    | none => s
    | some start => s.sparseCollect (min start s.arena.length)
  (s, if s.inconsistent then 20 else 0)

/-- Answers of the heuristic tests in one iteration of the search loop. -/
structure Oracle where
  /-- `kissat_terminate` was called (by a signal handler or another thread) in this
  iteration before the place of the check -/
  request : Bool
  /-- `kissat_reducing` and the clauses selected -/
  reducing : Option (List Nat)
  /-- whether `kissat_reduce` collects garbage, and the first clause considered
  (`first_reducible`) -/
  collecting : Option Nat := none
  /-- `kissat_switching_search_mode` -/
  switching : Bool
  /-- `kissat_restarting` and the result of `reuse_trail` -/
  restarting : Option Nat
  /-- `kissat_reordering` -/
  reordering : Bool
  /-- `kissat_rephasing` -/
  rephasing : Bool
  /-- `kissat_rephase` uses local search -/
  walking : Bool := false
  /-- decisions of the warm-up before local search (if `kissat_rephase` uses local search
  and `warmup` is set) -/
  warming : Option (List (List Nat × Bool)) := none
  /-- order in which `kissat_decide` looks at variables -/
  order : List Nat
  /-- phase chosen by `kissat_decide` -/
  phase : Bool

/-- State of `kissat_search`: solver, limits (`none`: not limited) and the
termination flag. -/
structure Search where
  s : Solver
  /-- `limited.conflicts` and `limits.conflicts` -/
  conflictLimit : Option Nat
  /-- `limited.decisions` and `limits.decisions` -/
  decisionLimit : Option Nat
  /-- `termination.flagged` -/
  flagged : Bool

/-- `conflict_limit_hit`, `decision_limit_hit` (search.c:145-165). -/
def limitHit (limit : Option Nat) (counter : Nat) : Bool :=
  match limit with
  | none => false
  | some l => l ≤ counter

/-- What an iteration of the search loop does. -/
inductive Outcome
  /-- the loop goes on -/
  | next (t : Search)
  /-- the loop ends with `res` (zero after `break`) -/
  | done (t : Search) (res : Nat)
  /-- undefined behaviour, violated assertion or non termination in the code -/
  | stuck

/-- Local search is started. -/
def Oracle.localSearch (o : Oracle) : Bool := o.walking || o.warming.isSome

/-- One iteration of the loop in `kissat_search` (search.c:194-224).  `kissat_rephase`
(rephase.c:121-133) goes to the root level and changes phases only, except for the warm-up
(walk.c:960-961).

If going to the root level in `kissat_reduce` or `kissat_rephase` finds a conflict, which the
code ignores (backtrack.c:169-172, an assertion if compiled with these), then the result is 20:
`kissat_reduce` returns it since the solver is inconsistent (reduce.c:197), and after
`kissat_rephase` without local search the next iteration finds a conflict again
(`C01_conflict_again`), for which `kissat_analyze` returns it (analyze.c:528-531).
Simplification: in this case the state is the one in which the root level is reached, and what
is written to the proof after the empty clause is left out.  With local search what
happens is undefined: `kissat_walk` assumes that the solver is not inconsistent, and
`kissat_resume_sparse_mode` (dense.c:203-204) does not restore the watches. -/
def iteration (o : Oracle) (t : Search) : Outcome :=
  match searchPropagate t.s with
  | (s, some conflict) =>
    match analyze s conflict with
    | none => .stuck
    | some (s, res) =>
      let t := { t with s := s, flagged := t.flagged || o.request }
      if res = 0 then .next t else .done t res
  | (s, none) =>
    let t := { t with s := s, flagged := t.flagged || o.request }
    if s.iterating then .next { t with s := { s with iterating := false } }
    else if s.unassigned = 0 then .done t 10
    else if t.flagged then .done t 0
    else
      match o.reducing with
      | some refs =>
        if s.unflushed ≠ 0 ∧ s.rootConflict = true then .done { t with s := s.flushToRoot } 20
        else
          match reduce s refs o.collecting with
          | (s, res) => if res = 0 then .next { t with s := s } else .done { t with s := s } res
      | none =>
        if o.switching then .next t
        else
          match o.restarting with
          | some level => .next { t with s := s.backtrack level }
          | none =>
            if o.reordering then .next t
            else if o.rephasing then
              if s.rootConflict = true then
                if o.localSearch then .stuck else .done { t with s := s.flushToRoot } 20
              else
                match o.warming with
                | none => .next { t with s := s.flushToRoot }
                | some ds =>
                  match warmup o.order ds s.flushToRoot with
                  | none => .stuck
                  | some s => .next { t with s := s }
            else if limitHit t.conflictLimit s.conflicts then .done t 0
            else if limitHit t.decisionLimit s.decisions then .done t 0
            else
              match s.decide o.order o.phase with
              | none => .stuck
              | some s => .next { t with s := s }

/-- The loop in `kissat_search` (search.c:194-224).  `none`: still running after the
given iterations. -/
def searchLoop : List Oracle → Search → Option Outcome
  | [], _ => none
  | o :: os, t =>
    match iteration o t with
    | .next t => searchLoop os t
    | r => some r

/-- `stop_search` (search.c:102-127). -/
def stopSearch (t : Search) : Search :=
  { t with conflictLimit := none, decisionLimit := none, flagged := false }

/-- `kissat_search` (search.c:179-229) without lucky phases and preprocessing. -/
def search (os : List Oracle) (t : Search) : Option Outcome :=
  if t.s.inconsistent then some (.done t 20)
  else
    match searchLoop os t with
    | some (.done t res) => some (.done (stopSearch t) res)
    | r => r

end Verif.Core
