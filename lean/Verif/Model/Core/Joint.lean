import Verif.Model.Core.Search
import Verif.Model.Decide

/-!
# Search with its decision variables: `search.c`, `backtrack.c`, `inlineassign.h`, `bump.c`

The model of the search (`Search.lean`) has the order in which variables are tried as an
argument, and the model of the queue and of the heap of scores (`Decide.lean`) has the
sequence of calls as an argument.  Here both run together: assigning and unassigning variables
in the solver calls the queue and the heap, and decisions are made by these.
-/

namespace Verif.Core

open Verif.Spec (neg)
open Verif.Model

variable {α : Type} [LinearOrder α]

/-- The variable has a value on the root level; `flags.fixed` (flags.c:60-66, set in
inlineassign.h:35-36). -/
def Solver.rootValued (s : Solver) (v : Nat) : Bool := s.values (2 * v) != 0 && s.lev (2 * v) == 0

/-- The variable is active: it takes part, was not eliminated and has no value on the root
level (`flags.active`, which flags.c:36-48 resets). -/
def Solver.inUse (s : Solver) (v : Nat) : Prop :=
  v < s.vars ∧ s.removed v = false ∧ s.rootValued v = false

/-- The state `d` of queue and heap belongs to the solver `s`: both have the same values and
the same active variables. -/
structure Linked (s : Solver) (d : Decide.State α) : Prop where
  assigned : ∀ v, d.assigned v = true ↔ s.values (2 * v) ≠ 0
  active : ∀ v, d.active v = true ↔ s.inUse v

/-- Variables unassigned on the way from `s` to `s'` (backtrack.c:11-36): those whose value is
gone or has changed. -/
def undone (s s' : Solver) : List Nat :=
  (List.range s.vars).filter fun v =>
    s.values (2 * v) != 0 && s'.values (2 * v) != s.values (2 * v)

/-- Variables assigned on the way from `s` to `s'` (inlineassign.h:27-32): those which have a
value which they did not have before. -/
def redone (s s' : Solver) : List Nat :=
  (List.range s.vars).filter fun v =>
    s'.values (2 * v) != 0 && s'.values (2 * v) != s.values (2 * v)

/-- Variables which got their value on the root level (inlineassign.h:35-36). -/
def newlyFixed (s s' : Solver) : List Nat :=
  (List.range s.vars).filter fun v => s'.rootValued v && !s.rootValued v

/-- Calls which change the order of variables: `kissat_bump_analyzed` (bump.c:103-112) and
`kissat_reorder` (reorder.c:163-217). -/
def IsBump : Decide.Op α → Prop
  | .moveToFront _ => True
  | .setScore _ _ => True
  | .rescale _ => True
  | _ => False

/-- Execution of a list of calls.  If `b` is set then calls of `kissat_move_to_front` for
active variables in focused mode, `kissat_update_heap` and `kissat_rescale_scores` come anywhere
between. -/
inductive Calls (zero : α) (b : Bool) : List (Decide.Op α) → Decide.State α → Decide.State α → Prop
  | nil (d) : Calls zero b [] d d
  | call {op ops d d1 d'} : Decide.exec zero d op = some d1 → Calls zero b ops d1 d' →
      Calls zero b (op :: ops) d d'
  | bump {op ops d d1 d'} : b = true → IsBump op → Decide.Legal zero true d op →
      Decide.exec zero d op = some d1 → Calls zero b ops d1 d' → Calls zero b ops d d'

/-- The calls made on the way from `s` to `s'`: variables are unassigned
(backtrack.c:128-165), then others assigned (inlineassign.h:7-59), and those on the root level
are removed from queue and heap (flags.c:36-48).  The order of variables within these is any.

Simplifications.  The calls for one variable assigned on the root level are next to each other
in the code; here all assignments come before all removals.  If several conflicts are analysed
in a row then unassigning and assigning alternate.  Assigned literals had the opposite
value or none, so that the variables which change are the ones compared here. -/
def Follows (zero : α) (b : Bool) (s s' : Solver) (d d' : Decide.State α) : Prop :=
  ∃ us as fs : List Nat, us.Perm (undone s s') ∧ as.Perm (redone s s') ∧
    fs.Perm (newlyFixed s s') ∧
    Calls zero b (us.map .unassign ++ (as.map .assign ++ fs.map .deactivate)) d d'

/-- `kissat_next_decision_variable` (decide.c:126-153): the queue, the heap or a random
variable (decide.c:86-124). -/
def Picks (d : Decide.State α) (v : Nat) (d' : Decide.State α) : Prop :=
  d.next = some (v, d') ∨ (d.active v = true ∧ d.assigned v = false ∧ d' = d)

/-- `kissat_switch_search_mode` (mode.c:187-200). -/
def switchMode (zero : α) (d : Decide.State α) : Option (Decide.State α) :=
  Decide.exec zero d (if d.stable then .toFocused else .toStable)

/-- The loop in `kissat_warmup` (warmup.c:22-27) with decisions made by queue or heap.  The
list has the decisions, as in `warmupLoop`. -/
inductive Warms (zero : α) : List (List Nat × Bool) → Solver → Decide.State α → Solver →
    Decide.State α → Prop
  | stop (s d) : Warms zero [] s d s d
  | full {s} (d ds) : s.unassigned = 0 → Warms zero ds s d s d
  | step {s d v d1 phase d2 ds u d'} : s.unassigned ≠ 0 → Picks d v d1 →
      Follows zero false (s.assume (if phase then 2 * v else neg (2 * v)))
        (propagateBeyond (s.vars + 1) (s.assume (if phase then 2 * v else neg (2 * v))))
        (d1.assign v) d2 →
      Warms zero ds
        (propagateBeyond (s.vars + 1) (s.assume (if phase then 2 * v else neg (2 * v)))) d2 u d' →
      Warms zero (([v], phase) :: ds) s d u d'

/-- What an iteration of the search loop which does not end it does with queue and heap after
propagation, which led to `s`; `t'` is the search after the iteration.  The cases are those of
`iteration` (search.c:194-224). -/
def After (zero : α) (o : Oracle) (s : Solver) (conflict : Option Conflict) (s' : Solver)
    (d d' : Decide.State α) : Prop :=
  match conflict with
  | some _ =>
    -- `kissat_analyze`: bumping, backtracking and assignment of the learned literal
    Follows zero true s s' d d'
  | none =>
    if s.iterating then d' = d
    else
      match o.reducing with
      | some _ =>
        -- `kissat_reduce` goes to the root level if there are units to be flushed
        if s.unflushed ≠ 0 then
          ∃ d1, Follows zero false s (s.backtrack 0) d d1 ∧
            Follows zero false (s.backtrack 0) s' d1 d'
        else d' = d
      | none =>
        if o.switching then switchMode zero d = some d'
        else
          match o.restarting with
          | some level =>
            -- `reuse_trail` (restart.c:54-110) looks for the next decision variable
            ∃ v d1, (Picks d v d1 ∨ d1 = d) ∧ Follows zero false s (s.backtrack level) d1 d'
          | none =>
            if o.reordering then Calls zero true [] d d'
            else if o.rephasing then
              ∃ d1 d2, Follows zero false s (s.backtrack 0) d d1 ∧
                Follows zero false (s.backtrack 0) s.flushToRoot d1 d2 ∧
                match o.warming with
                | none => d' = d2
                | some ds => ∃ u d3, Warms zero ds s.flushToRoot d2 u d3 ∧
                    Follows zero false u (u.backtrack 0) d3 d'
            else
              -- `kissat_decide`
              ∃ v d1, Picks d v d1 ∧ o.order.head? = some v ∧ d' = d1.assign v

/-- One iteration of the loop in `kissat_search` (search.c:194-224) which goes on, with queue
and heap.  The order of the oracle has all variables; the first of them is the one found
by queue or heap. -/
def JointStep (zero : α) (o : Oracle) (t : Search) (d : Decide.State α) (t' : Search)
    (d' : Decide.State α) : Prop :=
  (∀ v, v ∈ o.order ↔ v < t.s.vars ∧ t.s.removed v = false) ∧
  iteration o t = .next t' ∧
  ∃ d1, Follows zero false t.s (searchPropagate t.s).1 d d1 ∧
    After zero o (searchPropagate t.s).1 (searchPropagate t.s).2 t'.s d1 d'

/-- Iterations of the search loop with queue and heap. -/
inductive JointRun (zero : α) (t : Search) (d : Decide.State α) : Search → Decide.State α → Prop
  | refl : JointRun zero t d t d
  | step {t1 d1 o t2 d2} : JointRun zero t d t1 d1 → JointStep zero o t1 d1 t2 d2 →
      JointRun zero t d t2 d2

end Verif.Core
