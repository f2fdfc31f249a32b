import Verif.Model.Queue
import Verif.Model.Heap

/-!
# Decision variables: `decide.c`, `bump.c`, `flags.c`, `backtrack.c`, `mode.c`

The queue and the score heap together with the flags and values they depend on.  Every
function of the code that touches the queue or the heap of scores is one call here.
Random decision sequences (decide.c:86-124) are the call `decideRandom`.
-/

namespace Verif.Model.Decide

open Verif.Core (upd)
open Verif.Model.Queue (Queue)
open Verif.Model.Heap (Heap)

variable {α : Type} [LinearOrder α]

/-- The parts of the solver decisions depend on.  `assigned idx` is
`solver->values[LIT (idx)] != 0`, `active idx` is `solver->flags[idx].active`. -/
structure State (α : Type) where
  assigned : Nat → Bool
  active : Nat → Bool
  stable : Bool
  queue : Queue
  heap : Heap α

/-- `activate_literal` (flags.c:5-34), for the score computed there.  Variables are enlarged
before (import.c, `kissat_enlarge_variables`, resize.c:44-74). -/
def State.activate (zero : α) (s : State α) (idx : Nat) (score : α) : Option (State α) :=
  if s.active idx then some s
  else
    let queue := s.queue.enqueue s.assigned idx
    match s.heap.update zero idx score with
    | none => none
    | some heap =>
      if s.stable ∧ s.assigned idx = false then
        (heap.push zero idx).map fun heap =>
          { s with active := upd s.active idx true, queue := queue, heap := heap }
      else some { s with active := upd s.active idx true, queue := queue, heap := heap }

/-- `deactivate_variable` (flags.c:36-48). -/
def State.deactivate (s : State α) (idx : Nat) : Option (State α) :=
  let queue := s.queue.dequeue idx
  if s.heap.contains idx then
    (s.heap.pop idx).map fun heap =>
      { s with active := upd s.active idx false, queue := queue, heap := heap }
  else some { s with active := upd s.active idx false, queue := queue }

/-- `kissat_assign` (inlineassign.h:7-59), the part concerning decisions. -/
def State.assign (s : State α) (idx : Nat) : State α :=
  { s with assigned := upd s.assigned idx true }

/-- `unassign` and adding the variable back (backtrack.c:11-36, as called in
backtrack.c:128-165 and 200-260). -/
def State.unassign (zero : α) (s : State α) (idx : Nat) : Option (State α) :=
  let s := { s with assigned := upd s.assigned idx false }
  if s.stable then
    if s.heap.contains idx then some s
    else (s.heap.push zero idx).map fun heap => { s with heap := heap }
  else some { s with queue := s.queue.unassign idx }

/-- `kissat_move_to_front` as called in bump.c:84-107 and reorder.c for active variables
in focused mode. -/
def State.moveToFront (s : State α) (idx : Nat) : Option (State α) :=
  (s.queue.moveToFront s.assigned idx).map fun queue => { s with queue := queue }

/-- `kissat_update_heap` as called in bump.c:54-65, reorder.c and factor.c. -/
def State.setScore (zero : α) (s : State α) (idx : Nat) (score : α) : Option (State α) :=
  (s.heap.update zero idx score).map fun heap => { s with heap := heap }

/-- `kissat_rescale_scores` (bump.c:28-42); `f` is the multiplication by the factor. -/
def State.rescale (s : State α) (f : α → α) : State α := { s with heap := s.heap.rescale f }

/-- The loop of `kissat_update_scores` (bump.c:116-119). -/
def pushActive (zero : α) (active : Nat → Bool) : List Nat → Heap α → Option (Heap α)
  | [], h => some h
  | idx :: l, h =>
    if active idx ∧ h.contains idx = false then
      match h.push zero idx with
      | none => none
      | some h => pushActive zero active l h
    else pushActive zero active l h

/-- `switch_to_stable_mode` with `kissat_update_scores` (mode.c:169-185, bump.c:113-120). -/
def State.toStable (zero : α) (s : State α) : Option (State α) :=
  (pushActive zero s.active (List.range s.queue.vars) s.heap).map fun heap =>
    { s with stable := true, heap := heap }

/-- `switch_to_focused_mode` (mode.c:150-167). -/
def State.toFocused (s : State α) : Option (State α) :=
  s.queue.resetSearch.map fun queue => { s with stable := false, queue := queue }

/-- `kissat_increase_size`/`kissat_enlarge_variables` (resize.c:44-90): new variables whose
links and flags are cleared.  The heap is resized by `kissat_resize_heap`. -/
def State.enlarge (zero : α) (junkScore : Nat → α) (junkPos : Nat → Option Nat) (s : State α)
    (vars : Nat) : State α :=
  if s.queue.vars ≤ vars then
    { s with
      queue := { s.queue with vars := vars }
      heap := s.heap.resize zero junkScore junkPos vars }
  else s

/-- The first loop of `adjust_scores_and_phases_of_fresh_varaibles` (factor.c:846-856). -/
def clearScores (zero : α) : List Nat → Heap α → Option (Heap α)
  | [], h => some h
  | idx :: l, h =>
    match h.update zero idx zero with
    | none => none
    | some h => clearScores zero l h

/-- `adjust_scores_and_phases_of_fresh_varaibles` (factor.c:841-894). -/
def State.fresh (zero : α) (s : State α) (vs : List Nat) : Option (State α) :=
  (clearScores zero vs s.heap).map fun heap =>
    { s with heap := heap, queue := s.queue.addFresh vs }

/-- The loop of `largest_score_unassigned_variable` (decide.c:34-39); `none` is an invalid
access.  The first argument bounds the number of iterations. -/
def largestLoop (assigned : Nat → Bool) : Nat → Heap α → Option (Nat × Heap α)
  | 0, _ => none
  | n + 1, h =>
    if h.count = 0 then none
    else if assigned h.max then
      match h.popMax with
      | none => none
      | some (_, h) => largestLoop assigned n h
    else some (h.max, h)

/-- `kissat_next_decision_variable` (decide.c:126-153) without random decisions. -/
def State.next (s : State α) : Option (Nat × State α) :=
  if s.stable then
    (largestLoop s.assigned (s.heap.count + 1) s.heap).map fun (idx, heap) =>
      (idx, { s with heap := heap })
  else
    (s.queue.lastUnassigned s.assigned).map fun (idx, queue) => (idx, { s with queue := queue })

/-- Options and phases used by `kissat_decide_phase`. -/
structure PhaseInput where
  forcephase : Bool
  target : Int
  phasesaving : Bool
  stable : Bool
  /-- `INITIAL_PHASE`, 1 if the option `phase` is set and -1 otherwise -/
  initial : Int
  switched : Nat
  savedOf : Nat → Int
  targetOf : Nat → Int

/-- `kissat_decide_phase` (decide.c:155-207). -/
def decidePhase (p : PhaseInput) (idx : Nat) : Int :=
  let target : Option Int :=
    if p.forcephase then none
    else if p.target = 0 then none
    else if p.stable ∨ 1 < p.target then some (p.targetOf idx)
    else none
  let saved : Option Int :=
    if p.forcephase then none
    else if p.phasesaving then some (p.savedOf idx)
    else none
  let res : Int :=
    if !p.stable then
      match (p.switched / 2) % 8 with
      | 1 => p.initial
      | 3 => -p.initial
      | _ => 0
    else 0
  let res := if res = 0 then target.getD 0 else res
  let res := if res = 0 then saved.getD 0 else res
  let res := if res = 0 then p.initial else res
  if res < 0 then -1 else 1

/-- The decision literal (decide.c:222-226). -/
def decisionLit (p : PhaseInput) (idx : Nat) : Nat :=
  if decidePhase p idx < 0 then 2 * idx + 1 else 2 * idx

/-- Calls. -/
inductive Op (α : Type)
  | enlarge (vars : Nat) (junkScore : Nat → α) (junkPos : Nat → Option Nat)
  | activate (idx : Nat) (score : α)
  | deactivate (idx : Nat)
  | assign (idx : Nat)
  | unassign (idx : Nat)
  | moveToFront (idx : Nat)
  | setScore (idx : Nat) (score : α)
  | rescale (f : α → α)
  | toStable
  | toFocused
  /-- the new variables of one run of bounded variable addition -/
  | fresh (vs : List Nat)
  /-- selection of a variable, which is then assigned -/
  | decide
  /-- a random decision (decide.c:86-124) picked `idx` -/
  | decideRandom (idx : Nat)

/-- Execution of a call. -/
def exec (zero : α) (s : State α) : Op α → Option (State α)
  | .enlarge n js jp => some (s.enlarge zero js jp n)
  | .activate idx x => s.activate zero idx x
  | .deactivate idx => s.deactivate idx
  | .assign idx => some (s.assign idx)
  | .unassign idx => s.unassign zero idx
  | .moveToFront idx => s.moveToFront idx
  | .setScore idx x => s.setScore zero idx x
  | .rescale f => some (s.rescale f)
  | .toStable => s.toStable zero
  | .toFocused => s.toFocused
  | .fresh vs => s.fresh zero vs
  | .decide => s.next.map fun r => r.2.assign r.1
  | .decideRandom idx => if s.active idx ∧ s.assigned idx = false then some (s.assign idx) else none

/-- Preconditions, from the callers and assertions of the code:
variables exist (`vars ≤ 2^30 - 1`, literal.h), activated variables have no value
(flags.c:30-31), only active variables are unassigned (others are fixed on the root level
or never assigned), only active variables are bumped (bump.c:104) and that only in focused
mode, modes alternate, and a decision is only made while some active variable has no
value (decide.c:10).  If `many` is false then at most one variable is added per run of
bounded variable addition. -/
def Legal (zero : α) (many : Bool) (s : State α) : Op α → Prop
  | .enlarge n _ _ => n ≤ 2 ^ 30 - 1
  | .activate idx _ => idx < s.queue.vars ∧ s.assigned idx = false
  | .deactivate idx => s.active idx = true
  | .assign idx => idx < s.queue.vars
  | .unassign idx => s.active idx = true
  | .moveToFront idx => s.active idx = true ∧ s.stable = false
  | .setScore idx _ => idx < s.queue.vars
  | .rescale f => (∀ a b, a ≤ b → f a ≤ f b) ∧ f zero = zero
  | .toStable => s.stable = false
  | .toFocused => s.stable = true ∧ ∃ idx, s.active idx = true
  | .fresh vs => (∀ v ∈ vs, s.active v = true) ∧ vs.Nodup ∧ (many = false → vs.length ≤ 1)
  | .decide => ∃ idx, s.active idx = true ∧ s.assigned idx = false
  | .decideRandom idx => s.active idx = true ∧ s.assigned idx = false

/-- The state after `kissat_init` (internal.c:21-90): no variables, focused mode. -/
def State.init (prev next : Nat → Option Nat) (stampOf : Nat → Nat) (score : Nat → α)
    (pos : Nat → Option Nat) (stack : Nat → Nat) : State α :=
  ⟨fun _ => false, fun _ => false, false, Queue.init 0 prev next stampOf,
   Heap.init score pos stack⟩

/-- States after sequences of legal calls. -/
inductive Reaches (zero : α) (many : Bool) : State α → Prop
  | init (prev next stampOf score pos stack) :
      Reaches zero many (State.init prev next stampOf score pos stack)
  | step {s op s'} : Reaches zero many s → Legal zero many s op → exec zero s op = some s' →
      Reaches zero many s'

end Verif.Model.Decide
