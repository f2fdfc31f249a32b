import Verif.Model.Core.State
import Verif.Model.Containers.Sort
import Verif.Model.Decide
import Verif.Spec.Reorder

/-!
# Reordering decision variables: `reorder.c`

Floating point numbers are an ordered type `α` with some operations about which nothing is assumed
(`Spec.Reorder.Ops`).
Reading memory which was not written or lies outside of an array is the result `none`.
-/

namespace Verif.Model.Reorder

open Verif.Core (Solver Clause Watch)
open Verif.Model.Decide (State)
open Verif.Spec.Reorder (Ops)

variable {α : Type} [LinearOrder α]

/-- The number one divided by two that often (reorder.c:31-35). -/
def halved (o : Ops α) : Nat → α
  | 0 => o.one
  | n + 1 => o.half (halved o n)

/-- The array `table` (reorder.c:29-36): only entries from two on are written. -/
def table (o : Ops α) (maxSize size : Nat) : Option α :=
  if 2 ≤ size ∧ size ≤ maxSize then some (halved o (size - 2)) else none

/-- The loop over the literals of a clause (reorder.c:48-55): `none` if a true literal is found, otherwise the number
of unassigned literals found. -/
def unassignedSize (values : Nat → Int) (maxSize : Nat) : List Nat → Nat → Option Nat
  | [], size => some size
  | l :: ls, size =>
    if values l > 0 then none
    else if values l = 0 ∧ size < maxSize then
      if size + 1 = maxSize then some (size + 1) else unassignedSize values maxSize ls (size + 1)
    else unassignedSize values maxSize ls size

/-- One iteration of the loop over clauses (reorder.c:44-59): what is added to which literal. -/
def clauseWeights (o : Ops α) (maxSize : Nat) (s : Solver) (c : Clause) : Option (List (Nat × α)) :=
  if c.redundant then some []
  else if c.garbage then some []
  else
    match unassignedSize s.values maxSize c.lits 0 with
    | none => some []
    | some size => (table o maxSize size).map fun w => c.lits.map fun l => (l, w)

/-- The loop over clauses (reorder.c:40-60).  Leaving it after the last irredundant clause makes no difference. -/
def arenaWeights (o : Ops α) (maxSize : Nat) (s : Solver) : List Clause → Option (List (Nat × α))
  | [] => some []
  | c :: cs =>
    (clauseWeights o maxSize s c).bind fun u => (arenaWeights o maxSize s cs).map fun us => u ++ us

/-- One literal and its watches (reorder.c:70-82). -/
def watchWeights (active : Nat → Bool) (w : α) (lit : Nat) : List Watch → List (Nat × α)
  | [] => []
  | .large _ _ :: ws => watchWeights active w lit ws
  | .binary other :: ws =>
    if other < lit then watchWeights active w lit ws
    else if active (other / 2) = false then watchWeights active w lit ws
    else (lit, w) :: (other, w) :: watchWeights active w lit ws

/-- The loop over literals (reorder.c:66-83). -/
def binaryWeights (active : Nat → Bool) (w : α) (s : Solver) : List (Nat × α) :=
  (List.range (2 * s.vars)).flatMap fun lit =>
    if active (lit / 2) then watchWeights active w lit (s.watches lit) else []

/-- `weights[lit] += weight` (reorder.c:58, 80 and 81). -/
def addWeights (o : Ops α) : List (Nat × α) → List α → Option (List α)
  | [], ws => some ws
  | (l, w) :: us, ws =>
    match ws[l]? with
    | none => none
    | some x => addWeights o us (ws.set l (o.add x w))

/-- The weight of a variable (reorder.c:89-93). -/
def combine (o : Ops α) (pos neg : α) : α := o.add (max pos neg) (o.twice (min pos neg))

/-- The loop over variables (reorder.c:85-99), which overwrites weights of literals by weights of variables. -/
def variableWeights (o : Ops α) (active : Nat → Bool) : List Nat → List α → Option (List α)
  | [], ws => some ws
  | idx :: is, ws =>
    if active idx = false then variableWeights o active is ws
    else
      match ws[2 * idx]?, ws[2 * idx + 1]? with
      | some pos, some neg => variableWeights o active is (ws.set idx (combine o pos neg))
      | _, _ => none

/-- The part of `compute_weights` before the last loop (reorder.c:24-84). -/
def literalWeights (o : Ops α) (maxSize : Nat) (s : Solver) (active : Nat → Bool) : Option (List α) :=
  (arenaWeights o maxSize s s.arena).bind fun us =>
    (table o maxSize 2).bind fun w =>
      addWeights o (us ++ binaryWeights active w s) (List.replicate (2 * s.vars) o.zero)

/-- `compute_weights` (reorder.c:24-101). -/
def computeWeights (o : Ops α) (maxSize : Nat) (s : Solver) (active : Nat → Bool) : Option (List α) :=
  (literalWeights o maxSize s active).bind (variableWeights o active (List.range s.vars))

/-- `less_focused_order` (reorder.c:103-112). -/
def lessFocused (w : Nat → α) (stamp : Nat → Nat) (a b : Nat) : Bool :=
  if w a < w b then true else if w a > w b then false else stamp a < stamp b

/-- `less_stable_order` (reorder.c:114-128). -/
def lessStable (w score : Nat → α) (a b : Nat) : Bool :=
  if w a < w b then true else if w a > w b then false
  else if score a < score b then true else if score a > score b then false
  else b < a

/-- `kissat_move_to_front` for all variables in the list (reorder.c:169-172). -/
def moveAll : List Nat → State α → Option (State α)
  | [], d => some d
  | v :: vs, d => (d.moveToFront v).bind (moveAll vs)

/-- `sort_active_variables_by_weight` and the loop in `reorder_focused` (reorder.c:134-174). -/
def focused (w : Nat → α) (d : State α) : Option (State α) :=
  (Sort.sortStack (lessFocused w d.queue.stampOf) ((List.range d.queue.vars).filter d.active)).bind
    fun sorted => moveAll sorted d

/-- The loop in `reorder_stable` over a stack whose top is the head of the list (reorder.c:184-193). -/
def scoreAll (o : Ops α) (w : Nat → α) : List Nat → State α → Option (State α)
  | [], d => some d
  | v :: vs, d =>
    (d.setScore o.zero v (o.add (d.heap.getScore o.zero v) (w v))).bind (scoreAll o w vs)

/-- `reorder_stable` after the weights are computed (reorder.c:180-196); `f` is the multiplication by the factor in
`kissat_rescale_scores`. -/
def stable (o : Ops α) (f : α → α) (w : Nat → α) (d : State α) : Option (State α) :=
  let d := d.rescale f
  (Sort.sortStack (lessStable w (d.heap.getScore o.zero)) ((List.range d.queue.vars).filter d.active)).bind
    fun sorted => scoreAll o w sorted.reverse d

/-- `kissat_reorder` (reorder.c:198-217). -/
def reorder (o : Ops α) (f : α → α) (maxSize : Nat) (s : Solver) (d : State α) : Option (State α) :=
  (computeWeights o maxSize s d.active).bind fun ws =>
    let w := fun v => ws.getD v o.zero
    if d.stable then stable o f w d else focused w d

end Verif.Model.Reorder
