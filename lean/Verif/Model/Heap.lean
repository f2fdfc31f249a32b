import Verif.Spec.PriorityQueue
import Verif.Model.Core.State

/-!
# The score heap: `heap.h`, `heap.c`, `inlineheap.h`

Scores are elements of an arbitrary linear order with a zero (the code uses `double`
without NaN).  Simplification: positions are not bounded by `2^31`.  Accesses outside of
the allocated arrays are the result `none` (`undefined`).
-/

namespace Verif.Model.Heap

open Verif.Core (upd)

variable {α : Type} [LinearOrder α]

/-- `struct heap` (heap.h:16-23).  `stack` holds `count` elements; `pos v = none` is
`DISCONTAIN`. -/
structure Heap (α : Type) where
  tainted : Bool
  vars : Nat
  size : Nat
  count : Nat
  stack : Nat → Nat
  score : Nat → α
  pos : Nat → Option Nat

/-- All zero (internal.c `kissat_init`).  The contents of arrays of size zero are
irrelevant. -/
def Heap.init (score : Nat → α) (pos : Nat → Option Nat) (stack : Nat → Nat) : Heap α :=
  ⟨false, 0, 0, 0, stack, score, pos⟩

/-- `kissat_heap_contains` (heap.h:30-32). -/
def Heap.contains (h : Heap α) (idx : Nat) : Bool := decide (idx < h.vars) && (h.pos idx).isSome

/-- `kissat_get_heap_score` (heap.h:39-42). -/
def Heap.getScore (zero : α) (h : Heap α) (idx : Nat) : α := if idx < h.vars then h.score idx else zero

/-- `kissat_empty_heap` (heap.h:44-46). -/
def Heap.empty (h : Heap α) : Bool := h.count = 0

/-- `kissat_max_heap` (heap.h:52-55). -/
def Heap.max (h : Heap α) : Nat := h.stack 0

/-- `kissat_max_score_on_heap` (heap.h:61-71). -/
def Heap.maxScore (zero : α) (h : Heap α) : α :=
  if !h.tainted then zero
  else (List.range' 1 (h.vars - 1)).foldl (fun res i => if h.score i < res then res else h.score i) (h.score 0)

/-- `kissat_resize_heap` (heap.c:44-65).  The new parts of reallocated arrays hold
arbitrary values; the score array of an untainted heap is cleared. -/
def Heap.resize (zero : α) (junkScore : Nat → α) (junkPos : Nat → Option Nat) (h : Heap α)
    (newSize : Nat) : Heap α :=
  if newSize ≤ h.size then h
  else
    { h with
      pos := fun i => if i < h.size then h.pos i else junkPos i
      score := if h.tainted then fun i => if i < h.size then h.score i else junkScore i
        else fun _ => zero
      size := newSize }

/-- `kissat_rescale_heap` (heap.c:67-78); `f` multiplies by the factor. -/
def Heap.rescale (f : α → α) (h : Heap α) : Heap α :=
  { h with score := fun i => if i < h.vars then f (h.score i) else h.score i }

/-- `kissat_enlarge_heap` (heap.c:80-93). -/
def Heap.enlarge (zero : α) (h : Heap α) (newVars : Nat) : Option (Heap α) :=
  if h.size < newVars then none
  else some { h with
    pos := fun i => if h.vars ≤ i ∧ i < newVars then none else h.pos i
    score := if h.tainted then fun i => if h.vars ≤ i ∧ i < newVars then zero else h.score i
      else h.score
    vars := newVars }

/-- The loop of `kissat_bubble_up` with the assignments after it (inlineheap.h:19-31). -/
def bubbleUpLoop (score : Nat → α) (idx : Nat) (stack : Nat → Nat) (pos : Nat → Option Nat)
    (p : Nat) : (Nat → Nat) × (Nat → Option Nat) :=
  if _h : p = 0 then (upd stack p idx, upd pos idx (some p))
  else
    let parentPos := (p - 1) / 2
    let parent := stack parentPos
    if score idx ≤ score parent then (upd stack p idx, upd pos idx (some p))
    else bubbleUpLoop score idx (upd stack p parent) (upd pos parent (some p)) parentPos
termination_by p
decreasing_by omega

/-- `kissat_bubble_up` (inlineheap.h:12-35).  Only called for elements of the heap. -/
def Heap.bubbleUp (h : Heap α) (idx : Nat) : Heap α :=
  match bubbleUpLoop h.score idx h.stack h.pos ((h.pos idx).getD 0) with
  | (stack, pos) => { h with stack := stack, pos := pos }

/-- The larger child (inlineheap.h:46-60), `none` if there is none. -/
def largerChild (score : Nat → α) (stack : Nat → Nat) (count p : Nat) : Option Nat :=
  let childPos := 2 * p + 1
  if count ≤ childPos then none
  else
    let siblingPos := childPos + 1
    if siblingPos < count then
      if score (stack childPos) < score (stack siblingPos) then some siblingPos
      else some childPos
    else some childPos

theorem largerChild_lt {score : Nat → α} {stack : Nat → Nat} {count p c : Nat}
    (h : largerChild score stack count p = some c) : p < c ∧ c < count := by
  unfold largerChild at h
  simp only at h
  split at h
  · cases h
  · split at h
    · split at h <;> (cases h; omega)
    · cases h; omega

/-- The loop of `kissat_bubble_down` with the assignments after it
(inlineheap.h:45-70). -/
def bubbleDownLoop (score : Nat → α) (idx count : Nat) (stack : Nat → Nat)
    (pos : Nat → Option Nat) (p : Nat) : (Nat → Nat) × (Nat → Option Nat) :=
  match _h : largerChild score stack count p with
  | none => (upd stack p idx, upd pos idx (some p))
  | some c =>
    let child := stack c
    if score child ≤ score idx then (upd stack p idx, upd pos idx (some p))
    else bubbleDownLoop score idx count (upd stack p child) (upd pos child (some p)) c
termination_by count - p
decreasing_by have := largerChild_lt _h; omega

/-- `kissat_bubble_down` (inlineheap.h:37-74). -/
def Heap.bubbleDown (h : Heap α) (idx : Nat) : Heap α :=
  match bubbleDownLoop h.score idx h.count h.stack h.pos ((h.pos idx).getD 0) with
  | (stack, pos) => { h with stack := stack, pos := pos }

/-- `HEAP_IMPORT` (inlineheap.h:76-81). -/
def Heap.heapImport (zero : α) (h : Heap α) (idx : Nat) : Option (Heap α) :=
  if h.vars ≤ idx then h.enlarge zero (idx + 1) else some h

/-- `kissat_push_heap` (inlineheap.h:85-93). -/
def Heap.push (zero : α) (h : Heap α) (idx : Nat) : Option (Heap α) :=
  match h.heapImport zero idx with
  | none => none
  | some h =>
    some ({ h with
      pos := upd h.pos idx (some h.count)
      stack := upd h.stack h.count idx
      count := h.count + 1 : Heap α }.bubbleUp idx)

/-- `kissat_pop_heap` (inlineheap.h:95-112). -/
def Heap.pop (h : Heap α) (idx : Nat) : Option (Heap α) :=
  if h.count = 0 then none
  else
    let last := h.stack (h.count - 1)
    let h := { h with count := h.count - 1, pos := upd h.pos last none }
    if last = idx then some h
    else
      match h.pos idx with
      | none => none
      | some idxPos =>
        let h := { h with
          pos := upd (upd h.pos idx none) last (some idxPos)
          stack := upd h.stack idxPos last }
        some ((h.bubbleUp last).bubbleDown last)

/-- `kissat_pop_max_heap` (inlineheap.h:114-134). -/
def Heap.popMax (h : Heap α) : Option (Nat × Heap α) :=
  if h.count = 0 then none
  else
    let idx := h.stack 0
    let last := h.stack (h.count - 1)
    let h := { h with count := h.count - 1, pos := upd h.pos last none }
    if last = idx then some (idx, h)
    else
      let h := { h with
        pos := upd (upd h.pos idx none) last (some 0)
        stack := upd h.stack 0 last }
      some (idx, h.bubbleDown last)

/-- The loop doubling the size (inlineheap.h:144-146), for a positive size. -/
def growSize (idx : Nat) : Nat → Nat → Nat
  | 0, size => size
  | fuel + 1, size => if size ≤ idx then growSize idx fuel (2 * size) else size

/-- `kissat_adjust_heap` (inlineheap.h:136-151). -/
def Heap.adjust (zero : α) (junkScore : Nat → α) (junkPos : Nat → Option Nat) (h : Heap α)
    (idx : Nat) : Option (Heap α) :=
  if idx + 1 ≤ h.vars then some h
  else
    let h := if h.size ≤ idx then
        h.resize zero junkScore junkPos (growSize idx (idx + 1) (if h.size ≠ 0 then 2 * h.size else 1))
      else h
    h.enlarge zero (idx + 1)

/-- `kissat_update_heap` (inlineheap.h:153-174). -/
def Heap.update (zero : α) (h : Heap α) (idx : Nat) (newScore : α) : Option (Heap α) :=
  let oldScore := h.getScore zero idx
  if oldScore = newScore then some h
  else
    match h.heapImport zero idx with
    | none => none
    | some h =>
      let h := { h with score := upd h.score idx newScore, tainted := true }
      if !h.contains idx then some h
      else if oldScore < newScore then some (h.bubbleUp idx)
      else some (h.bubbleDown idx)

/-- Calls of the heap functions. -/
inductive Op (α : Type)
  | push (idx : Nat)
  | pop (idx : Nat)
  | popMax
  | update (idx : Nat) (score : α)
  | rescale (f : α → α)
  | adjust (idx : Nat) (junkScore : Nat → α) (junkPos : Nat → Option Nat)
  | resize (size : Nat) (junkScore : Nat → α) (junkPos : Nat → Option Nat)

/-- Execution of a call: the corresponding operation of the specification and the new
heap. -/
def exec (zero : α) (h : Heap α) : Op α → Option (Spec.PQOp α × Heap α)
  | .push idx => (h.push zero idx).map (.insert idx, ·)
  | .pop idx => (h.pop idx).map (.remove idx, ·)
  | .popMax => h.popMax.map fun r => (.removeMax r.1, r.2)
  | .update idx x => (h.update zero idx x).map (.update idx x, ·)
  | .rescale f => some (.rescale f, h.rescale f)
  | .adjust idx js jp => (h.adjust zero js jp idx).map (.reserve, ·)
  | .resize n js jp => some (.reserve, h.resize zero js jp n)

/-- Preconditions of the calls (the assertions in the code, and that the element was
made room for by `kissat_adjust_heap` or `kissat_resize_heap`).  A rescaling function is
monotone (multiplication by a positive factor with rounding) and maps zero to zero. -/
def Legal (zero : α) (h : Heap α) : Op α → Prop
  | .push idx => idx < h.size ∧ h.contains idx = false
  | .pop idx => h.contains idx = true
  | .popMax => h.empty = false
  | .update idx _ => idx < h.size
  | .rescale f => (∀ a b, a ≤ b → f a ≤ f b) ∧ f zero = zero
  | _ => True

/-- A sequence of legal calls starting with the initial heap. -/
inductive Reaches (zero : α) : List (Spec.PQOp α) → Heap α → Prop
  | init (score pos stack) : Reaches zero [] (Heap.init score pos stack)
  | step {ops h op r} : Reaches zero ops h → Legal zero h op → exec zero h op = some r →
      Reaches zero (ops ++ [r.1]) r.2

end Verif.Model.Heap
