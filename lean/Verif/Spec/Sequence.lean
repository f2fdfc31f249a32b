/-!
# Sequences

Specification of stacks and of first-in-first-out queues as operations on a sequence, used
for property C28.  An operation outside of its domain (such as `pop` of an empty sequence) has
no result.  An operation gives the new sequence and the element it returns, if any.
-/

namespace Verif.Spec

variable {α : Type} [DecidableEq α]

/-- Operations of a stack. -/
inductive StackOp (α : Type)
  | push (e : α)
  | pop
  | top
  | peek (i : Nat)
  | poke (i : Nat) (e : α)
  | clear
  /-- keep the first `n` elements -/
  | resize (n : Nat)
  /-- remove the first occurrence -/
  | remove (e : α)
  | reverse
  /-- give back unused memory -/
  | shrink

/-- Effect of an operation on a sequence with the top at its end. -/
def StackOp.apply : StackOp α → List α → Option (List α × Option α)
  | .push e, l => some (l ++ [e], none)
  | .pop, l => l.getLast?.map fun e => (l.dropLast, some e)
  | .top, l => l.getLast?.map fun e => (l, some e)
  | .peek i, l => l[i]?.map fun e => (l, some e)
  | .poke i e, l => if i < l.length then some (l.set i e, none) else none
  | .clear, _ => some ([], none)
  | .resize n, l => if n ≤ l.length then some (l.take n, none) else none
  | .remove e, l => if e ∈ l then some (l.erase e, none) else none
  | .reverse, l => some (l.reverse, none)
  | .shrink, l => some (l, none)

/-- Operations of a queue. -/
inductive FifoOp (α : Type)
  | enqueue (e : α)
  | dequeue
  /-- take back the element enqueued last -/
  | pop
  | clear

/-- Effect of an operation on a sequence with the oldest element first. -/
def FifoOp.apply : FifoOp α → List α → Option (List α × Option α)
  | .enqueue e, l => some (l ++ [e], none)
  | .dequeue, l => l.head?.map fun e => (l.tail, some e)
  | .pop, l => l.getLast?.map fun e => (l.dropLast, some e)
  | .clear, _ => some ([], none)

/-- Effect of operations one after the other: the final state and what they returned. -/
def runOps {σ ω α : Type} (step : ω → σ → Option (σ × Option α)) : List ω → σ → Option (σ × List α)
  | [], s => some (s, [])
  | o :: os, s =>
    match step o s with
    | none => none
    | some (s, out) =>
      match runOps step os s with
      | none => none
      | some (s, outs) => some (s, out.toList ++ outs)

end Verif.Spec
