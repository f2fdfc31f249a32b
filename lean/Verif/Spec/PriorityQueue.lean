import Mathlib.Order.Defs.LinearOrder

/-!
# Priority queues

Specification of a priority queue of numbers with scores, used for property C26.  It does
not mention heaps.
-/

namespace Verif.Spec

/-- A priority queue: which elements it holds and the score of every number. -/
structure PQ (α : Type) where
  mem : Nat → Prop
  score : Nat → α

/-- The empty queue, all scores zero. -/
def PQ.empty {α : Type} (zero : α) : PQ α := ⟨fun _ => False, fun _ => zero⟩

/-- `m` is an element of largest score. -/
def PQ.IsMax {α : Type} [LinearOrder α] (q : PQ α) (m : Nat) : Prop :=
  q.mem m ∧ ∀ i, q.mem i → q.score i ≤ q.score m

/-- Operations of a priority queue; `removeMax` carries the element returned. -/
inductive PQOp (α : Type)
  | insert (i : Nat)
  | remove (i : Nat)
  | removeMax (returned : Nat)
  | update (i : Nat) (score : α)
  /-- all scores are mapped by a monotone function -/
  | rescale (f : α → α)
  /-- an operation without visible effect -/
  | reserve

/-- Effect of an operation. -/
inductive PQ.Step {α : Type} [LinearOrder α] : PQ α → PQOp α → PQ α → Prop
  | insert {q : PQ α} {i : Nat} : ¬ q.mem i →
      Step q (.insert i) ⟨fun j => q.mem j ∨ j = i, q.score⟩
  | remove {q : PQ α} {i : Nat} : q.mem i →
      Step q (.remove i) ⟨fun j => q.mem j ∧ j ≠ i, q.score⟩
  | removeMax {q : PQ α} {i : Nat} : q.IsMax i →
      Step q (.removeMax i) ⟨fun j => q.mem j ∧ j ≠ i, q.score⟩
  | update {q : PQ α} {i : Nat} {x : α} :
      Step q (.update i x) ⟨q.mem, fun j => if j = i then x else q.score j⟩
  | rescale {q : PQ α} {f : α → α} : Step q (.rescale f) ⟨q.mem, fun j => f (q.score j)⟩
  | reserve {q : PQ α} : Step q .reserve q

/-- Effect of a sequence of operations. -/
inductive PQ.Run {α : Type} [LinearOrder α] : PQ α → List (PQOp α) → PQ α → Prop
  | nil {q : PQ α} : Run q [] q
  | cons {q q' q'' : PQ α} {o : PQOp α} {os : List (PQOp α)} :
      Step q o q' → Run q' os q'' → Run q (o :: os) q''

end Verif.Spec
