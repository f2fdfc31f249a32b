/-!
# Families of lists

Specification of the operations on watch lists as operations on a family of lists, used for
property C29.
-/

namespace Verif.Spec

/-- Operations on a family of lists of numbers. -/
inductive ListsOp
  | push (v e : Nat)
  /-- keep the first `n` elements -/
  | resize (v n : Nat)
  /-- remove the first occurrence -/
  | remove (v e : Nat)
  /-- reorganise memory -/
  | defrag

/-- Effect of an operation on `n` lists of 32 bit numbers different from `2^32 - 1`.  An operation
outside of its domain has no result. -/
def ListsOp.apply (n : Nat) : ListsOp → (Nat → List Nat) → Option (Nat → List Nat)
  | .push v e, f =>
    if v < n ∧ e < 2 ^ 32 - 1 then some fun w => if w = v then f v ++ [e] else f w else none
  | .resize v k, f =>
    if v < n ∧ k ≤ (f v).length then some fun w => if w = v then (f v).take k else f w else none
  | .remove v e, f =>
    if v < n ∧ e ∈ f v then some fun w => if w = v then (f v).erase e else f w else none
  | .defrag, f => some f

/-- Effect of several operations. -/
def ListsOp.run (n : Nat) : List ListsOp → (Nat → List Nat) → Option (Nat → List Nat)
  | [], f => some f
  | o :: os, f =>
    match o.apply n f with
    | none => none
    | some f => ListsOp.run n os f

end Verif.Spec
