import Verif.Spec.Cnf

/-! # Number of clauses an assignment falsifies -/

namespace Verif.Spec

/-- The literal is true, as a Boolean. -/
def holds (σ : Assignment) (l : Nat) : Bool := σ (l / 2) == decide (l % 2 = 0)

/-- Number of clauses (with repetition) of the list without a true literal. -/
def numFalsified (σ : Assignment) (F : List (List Nat)) : Nat :=
  F.countP fun c => !c.any (holds σ)

end Verif.Spec
