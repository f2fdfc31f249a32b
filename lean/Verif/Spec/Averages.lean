import Mathlib.Algebra.BigOperators.Group.Finset.Basic
import Mathlib.Algebra.Order.BigOperators.Group.Finset
import Mathlib.Data.Rat.Defs
import Mathlib.Algebra.Order.Field.Rat

/-! # Weighted means of the values seen in a search mode -/

namespace Verif.Spec.Averages

open Finset

/-- The mean of values (the oldest first), where the weight of a value is `β` times the weight of the next one. -/
def mean (β : ℚ) (ys : List ℚ) : ℚ :=
  (∑ i ∈ range ys.length, β ^ (ys.length - 1 - i) * ys.getD i 0) / ∑ i ∈ range ys.length, β ^ (ys.length - 1 - i)

/-- What happens during search: a decision, the analysis of a conflict, learning a clause with a glue, and changing
between focused and stable mode. -/
inductive Event where
  | decision
  | conflict
  | learn (glue : Nat)
  | switch

/-- The glues of clauses learned in mode `mode` (stable or not), where the search starts in mode `now`. -/
def glues (mode : Bool) : Bool → List Event → List ℚ
  | _, [] => []
  | now, .switch :: es => glues mode (!now) es
  | now, .learn g :: es => if now = mode then (g : ℚ) :: glues mode now es else glues mode now es
  | now, .decision :: es => glues mode now es
  | now, .conflict :: es => glues mode now es

/-- For each conflict in mode `mode` the number of decisions since the previous conflict or change of mode, where `n`
is this number at the start. -/
def rates (mode : Bool) : Bool → Nat → List Event → List ℚ
  | _, _, [] => []
  | now, _, .switch :: es => rates mode (!now) 0 es
  | now, n, .learn _ :: es => rates mode now n es
  | now, n, .decision :: es => rates mode now (n + 1) es
  | now, n, .conflict :: es => if now = mode then (n : ℚ) :: rates mode now 0 es else rates mode now 0 es

end Verif.Spec.Averages
