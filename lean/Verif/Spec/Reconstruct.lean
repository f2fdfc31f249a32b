import Verif.Spec.External

/-!
# Model reconstruction

Clauses removed in a way that preserves satisfiability, but not all models, are recorded
with a witness literal.  Literals are coded as natural numbers as in `Spec/Cnf.lean`
(external ones by `code`).
-/

namespace Verif.Spec

/-- `σ` changed such that the literal `l` is true. -/
def assign (σ : Assignment) (l : Nat) : Assignment :=
  fun v => if v = l / 2 then decide (l % 2 = 0) else σ v

/-- Every model of `F` that falsifies `C` becomes a model of `F` by making `l` true. -/
def Redundant (F : Formula) (C : List Nat) (l : Nat) : Prop :=
  ∀ σ, SatFormula σ F → ¬ SatClause σ C → SatFormula (assign σ l) F

/-- `Reduces F₀ S F`: the formula `F₀` was transformed to `F`, and the clauses `S` were removed
with their witnesses, the last one last. -/
inductive Reduces (F₀ : Formula) : List (Nat × List Nat) → Formula → Prop
  /-- nothing happened -/
  | refl : Reduces F₀ [] F₀
  /-- a step which has no additional models, such as adding clauses, removing implied
  clauses, strengthening -/
  | restrict {S F F'} : Reduces F₀ S F → (∀ σ, SatFormula σ F' → SatFormula σ F) → Reduces F₀ S F'
  /-- a step after which one clause (with this witness) may be violated -/
  | weaken {S F F' l C} : Reduces F₀ S F → l ∈ C → Redundant F' C l →
      (∀ σ, SatFormula σ F' → SatClause σ C → SatFormula σ F) → Reduces F₀ (S ++ [(l, C)]) F'

end Verif.Spec
