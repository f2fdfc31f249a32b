/-!
# Propositional logic: literals, clauses, entailment, unit propagation, RUP, RAT

Literals are natural numbers: `2 * v` is variable `v`, `2 * v + 1` its negation.
A formula is a set of clauses, given as a predicate.  Nothing here mentions the
solver.
-/

namespace Verif.Spec

/-- Complement of a literal. -/
def neg (l : Nat) : Nat := if l % 2 = 0 then l + 1 else l - 1

/-- An assignment gives every variable a value. -/
abbrev Assignment := Nat → Bool

/-- The literal `l` is true under `σ`. -/
def litTrue (σ : Assignment) (l : Nat) : Prop := σ (l / 2) = decide (l % 2 = 0)

/-- The clause `c` has a true literal. -/
def SatClause (σ : Assignment) (c : List Nat) : Prop := ∃ l ∈ c, litTrue σ l

/-- A set of clauses. -/
abbrev Formula := List Nat → Prop

/-- All clauses are satisfied. -/
def SatFormula (σ : Assignment) (F : Formula) : Prop := ∀ c, F c → SatClause σ c

/-- The formula has a model. -/
def Satisfiable (F : Formula) : Prop := ∃ σ, SatFormula σ F

/-- Every model of `F` satisfies `c`. -/
def Entails (F : Formula) (c : List Nat) : Prop := ∀ σ, SatFormula σ F → SatClause σ c

/-- `UP F A l`: unit propagation over the clauses of `F` starting from the
literals in `A` assigns `l`. -/
inductive UP (F : Formula) (A : Nat → Prop) : Nat → Prop
  | assumed {l : Nat} : A l → UP F A l
  | unit {c : List Nat} {l : Nat} : F c → l ∈ c →
      (∀ m ∈ c, m ≠ l → UP F A (neg m)) → UP F A l

/-- Unit propagation falsifies a clause. -/
def UPConflict (F : Formula) (A : Nat → Prop) : Prop :=
  ∃ c, F c ∧ ∀ m ∈ c, UP F A (neg m)

/-- Reverse unit propagation: assuming the negation of all literals of `c` leads
to a conflict (or `c` is a tautology). -/
def RUP (F : Formula) (c : List Nat) : Prop :=
  UPConflict F (fun l => neg l ∈ c) ∨ ∃ l ∈ c, neg l ∈ c

/-- Two clauses have the same literals. -/
def SameLits (c d : List Nat) : Prop := ∀ l, l ∈ c ↔ l ∈ d

/-- Resolution asymmetric tautology on the first literal, as in DRAT. -/
def RAT (F : Formula) (c : List Nat) : Prop :=
  ∃ l ∈ c.head?, ∀ d, F d → neg l ∈ d → RUP F (c ++ d.filter (· ≠ neg l))

end Verif.Spec
