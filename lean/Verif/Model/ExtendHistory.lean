import Verif.Model.Extend

/-!
# How the extension stack comes about

A history of simplification steps as seen from outside: the clauses are over external
literals coded by `Spec.code`.  Which step is taken is left open; the simplification
techniques are modelled elsewhere.
-/

namespace Verif.Model.Extend

open Verif.Spec

/-- Code of the external literal of an internal literal. -/
def State.ext (s : State) (l : Nat) : Nat := code (s.exportLiteral l)

/-- The external literal of an internal literal is known to the import table. -/
def State.Known (s : State) (l : Nat) : Prop :=
  s.exportLiteral l ≠ 0 ∧ ∃ i, s.imports[(s.exportLiteral l).natAbs]? = some i ∧ i.imported = true

/-- Changes of the solver which do not concern eliminated variables and the stack: assigning
root level units, importing further variables, renumbering internal variables. -/
structure Unrelated (s s' : State) : Prop where
  extend : s'.extend = s.extend
  eliminated : s'.eliminated = s.eliminated
  etrail : s'.etrail = s.etrail
  extended : s'.extended = s.extended
  /-- eliminated variables stay as they are, imported ones stay imported -/
  old : ∀ (v : Nat) i, s.imports[v]? = some i → ∃ i', s'.imports[v]? = some i' ∧
    (i.imported = true → i'.imported = true) ∧ (i.eliminated = true → i' = i)
  /-- no further variable becomes eliminated -/
  new : ∀ (v : Nat) i', s'.imports[v]? = some i' → i'.eliminated = true → s.imports[v]? = some i'

/-- `History F₀ s F`: starting with the clauses `F₀`, the solver has come to the state `s`
with the clauses `F`. -/
inductive History (F₀ : Formula) : State → Formula → Prop
  | start (s : State) : s.extend = [] → s.eliminated = [] → s.etrail = [] → s.extended = false →
      (∀ i ∈ s.imports, i.eliminated = false) → History F₀ s F₀
  /-- any step without additional models -/
  | change {s s' F F'} : History F₀ s F → Unrelated s s' →
      (∀ σ, SatFormula σ F' → SatFormula σ F) → History F₀ s' F'
  /-- removing the clause `c` with witness `w` by `kissat_weaken_clause` (and
  `kissat_weaken_binary`, `kissat_weaken_unit`) -/
  | weaken {s F F'} (w : Nat) (c : List Nat) : History F₀ s F → w ∈ c → s.Known w →
      (∀ l ∈ c, 0 ≤ s.values l → s.Known l) →
      (∀ l ∈ c, s.values l < 0 → ∀ σ, SatFormula σ F' → ¬ litTrue σ (s.ext l)) →
      s.values w = 0 →
      Redundant F' (c.map s.ext) (s.ext w) →
      (∀ σ, SatFormula σ F' → SatClause σ (c.map s.ext) → SatFormula σ F) →
      History F₀ (s.weakenClause w c) F'
  /-- marking a variable as eliminated -/
  | eliminate {s F} (idx : Nat) : History F₀ s F → s.Known (2 * idx) →
      (∀ i, s.imports[(s.exportLiteral (2 * idx)).natAbs]? = some i → i.eliminated = false) →
      History F₀ (s.markEliminated idx) F

/-- A variable with a value in the assignment the search has found, or one without value
which is eliminated. -/
def State.Complete (s : State) : Prop :=
  ∀ e ∈ s.extend, ∀ i, s.imports[e.lit.natAbs]? = some i →
    (i.eliminated = true ∨ e.blocking = false ∧ s.values i.lit ≠ 0)

/-- A sequence of queries (`kissat_value` called by the user). -/
def State.answers (s : State) : List Int → Option (List Int)
  | [] => some []
  | e :: es =>
    match s.value e with
    | none => none
    | some (a, s) =>
      match s.answers es with
      | none => none
      | some as => some (a :: as)

end Verif.Model.Extend
