import Verif.Props.Simplify
import Verif.Proofs.SubSolver.Definition

/-!
# Extraction of definitions with the embedded solver (C64)

`Run n cnf s` as in `Props/Simplify.lean`: any state reached by any sequence of techniques.  `defSolver o cores` are the calls of
`kitten.c` made for one variable by `kissat_find_definition`, where `o` has all decisions, phases, limits and random numbers, and
`cores` is the number of further attempts to find a smaller core (option `definitioncores`).
-/

namespace Verif.Props

open Verif.Spec Verif.Simp Verif.Model

/-- C64: whatever is reported by the embedded solver for non-empty clauses `cs` is right: the clauses with the positions in the core
are refuted by the lemmas, each of which follows by unit propagation, and so does the empty clause in the end. -/
theorem C64_subsolver (o : Nat → DefChoice) (cores : Nat) {cs : List (List Nat)} (hcs : ∀ c ∈ cs, c ≠ []) {core : List Nat}
    {lemmas : List (List Nat)} (h : defSolver o cores cs = some (core, lemmas)) :
    Refutation (fun c => ∃ i ∈ core, cs[i]? = some c) lemmas ∧ ∀ c ∈ lemmas, ∀ l ∈ c, ∃ d ∈ cs, ∃ m ∈ d, m / 2 = l / 2 :=
  defSolver_sound o cores cs core lemmas hcs h

/-- C64: gate clauses found with the embedded solver define the variable: two assignments which satisfy them and the root level
units and agree on all other variables agree on this variable too, unless the variable became a unit. -/
theorem C64_definition {n : Nat} {cnf : List (List Int)} {s : State} (h : Run n cnf s) (hi : s.inconsistent = false)
    {o : GateOptions} {choices : Nat → DefChoice} {cores : Nat} (hk : o.kitten = defSolver choices cores) {lit : Nat}
    (ha : s.active (lit / 2) = true) {s' : State} {g : Gates}
    (hg : s.findGates o lit (s.occurrences lit) (s.occurrences (neg lit)) = (s', some g)) (hv : s'.values lit = 0) :
    (∀ r ∈ g.pos, s.irr (s.clause r).lits ∧ lit ∈ (s.clause r).lits) ∧
    (∀ r ∈ g.neg, s.irr (s.clause r).lits ∧ neg lit ∈ (s.clause r).lits) ∧
    ∀ σ τ : Assignment, (∀ l ∈ s'.trail, litTrue σ l ∧ litTrue τ l) →
      (∀ r ∈ g.pos ++ g.neg, SatClause σ (s.clause r).lits ∧ SatClause τ (s.clause r).lits) →
      (∀ v, v ≠ lit / 2 → σ v = τ v) → σ (lit / 2) = τ (lit / 2) :=
  C45_definition h hi o (by rw [hk]; exact defSolver_sound _ _) ha hg hv

/-- C64: eliminating variables with definitions found by the embedded solver keeps satisfiability. -/
theorem C64_equisatisfiable {n : Nat} {cnf : List (List Int)} {s : State} (h : Run n cnf s) (sched : List (ElimOptions × Nat))
    (hk : ∀ e ∈ sched, ∃ choices cores, e.1.kitten = defSolver choices cores) :
    ((s.eliminateLoop sched).inconsistent = true → ¬ ESatisfiable cnf) ∧
    ((s.eliminateLoop sched).inconsistent = false → (ESatisfiable cnf ↔ Satisfiable (s.eliminateLoop sched).irr)) := by
  have hs : ∀ e ∈ sched, e.1.kitten.Sound := fun e he => by
    obtain ⟨o, n, ho⟩ := hk e he
    rw [ho]; exact defSolver_sound o n
  exact ⟨C44_unsat (.eliminate sched h hs), C44_equisatisfiable (.eliminate sched h hs)⟩

/-- C64: the proof with the lemmas copied from the embedded solver is accepted. -/
theorem C64_proof {n : Nat} {cnf : List (List Int)} {s : State} (h : Run n cnf s) (sched : List (ElimOptions × Nat))
    (hk : ∀ e ∈ sched, ∃ choices cores, e.1.kitten = defSolver choices cores) :
    ∃ db, Replay (cnf.map fun c => c.map code) (s.eliminateLoop sched).proof db ∧
      ((s.eliminateLoop sched).inconsistent = true → [] ∈ db) := by
  obtain ⟨db, h1, h2, _⟩ := C44_proof (.eliminate sched h fun e he => by
    obtain ⟨o, n, ho⟩ := hk e he
    rw [ho]; exact defSolver_sound o n)
  exact ⟨db, h1, h2⟩

/-! ## Instances -/

/-- x₁ is the majority of x₂, x₃ and x₄, and (x₁ ∨ x₅ ∨ x₆)(¬x₁ ∨ x₅ ∨ ¬x₆). -/
def majorityCnf : List (List Int) := [[1, 5, 6], [-1, 5, -6], [-1, 2, 3], [-1, 2, 4], [-1, 3, 4], [1, -2, -3], [1, -2, -4], [1, -3, -4]]

def definitionChoices : Nat → DefChoice := fun _ => ⟨fun _ => ⟨false, 0⟩, 100, fun l i => l + i, fun i => i⟩

/-- With the embedded solver and one further attempt. -/
def withDefinitions : ElimOptions := { plain with kitten := defSolver definitionChoices 1 }

theorem majorityRun : Run 6 majorityCnf (.ofClauses 6 majorityCnf) := .start ⟨by unfold Clean; decide, rfl⟩

/-- The six clauses of the majority function are found. -/
example : ((State.ofClauses 6 majorityCnf).findGates withDefinitions.toGateOptions 0
    ((State.ofClauses 6 majorityCnf).occurrences 0) ((State.ofClauses 6 majorityCnf).occurrences 1)).2 =
    some ⟨[5, 6, 7], [2, 3, 4], true⟩ := by decide +kernel

/-- A unit follows from the clauses of one literal alone: lemmas are added, then the unit, and then they are deleted. -/
def oneSided : State := ((State.ofClauses 4 [[1, 2, 3], [1, 2, -3], [1, -2, 3], [1, -2, -3], [-1, 4, 2]]).findGates
  withDefinitions.toGateOptions 0 [0, 1, 2, 3] [4]).1

example : oneSided.trail = [0] ∧ oneSided.proof = [.add [2, 5], .add [2, 6], .add [2], .delete [2, 5], .delete [2, 6]] := by decide +kernel

end Verif.Props
