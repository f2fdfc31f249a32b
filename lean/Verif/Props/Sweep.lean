import Verif.Props.Simplify
import Verif.Proofs.SubSolver.Sweep

/-!
# Sweeping (C63)

`Run n cnf s` as in `Props/Simplify.lean`: any state reached by any sequence of techniques.  `s.sweep os order` is a call of
`kissat_sweep`, where `os` has for every variable tried the clauses copied to the sub-solver, the candidates and the answers of the
sub-solver, and `order` is an order of propagation.  `s.sweepLoop os` is the state before the propagation at the end.

`SweepKitten.Sound` says that the sub-solver reports a core whenever it answers `20`: original clauses, learned clauses with a proof
by unit propagation, and one of negated assumptions.  `C63_subsolver` shows this for the model of `kitten.c`.
-/

namespace Verif.Props

open Verif.Spec Verif.Simp Verif.Model

/-- C63: the sub-solver `kitten.c` has a core for whatever it claims, for all choices of decisions, phases and limits in all its calls,
and whatever literals are flipped in between. -/
theorem C63_subsolver (o : Nat → SubChoice) : (subSolver o).Sound := subSolver_sound o

/-- C63: units and equivalences found by sweeping, and replacing equivalent literals, do not change the models of the irredundant
clauses, whatever variables, clauses and candidates are tried. -/
theorem C63_models {n : Nat} {cnf : List (List Int)} {s : State} (h : Run n cnf s) (hi : s.inconsistent = false)
    {os : List SweepOptions} (hk : ∀ o ∈ os, o.kitten.Sound) (σ : Assignment) :
    SatFormula σ s.irr ↔ SatFormula σ (s.sweepLoop os).irr :=
  (sweepLoop_ok os hk (h.fine.inv hi)).same σ

/-- C63: sweeping with kitten does not change the models of the irredundant clauses. -/
theorem C63_kitten {n : Nat} {cnf : List (List Int)} {s : State} (h : Run n cnf s) (hi : s.inconsistent = false)
    {os : List SweepOptions} (hk : ∀ o ∈ os, ∃ choices, o.kitten = subSolver choices) (σ : Assignment) :
    SatFormula σ s.irr ↔ SatFormula σ (s.sweepLoop os).irr :=
  C63_models h hi (fun o ho => by obtain ⟨c, e⟩ := hk o ho; rw [e]; exact subSolver_sound c) σ

/-- C63: sweeping neither adds nor eliminates variables: the clauses which are left have variables known before and not eliminated. -/
theorem C63_variables {n : Nat} {cnf : List (List Int)} {s : State} (h : Run n cnf s) (hi : s.inconsistent = false)
    {os : List SweepOptions} (hk : ∀ o ∈ os, o.kitten.Sound) {c : List Nat} (hc : (s.sweepLoop os).irr c) {l : Nat} (hl : l ∈ c) :
    l / 2 < s.exports.length ∧ s.removed (l / 2) = false := by
  have h1 := sweepLoop_ok os hk (h.fine.inv hi)
  rw [← h1.exports, ← h1.removed]
  rcases hc with ⟨m, hm, rfl⟩ | ⟨r, h2, h3, rfl⟩
  · rw [List.mem_singleton.1 hl]
    exact h1.inv.struct.unit m hm
  · exact ⟨h1.inv.struct.clause r h2 l hl, h1.inv.struct.removed r h2 h3 l hl⟩

/-- C63: the remaining clauses are satisfiable if and only if those given by the user are. -/
theorem C63_equisatisfiable {n : Nat} {cnf : List (List Int)} {s : State} (h : Run n cnf s) (hi : s.inconsistent = false)
    {os : List SweepOptions} (hk : ∀ o ∈ os, o.kitten.Sound) (order : List Nat) :
    ((s.sweep os order).inconsistent = true → ¬ ESatisfiable cnf) ∧
    ((s.sweep os order).inconsistent = false → (ESatisfiable cnf ↔ Satisfiable (s.sweep os order).irr)) :=
  ⟨C44_unsat (.sweep os order h hi hk), C44_equisatisfiable (.sweep os order h hi hk)⟩

/-- C63: the lines written to the proof, those copied from the cores of the sub-solver included, are accepted. -/
theorem C63_proof {n : Nat} {cnf : List (List Int)} {s : State} (h : Run n cnf s) (hi : s.inconsistent = false)
    {os : List SweepOptions} (hk : ∀ o ∈ os, o.kitten.Sound) (order : List Nat) :
    ∃ db, Replay (cnf.map fun c => c.map code) (s.sweep os order).proof db ∧ ((s.sweep os order).inconsistent = true → [] ∈ db) := by
  obtain ⟨db, h1, h2, _⟩ := C44_proof (.sweep os order h hi hk)
  exact ⟨db, h1, h2⟩

/-! ## Instances -/

/-- Without the unit x₆ and the equivalence of x₁ and x₂ as clauses. -/
def sweepCnf : List (List Int) := [[1, -2, 3], [1, -2, -3], [-1, 2, 3], [-1, 2, -3], [2, 4, 5], [-2, 4, -5],
  [6, 7, 8], [6, 7, -8], [6, -7, 8], [6, -7, -8]]

/-- One variable: all clauses are copied, x₆ is tried as backbone, x₁ and x₂ as equivalent. -/
def sweepOptions : SweepOptions where
  kitten := subSolver fun _ => ⟨fun _ => ⟨false, 0⟩, 100, [0, 7]⟩
  visited := List.range 10
  watches := fun s _ => List.range s.arena.length
  actions := [.backbone 10, .equivalence 0 2]
  connected := fun _ _ => false

theorem sweepRun : Run 8 sweepCnf (.ofClauses 8 sweepCnf) := .start ⟨by unfold Clean; decide, rfl⟩

theorem sweepOptions_sound : ∀ o ∈ [sweepOptions], o.kitten.Sound := by
  intro o ho
  rw [List.mem_singleton.1 ho]
  exact C63_subsolver _

/-- x₆ is learned, and x₂ is replaced by x₁. -/
example : (((State.ofClauses 8 sweepCnf).sweepLoop [sweepOptions]).arena.filterMap fun c => if c.garbage then none else some c.lits) =
    [[10, 12, 14], [10, 12, 15], [10, 13, 14], [10, 13, 15], [0, 3], [1, 2], [0, 6, 8], [1, 6, 9]] ∧
    ((State.ofClauses 8 sweepCnf).sweepLoop [sweepOptions]).trail = [10] := by decide +kernel

/-- The lemmas of the cores are added and deleted again. -/
example : ((State.ofClauses 8 sweepCnf).sweepLoop [sweepOptions]).proof.take 3 =
    [.add [15, 12], .add [12], .delete [15, 12]] := by decide +kernel

example (σ : Assignment) : SatFormula σ (State.ofClauses 8 sweepCnf).irr ↔
    SatFormula σ ((State.ofClauses 8 sweepCnf).sweepLoop [sweepOptions]).irr :=
  C63_models sweepRun rfl sweepOptions_sound σ

/-- The last clause makes it unsatisfiable, which is found by sweeping. -/
example : ((State.ofClauses 2 [[1, 2], [1, -2], [-1, 2], [-1, -2]]).sweep [{ sweepOptions with visited := List.range 4 }] []).inconsistent
    = true := by decide +kernel

end Verif.Props
