import Verif.Props.Simplify

/-!
# Vivification (C50)

`Run n cnf s` as in `Props/Simplify.lean`.
-/

namespace Verif.Props

open Verif.Spec Verif.Simp Verif.Model

/-- C50: one round of vivification from any state reached, for any schedule of candidates, any order of literals and
of propagation, and any levels to which the solver backtracks in between.  All irredundant clauses of before (thus the
removed and the replaced ones) are implied by the irredundant clauses after it, and all clauses after it (thus the
shorter ones) are implied by those before. -/
theorem C50_vivification {n : Nat} {cnf : List (List Int)} {s s' : State} (h : Run n cnf s) (hi : s.inconsistent = false)
    (simplified : List Nat) (sched : List (Nat × VivifyOptions)) (hv : s.vivifyRound simplified sched = some s') :
    (∀ c, s.irr c → Entails s'.irr c) ∧ (∀ c, s'.formula c → Entails s.formula c) ∧
    (s'.inconsistent = true → ∀ σ, ¬ SatFormula σ s.formula) := by
  obtain ⟨_, p⟩ := (h.fine.inv hi).vivifyRound hv
  refine ⟨fun c hc σ hσ => p.removed σ hσ c hc, fun c hc σ hσ => (p.added σ hσ).1 c hc, fun hu σ hσ => ?_⟩
  rw [(p.added σ hσ).2, hi] at hu; cases hu

/-- C50: the lines written to the proof are accepted. -/
theorem C50_proof {n : Nat} {cnf : List (List Int)} {s s' : State} (h : Run n cnf s) (hi : s.inconsistent = false)
    (simplified : List Nat) (sched : List (Nat × VivifyOptions)) (hv : s.vivifyRound simplified sched = some s') :
    ∃ db, Replay (cnf.map fun c => c.map code) s'.proof db ∧ (s'.inconsistent = true → [] ∈ db) := by
  obtain ⟨db, h1, h2, _⟩ := C44_proof (.vivify simplified sched h hi hv)
  exact ⟨db, h1, h2⟩

/-! ## Instances -/

/-- x₁ → x₂, x₂ → x₃, and larger clauses. -/
def vivifyCnf : List (List Int) := [[-1, 2], [-2, 3], [-1, 3, 4], [1, 5, 6, 7], [1, 5, -6, 7], [2, 5, 6, 9], [-9, 8], [-9, -8, 2],
  [-5, 10, 11], [-5, -11, 10, 12], [-5, -11, -12, 10]]

theorem vivifyRun : Run 12 vivifyCnf (.ofClauses 12 vivifyCnf) := .start ⟨by unfold Clean; decide, rfl⟩

/-- Visiting all clauses twice for each assumption, and assuming one literal last. -/
def vivifyOptions (last : Nat) : VivifyOptions where
  jump := true
  counts := fun l => if l = last then 0 else 1
  orders := List.replicate 4 (List.range 11 ++ List.range 11)
  instantiate := List.range 11 ++ List.range 11
  root := []
  back := 0

/-- Clause 2 is implied through a chain of binary clauses and removed, clause 3 is replaced by (1 5 7) since x₆ is implied to be false,
and clauses 5 and 8 are strengthened by instantiation. -/
example : ((State.ofClauses 12 vivifyCnf).vivifyRound [2, 3, 4]
        [(2, vivifyOptions 0), (3, vivifyOptions 10), (5, vivifyOptions 16), (8, vivifyOptions 20)]).map
      (fun s => (s.inconsistent, s.arena.map fun c => (c.lits, c.garbage))) =
    some (false, [([1, 2], false), ([3, 4], false), ([1, 4, 6], true), ([0, 8, 10, 12], true), ([0, 8, 11, 12], false),
      ([2, 8, 10, 16], true), ([17, 14], false), ([17, 15, 2], false), ([9, 18, 20], true), ([9, 21, 18, 22], false),
      ([9, 21, 23, 18], false), ([0, 8, 12], false), ([2, 8, 10], false), ([9, 18], false)]) := by decide +kernel

end Verif.Props
