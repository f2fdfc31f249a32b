import Verif.Props.Simplify

/-!
# Transitive reduction and backbone extraction (C49)

`Run n cnf s` as in `Props/Simplify.lean`.
-/

namespace Verif.Props

open Verif.Spec Verif.Simp Verif.Model

/-- C49: transitive reduction from any state reached, for any literals in any order and with any effort limits.  All
irredundant clauses of before (thus the removed ones) are implied by those left, and the clauses after it (thus the
derived units) are implied by those before. -/
theorem C49_transitive_reduction {n : Nat} {cnf : List (List Int)} {s : State} (h : Run n cnf s) (hi : s.inconsistent = false)
    (sched : List (Nat × Nat × List Nat)) :
    (∀ c, s.irr c → Entails (s.transitiveReduction sched).irr c) ∧
    (∀ c, (s.transitiveReduction sched).formula c → Entails s.formula c) ∧
    ((s.transitiveReduction sched).inconsistent = true → ∀ σ, ¬ SatFormula σ s.formula) := by
  obtain ⟨_, p⟩ := (h.fine.inv hi).transitiveReduction sched
  refine ⟨fun c hc σ hσ => p.removed σ hσ c hc, fun c hc σ hσ => (p.added σ hσ).1 c hc, fun hu σ hσ => ?_⟩
  rw [(p.added σ hσ).2, hi] at hu; cases hu

/-- C49: backbone extraction from any state reached in which binary clauses are propagated, with any candidates in any
number of rounds.  The analysis of conflicts never leaves the trail.  No clause is removed, and the units derived are
implied by the clauses. -/
theorem C49_backbone {n : Nat} {cnf : List (List Int)} {s : State} (h : Run n cnf s) (hi : s.inconsistent = false)
    (hn : s.unitBinary (fun _ => true) = none) (rounds : List (List Nat × List Nat)) :
    ∃ s', s.backbone rounds = some s' ∧ Run n cnf s' ∧ s'.arena = s.arena ∧
      (∀ l ∈ s.trail, l ∈ s'.trail) ∧ (∀ l ∈ s'.trail, Entails s.formula [l]) ∧
      (s'.inconsistent = true → ∀ σ, ¬ SatFormula σ s.formula) := by
  obtain ⟨s', e, _, p, _⟩ := (h.fine.inv hi).backbone rounds (Or.inr hn)
  obtain ⟨g1, g2⟩ := backbone_keeps rounds e
  refine ⟨s', e, .backbone rounds h hi hn e, g1, g2, fun l hl σ hσ => (p.added σ hσ).1 _ (Or.inl ⟨l, hl, rfl⟩), fun hu σ hσ => ?_⟩
  rw [(p.added σ hσ).2, hi] at hu; cases hu

/-- C49: propagation at the root level reaches such a state. -/
theorem C49_propagated {n : Nat} {cnf : List (List Int)} {s : State} (h : Run n cnf s) (hi : s.inconsistent = false)
    (order : List Nat) : Run n cnf (s.propagateRoot (fun _ => true) order) ∧
    ((s.propagateRoot (fun _ => true) order).inconsistent = true ∨
      (s.propagateRoot (fun _ => true) order).unitBinary (fun _ => true) = none) :=
  ⟨.propagate order h hi, (h.fine.inv hi).propagateAll_complete order⟩

/-- C49: the lines written to the proof are accepted, by transitive reduction … -/
theorem C49_transitive_proof {n : Nat} {cnf : List (List Int)} {s : State} (h : Run n cnf s) (hi : s.inconsistent = false)
    (sched : List (Nat × Nat × List Nat)) :
    ∃ db, Replay (cnf.map fun c => c.map code) (s.transitiveReduction sched).proof db ∧
      ((s.transitiveReduction sched).inconsistent = true → [] ∈ db) := by
  obtain ⟨db, h1, h2, _⟩ := C44_proof (.transitive sched h hi)
  exact ⟨db, h1, h2⟩

/-- … and by backbone extraction. -/
theorem C49_backbone_proof {n : Nat} {cnf : List (List Int)} {s s' : State} (h : Run n cnf s) (hi : s.inconsistent = false)
    (hn : s.unitBinary (fun _ => true) = none) (rounds : List (List Nat × List Nat)) (he : s.backbone rounds = some s') :
    ∃ db, Replay (cnf.map fun c => c.map code) s'.proof db ∧ (s'.inconsistent = true → [] ∈ db) := by
  obtain ⟨db, h1, h2, _⟩ := C44_proof (.backbone rounds h hi hn he)
  exact ⟨db, h1, h2⟩

/-! ## Instances -/

/-- x₁ → x₂ → x₃, x₁ → x₃, x₄ → x₅, x₄ → ¬x₅, (x₁ ∨ x₄ ∨ x₆). -/
def probeCnf : List (List Int) := [[-1, 2], [-2, 3], [-1, 3], [-4, 5], [-4, -5], [1, 4, 6]]

theorem probeRun : Run 6 probeCnf (.ofClauses 6 probeCnf) := .start ⟨by unfold Clean; decide, rfl⟩

/-- The transitive clause is removed, and the failed literal found. -/
example : let s := (State.ofClauses 6 probeCnf).transitiveReduction [(1, 10, []), (7, 10, [])]
    s.inconsistent = false ∧ (s.arena.map Clause.garbage) = [false, false, true, false, false, false] ∧
    s.trail = [7] := by decide

example : Entails ((State.ofClauses 6 probeCnf).transitiveReduction [(1, 10, []), (7, 10, [])]).irr [1, 4] :=
  (C49_transitive_reduction probeRun rfl _).1 _ (Or.inr ⟨2, by decide⟩)

/-- x₁ → x₂, x₂ → x₃, x₂ → x₄, ¬x₃ ∨ ¬x₄, x₅ → x₆. -/
def backboneCnf : List (List Int) := [[-1, 2], [-2, 3], [-2, 4], [-3, -4], [-5, 6]]

theorem backboneRun : Run 6 backboneCnf (.ofClauses 6 backboneCnf) := .start ⟨by unfold Clean; decide, rfl⟩

/-- The first unique implication point is x₂, which is false; then so is x₁. -/
example : (((State.ofClauses 6 backboneCnf).backbone [([8, 0, 1], [0])]).map fun s => (s.inconsistent, s.trail)) =
    some (false, [3, 1]) := by decide

example : ∃ s', (State.ofClauses 6 backboneCnf).backbone [([8, 0, 1], [0])] = some s' ∧ Run 6 backboneCnf s' := by
  obtain ⟨s', h1, h2, _⟩ := C49_backbone backboneRun rfl (by decide) [([8, 0, 1], [0])]
  exact ⟨s', h1, h2⟩

end Verif.Props
