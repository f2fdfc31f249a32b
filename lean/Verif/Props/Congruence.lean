import Verif.Props.Simplify
import Verif.Proofs.Congruence.Sound

/-!
# Congruence closure (C51)

`Run n cnf s` as in `Props/Simplify.lean`: any state reached by any sequence of techniques.  `congruence s o` is a call of
`kissat_congruence`, where `o` are the choices of heuristics, and `findRepr` gives the representative of a literal: two literals were
merged if and only if they have the same one.
-/

namespace Verif.Props

open Verif.Spec Verif.Simp Verif.Model Verif.Congruence

/-- What a gate says: its output is the conjunction, the parity or the choice of its inputs. -/
def GateHolds (σ : Assignment) (g : Gate) : Prop :=
  match g.tag, g.rhs with
  | .and, inputs => litTrue σ g.lhs ↔ ∀ r ∈ inputs, litTrue σ r
  | .xor, inputs => litTrue σ g.lhs ↔ (inputs.countP fun r => decide (litTrue σ r)) % 2 = 1
  | .ite, [cond, t, e] => litTrue σ g.lhs ↔ if litTrue σ cond then litTrue σ t else litTrue σ e
  | .ite, _ => False

/-- C51: every literal is equivalent to its representative in all models of the clauses of the solver, whatever gates were found and
in whatever order they were merged. -/
theorem C51_representative {n : Nat} {cnf : List (List Int)} {s : State} (h : Run n cnf s) (hi : s.inconsistent = false) (o : Options)
    {σ : Assignment} (hσ : SatFormula σ s.formula) (l : Nat) : litTrue σ l ↔ litTrue σ ((congruence s o).findRepr l) :=
  congruence_same (h.fine.inv hi) hi o hσ l

/-- C51: merged literals are equivalent in all models. -/
theorem C51_merged {n : Nat} {cnf : List (List Int)} {s : State} (h : Run n cnf s) (hi : s.inconsistent = false) (o : Options)
    {a b : Nat} (hab : (congruence s o).findRepr a = (congruence s o).findRepr b) {σ : Assignment} (hσ : SatFormula σ s.formula) :
    litTrue σ a ↔ litTrue σ b := by
  rw [C51_representative h hi o hσ a, hab, ← C51_representative h hi o hσ b]

/-- C51: a literal and its negation are never merged: unless the empty clause was derived, the negation has the negated
representative. -/
theorem C51_negation {n : Nat} {cnf : List (List Int)} {s : State} (h : Run n cnf s) (hi : s.inconsistent = false) (o : Options)
    (hc : (closed s o).solver.inconsistent = false) (l : Nat) :
    (congruence s o).findRepr (neg l) = neg ((congruence s o).findRepr l) ∧
    (congruence s o).findRepr (neg l) ≠ (congruence s o).findRepr l := by
  rw [findRepr_congr (congruence_repr (h.fine.inv hi) hi o).1, findRepr_congr (congruence_repr (h.fine.inv hi) hi o).1]
  obtain ⟨E, g⟩ := (Fine.closed (h.fine.inv hi) hi o).good hc
  rw [g.base.root_neg]
  exact ⟨rfl, neg_ne _⟩

/-- C51: all gates, with their inputs as rewritten so far, hold in all models. -/
theorem C51_gates {n : Nat} {cnf : List (List Int)} {s : State} (h : Run n cnf s) (hi : s.inconsistent = false) (o : Options)
    (hc : (closed s o).solver.inconsistent = false) {g : Gate} (hg : g ∈ (closed s o).gates) (hl : g.garbage = false)
    {σ : Assignment} (hσ : SatFormula σ s.formula) : GateHolds σ g := by
  obtain ⟨E, good⟩ := (Fine.closed (h.fine.inv hi) hi o).good hc
  obtain ⟨k, hk, rfl⟩ := List.mem_iff_getElem.1 hg
  have e : (closed s o).gate k = (closed s o).gates[k] := by
    unfold Closure.gate
    rw [List.getD_eq_getElem?_getD, List.getElem?_eq_getElem hk]; rfl
  rw [← e] at hl ⊢
  obtain ⟨_, _, h3⟩ := good.gates k (by simp) hl
  have hσ' : SatFormula σ (Congruence.base (closed s o).solver E) := fun d hd => good.base.inv.models σ hσ d (base_full hd)
  unfold GateHolds
  generalize (closed s o).gate k = g at h3 ⊢
  obtain ⟨tag, lhs, rhs, _⟩ := g
  cases tag with
  | and => exact AndOk.sound h3 hσ'
  | xor => exact XorOk.sound h3.1 hσ'
  | ite =>
    obtain ⟨a, t, e, h4, h5, _⟩ := h3
    have h4 : rhs = [a, t, e] := h4
    subst h4
    exact IteOk.sound h5 hσ'

/-- C51: the irredundant clauses kept imply all equivalences, so they can be substituted later. -/
theorem C51_recorded {n : Nat} {cnf : List (List Int)} {s : State} (h : Run n cnf s) (hi : s.inconsistent = false) (o : Options)
    (hc : (congruence s o).solver.inconsistent = false) {a b : Nat} (hab : (congruence s o).findRepr a = (congruence s o).findRepr b)
    {σ : Assignment} (hσ : SatFormula σ (congruence s o).solver.irr) : litTrue σ a ↔ litTrue σ b := by
  have hr := congruence_recorded (h.fine.inv hi) hi o hc hσ
  rw [hr a, hab, ← hr b]

/-- C51: no models are lost. -/
theorem C51_models {n : Nat} {cnf : List (List Int)} {s : State} (h : Run n cnf s) (hi : s.inconsistent = false) (o : Options)
    {σ : Assignment} (hσ : SatFormula σ s.formula) : (congruence s o).solver.inconsistent = false ∧
    SatFormula σ (congruence s o).solver.formula := by
  obtain ⟨_, E, h1⟩ := congruence_repr (h.fine.inv hi) hi o
  refine ⟨?_, fun d hd => h1.models σ hσ d (Or.inl hd)⟩
  cases hc : (congruence s o).solver.inconsistent with
  | false => rfl
  | true => exact absurd hσ (h1.unsat hc σ)

/-- C51: the remaining clauses are satisfiable if and only if those given by the user are. -/
theorem C51_equisatisfiable {n : Nat} {cnf : List (List Int)} {s : State} (h : Run n cnf s) (hi : s.inconsistent = false) (o : Options) :
    ((congruence s o).solver.inconsistent = true → ¬ ESatisfiable cnf) ∧
    ((congruence s o).solver.inconsistent = false → (ESatisfiable cnf ↔ Satisfiable (congruence s o).solver.irr)) :=
  ⟨C44_unsat (.congruence o h hi), C44_equisatisfiable (.congruence o h hi)⟩

/-- C51: the lines written to the proof, those of the chains for merged gates included, are accepted. -/
theorem C51_proof {n : Nat} {cnf : List (List Int)} {s : State} (h : Run n cnf s) (hi : s.inconsistent = false) (o : Options) :
    ∃ db, Replay (cnf.map fun c => c.map code) (congruence s o).solver.proof db ∧
      ((congruence s o).solver.inconsistent = true → [] ∈ db) := by
  obtain ⟨db, h1, h2, _⟩ := C44_proof (.congruence o h hi)
  exact ⟨db, h1, h2⟩

/-! ## Instances -/

/-- Two conjunctions and two parities of x₁ and x₂, and two choices between x₁₀ and x₁₁. -/
def gatesCnf : List (List Int) := [[-3, 1], [-3, 2], [3, -1, -2], [-4, 1], [-4, 2], [4, -1, -2],
  [-5, 1, 2], [-5, -1, -2], [5, -1, 2], [5, 1, -2], [-6, 1, 2], [-6, -1, -2], [6, -1, 2], [6, 1, -2],
  [-8, -9, 10], [-8, 9, -10], [8, -9, 11], [8, 9, -11], [-8, -12, 10], [-8, 12, -10], [8, -12, 11], [8, 12, -11]]

/-- Try everything. -/
def gatesOptions : Options where
  order := fun s => List.range s.arena.length
  ternaries := List.range 22
  ands := [(2, [4]), (5, [6])]
  xorVisited := []
  xorConnected := List.range 22
  xors := [(6, []), (10, [])]
  iteVisited := []
  iteConnected := List.range 22
  ites := [7]
  units := List.range 12
  equivalences := (List.range 12).map fun v => (v, 3)
  iterations := 20
  forward := true
  considered := List.range 40
  candidates := (List.range 40).map fun r => (r, List.range r)

theorem gatesRun : Run 12 gatesCnf (.ofClauses 12 gatesCnf) := .start ⟨by unfold Clean; decide, rfl⟩

/-- The outputs x₃ and x₄, x₅ and x₆, x₉ and x₁₂ are merged. -/
example : ((List.range 12).map fun v => (congruence (.ofClauses 12 gatesCnf) gatesOptions).findRepr (2 * v)) =
    [0, 2, 4, 4, 8, 8, 12, 14, 16, 18, 20, 16] := by decide +kernel

example : ((closed (.ofClauses 12 gatesCnf) gatesOptions).gates.map fun g => (g.tag, g.lhs, g.rhs, g.garbage)) =
    [(.and, 4, [0, 2], false), (.xor, 8, [0, 2], false), (.xor, 0, [2, 8], false), (.xor, 2, [0, 8], false),
      (.xor, 0, [2, 8], true), (.xor, 2, [0, 8], true), (.ite, 16, [14, 18, 20], false)] := by decide +kernel

/-- The clauses of the second gates are subsumed modulo the equivalences. -/
example : ((congruence (.ofClauses 12 gatesCnf) gatesOptions).solver.arena.map fun c => (c.lits, c.garbage)).drop 5 =
    [([6, 1, 3], true), ([9, 0, 2], false), ([9, 1, 3], false), ([8, 1, 2], false), ([8, 0, 3], false), ([11, 0, 2], true),
      ([11, 1, 3], true), ([10, 1, 2], true), ([10, 0, 3], true), ([15, 17, 18], false), ([15, 16, 19], false),
      ([14, 17, 20], false), ([14, 16, 21], false), ([15, 23, 18], true), ([15, 22, 19], true), ([14, 23, 20], true),
      ([14, 22, 21], true), ([7, 4], false), ([6, 5], false), ([11, 8], false), ([10, 9], false), ([23, 16], false),
      ([22, 17], false)] := by decide +kernel

/-- Two conjunctions of x₁ and x₂, and conjunctions of each of them with x₈. -/
def nestedCnf : List (List Int) := [[-3, 1], [-3, 2], [3, -1, -2], [-4, 1], [-4, 2], [4, -1, -2],
  [-7, 3], [-7, 8], [7, -3, -8], [-9, 4], [-9, 8], [9, -4, -8]]

/-- After x₃ and x₄ are merged the last gate is rewritten, and x₇ and x₉ are merged too. -/
example : ((List.range 9).map fun v => (congruence (.ofClauses 9 nestedCnf)
    { gatesOptions with ands := [(2, [4]), (5, [6]), (8, [12]), (11, [16])], xors := [], ites := [] }).findRepr (2 * v)) =
    [0, 2, 4, 4, 8, 10, 12, 14, 12] := by decide +kernel

example {σ : Assignment} (hσ : SatFormula σ (State.ofClauses 12 gatesCnf).formula) : litTrue σ 16 ↔ litTrue σ 22 :=
  C51_merged gatesRun (by decide) gatesOptions (by decide +kernel) hσ

end Verif.Props
