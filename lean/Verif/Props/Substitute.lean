import Verif.Props.Simplify

/-!
# Equivalent literal substitution (C46)

`Run n cnf s` as in `Props/Simplify.lean`.
-/

namespace Verif.Props

open Verif.Spec Verif.Simp Verif.Model

/-- The literal `a` implies `b` through live irredundant binary clauses over active variables. -/
inductive Implies (s : State) : Nat → Nat → Prop
  | refl (a : Nat) : Implies s a a
  | step {a b c : Nat} {d : List Nat} : s.irr d → d.length = 2 → neg a ∈ d → b ∈ d → b ≠ neg a →
      s.active (b / 2) = true → Implies s b c → Implies s a c

theorem Implies.path {s : State} {a b : Nat} (h : Implies s a b) : Path s.implied a b := by
  induction h with
  | refl a => exact .refl a
  | step h1 h2 h3 h4 h5 h6 _ ih =>
    rcases h1 with ⟨l, _, rfl⟩ | ⟨r, r1, r2, rfl⟩
    · simp at h2
    · exact .step (implied_of r1 r2 h2 h3 h4 h5 h6) ih

theorem implies_of_path {s : State} {a b : Nat} (h : Path s.implied a b) : Implies s a b := by
  induction h with
  | refl a => exact .refl a
  | step h1 _ ih =>
    obtain ⟨r, r1, r2, r3, r4, r5, r6, r7⟩ := mem_implied h1
    exact .step (Or.inr ⟨r, r1, r2, rfl⟩) r3 r4 r5 r6 r7 ih

theorem Implies.sat {s : State} {σ : Assignment} (hσ : SatFormula σ s.irr) {a b : Nat} (h : Implies s a b)
    (ha : litTrue σ a) : litTrue σ b := by
  induction h with
  | refl a => exact ha
  | step h1 h2 h3 h4 h5 _ _ ih =>
    obtain ⟨m, m1, m2⟩ := hσ _ h1
    rcases binary_lits h2 h3 h4 h5 m1 with e | e
    · rw [e] at m2; exact absurd ha ((litTrue_neg _ _).1 m2)
    · rw [e] at m2; exact ih m2

/-- The representative which `determine_representatives` stores for a literal. -/
def representative (t : Scc) (a : Nat) : Nat := (t.repr a).getD a

/-- C46: the representatives found are those of the strongly connected components: two active literals have the same
representative if and only if they imply each other; it is the smallest one, and complementary literals have
complementary representatives. -/
theorem C46_representatives {n : Nat} {cnf : List (List Int)} {s : State} (h : Run n cnf s) (hi : s.inconsistent = false)
    {fuel : Nat} {t : Scc}
    (ht : Scc.determine s.implied (fun a => s.active (a / 2)) (2 * s.exports.length) fuel = some t) (hc : t.clash = false) :
    (∀ a b, s.active (a / 2) = true → s.active (b / 2) = true →
      (representative t a = representative t b ↔ (Implies s a b ∧ Implies s b a))) ∧
    (∀ a, representative t a ≤ a ∧ representative t (neg a) = neg (representative t a)) ∧
    ∀ a, s.active (a / 2) = false → representative t a = a := by
  have hS := (h.fine.inv hi).struct
  obtain ⟨_, _, d3⟩ := determine_spec hS.graph (fun a ha => by have := (active_iff.1 ha).1; omega) ht
  have hR := d3 hc
  refine ⟨fun a b ha hb => ⟨fun e => ?_, fun ⟨p1, p2⟩ => hR.max a b ha hb p1.path p2.path⟩, fun a => ⟨hR.le a, ?_⟩, hR.fixed⟩
  · have pa := hR.path a
    have pb := hR.path b
    have e : (t.repr a).getD a = (t.repr b).getD b := e
    rw [e] at pa
    exact ⟨implies_of_path (pa.1.trans pb.2), implies_of_path (pb.1.trans pa.2)⟩
  · cases ha : s.active (a / 2) with
    | true => exact hR.neg a ha
    | false =>
      show (t.repr (Spec.neg a)).getD (Spec.neg a) = Spec.neg ((t.repr a).getD a)
      have e1 : (t.repr a).getD a = a := hR.fixed a ha
      have e2 : (t.repr (Spec.neg a)).getD (Spec.neg a) = Spec.neg a := hR.fixed _ (by show s.active (Spec.neg a / 2) = false; rw [neg_div]; exact ha)
      rw [e1, e2]

/-- C46: literals of one component have the same value in every model. -/
theorem C46_equivalent {s : State} {σ : Assignment} (hσ : SatFormula σ s.irr) {a b : Nat} (h1 : Implies s a b)
    (h2 : Implies s b a) : litTrue σ a ↔ litTrue σ b := ⟨h1.sat hσ, h2.sat hσ⟩

/-- C46: the computation of the representatives terminates. -/
theorem C46_terminates {n : Nat} {cnf : List (List Int)} {s : State} (h : Run n cnf s) (hi : s.inconsistent = false) :
    ∃ fuel t, Scc.determine s.implied (fun a => s.active (a / 2)) (2 * s.exports.length) fuel = some t := by
  have hS := (h.fine.inv hi).struct
  refine determine_terminates fun a b hb => ?_
  have := (active_iff.1 (hS.graph.closed a b hb)).1
  omega

/-- C46: if a literal and its negation are in one component then the round derives the empty clause. -/
theorem C46_complementary {n : Nat} {cnf : List (List Int)} {s : State} (h : Run n cnf s) (hi : s.inconsistent = false)
    (o : SubstituteOptions) {t : Scc}
    (ht : Scc.determine s.implied (fun a => s.active (a / 2)) (2 * s.exports.length) o.fuel = some t) {a : Nat}
    (ha : s.active (a / 2) = true) (h1 : Implies s a (neg a)) (h2 : Implies s (neg a) a) :
    (s.substituteRound o).inconsistent = true := by
  have h0 := h.fine.inv hi
  obtain ⟨d1, d2⟩ := h0.determine ht o.order
  unfold State.substituteRound
  rw [ht]
  dsimp only
  by_cases hc : (s.assignUnits (fun _ => true) o.order t.units).inconsistent = true
  · rw [if_pos hc]; exact hc
  · obtain ⟨_, hR, _⟩ := d2.resolve_left hc
    have e1 := hR.max a (Spec.neg a) ha (by show s.active (Spec.neg a / 2) = true; rw [neg_div]; exact ha) h1.path h2.path
    have e2 := hR.neg a ha
    rw [e2] at e1
    exact absurd e1.symm (neg_ne _)

/-- C46: a round of substitution from any state reached.  The clauses before and after are satisfiable or both are not, and
if the empty clause is derived then those before were unsatisfiable. -/
theorem C46_equisatisfiable {n : Nat} {cnf : List (List Int)} {s : State} (h : Run n cnf s) (hi : s.inconsistent = false)
    (o : SubstituteOptions) :
    ((s.substituteRound o).inconsistent = true → ¬ Satisfiable s.irr) ∧
    ((s.substituteRound o).inconsistent = false → (Satisfiable s.irr ↔ Satisfiable (s.substituteRound o).irr)) := by
  have h0 := h.fine.inv hi
  have h1 := Fine.substituteRound h0 o
  refine ⟨fun hh => ?_, fun hh => ?_⟩
  · obtain ⟨db, d1, d2⟩ := h1.unsat hh
    rw [← h0.sat_iff]
    exact d1.refutes d2
  · rw [← h0.sat_iff, (h1.inv hh).sat_iff]

/-- C46: every model of the clauses after the round is extended to a model of those of the user. -/
theorem C46_reconstruction {n : Nat} {cnf : List (List Int)} {s : State} (h : Run n cnf s) (hi : s.inconsistent = false)
    (o : SubstituteOptions) (hu : (s.substituteRound o).inconsistent = false) {τ : Assignment}
    (hτ : SatFormula τ (s.substituteRound o).irr) :
    ∃ f : Int → Int, (∀ queries, ((s.substituteRound o).found τ).answers queries = some (queries.map f)) ∧
      ∀ σ : Assignment, (∀ v : Nat, f v ≠ 0 → σ v = decide (f v = v)) → ∀ c ∈ cnf, ESat σ c :=
  C44_reconstruction (.substitute o h hi) hu hτ

/-- C46: the lines written to the proof during the round are accepted. -/
theorem C46_proof {n : Nat} {cnf : List (List Int)} {s : State} (h : Run n cnf s) (hi : s.inconsistent = false)
    (o : SubstituteOptions) :
    ∃ db, Replay (cnf.map fun c => c.map code) (s.substituteRound o).proof db ∧
      ((s.substituteRound o).inconsistent = true → [] ∈ db) := by
  obtain ⟨db, h1, h2, _⟩ := C44_proof (.substitute o h hi)
  exact ⟨db, h1, h2⟩

/-! ## Instances -/

/-- x₁ = x₂ = ¬x₃, (x₁ ∨ x₃ ∨ x₄)(¬x₂ ∨ x₄ ∨ x₅)(¬x₁ ∨ x₃ ∨ ¬x₅). -/
def eqCnf : List (List Int) := [[-1, 2], [1, -2], [2, 3], [-2, -3], [1, 3, 4], [-2, 4, 5], [-1, 3, -5]]

theorem eqRun : Run 5 eqCnf (.ofClauses 5 eqCnf) := .start ⟨by unfold Clean; decide, rfl⟩

def eqOptions : SubstituteOptions := ⟨100, false, fun s => List.range s.arena.length⟩

/-- The other two variables are gone; their clauses are weakened. -/
example : let s := (State.ofClauses 5 eqCnf).substituteRound eqOptions
    s.inconsistent = false ∧ s.removed 1 = true ∧ s.removed 2 = true ∧
    (s.arena.filter fun c => !c.garbage) = [⟨[1, 6, 8], false, false⟩, ⟨[1, 9], false, false⟩] ∧
    s.extend.map (fun e => (e.lit, e.blocking)) =
      [(-2, true), (1, false), (2, true), (-3, true), (-1, false), (3, true)] := by decide

example : Satisfiable (State.ofClauses 5 eqCnf).irr ↔
    Satisfiable ((State.ofClauses 5 eqCnf).substituteRound eqOptions).irr :=
  (C46_equisatisfiable eqRun rfl eqOptions).2 (by decide)

/-- x₁ = x₂, x₂ = ¬x₁. -/
def clashCnf : List (List Int) := [[-1, 2], [1, -2], [2, 1], [-2, -1]]

theorem clashRun : Run 2 clashCnf (.ofClauses 2 clashCnf) := .start ⟨by unfold Clean; decide, rfl⟩

example : ∃ t, Scc.determine (State.ofClauses 2 clashCnf).implied (fun a => (State.ofClauses 2 clashCnf).active (a / 2)) 4 100 =
    some t ∧ t.clash = true := ⟨_, rfl, by decide⟩

example : ((State.ofClauses 2 clashCnf).substituteRound eqOptions).inconsistent = true := by decide

example : Implies (.ofClauses 2 clashCnf) 0 1 :=
  .step (d := [1, 2]) (b := 2) (Or.inr ⟨0, by decide⟩) rfl (by decide) (by decide) (by decide) (by decide)
    (.step (d := [3, 1]) (b := 1) (Or.inr ⟨3, by decide⟩) rfl (by decide) (by decide) (by decide) (by decide) (.refl _))

end Verif.Props
