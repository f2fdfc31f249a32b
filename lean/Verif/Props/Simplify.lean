import Verif.Proofs.Simp.Run
import Verif.Proofs.Answers

/-!
# Simplification techniques (C44, C45, C48, C62)

`Run n cnf s`: the solver was given the clauses `cnf` over the variables 1, …, n, and `s` is a state
after any sequence of the modelled techniques with any choices of the heuristics.  `s.irr` are the
clauses which matter for satisfiability (live irredundant clauses and root level units, over
internal literals), `s.formula` has the redundant ones as well.
-/

namespace Verif.Props

open Verif.Spec Verif.Simp Verif.Model

theorem esat_iff {σ : Assignment} {c : List Int} (h0 : ∀ e ∈ c, e ≠ 0) :
    SatClause σ (c.map code) ↔ ESat σ c := by
  have key : ∀ e : Int, e ≠ 0 → (litTrue σ (code e) ↔ ElitTrue σ e) := by
    intro e he
    unfold litTrue ElitTrue
    rw [code_div, show decide (code e % 2 = 0) = decide (0 < e) by
      rw [decide_eq_decide]; unfold code; split <;> omega]
  constructor
  · rintro ⟨x, hx, h⟩
    obtain ⟨e, he, rfl⟩ := List.mem_map.1 hx
    exact ⟨e, he, (key e (h0 e he)).1 h⟩
  · rintro ⟨e, he, h⟩
    exact ⟨_, List.mem_map_of_mem he, (key e (h0 e he)).2 h⟩

theorem run_nonzero {n : Nat} {cnf : List (List Int)} {s : State} (h : Run n cnf s) :
    ∀ c ∈ cnf, ∀ e ∈ c, e ≠ 0 := fun c hc e he => ((h.clean c hc).2.2 e he).1

theorem esatisfiable_iff {cnf : List (List Int)} (h0 : ∀ c ∈ cnf, ∀ e ∈ c, e ≠ 0) :
    Satisfiable (ofList (cnf.map fun c => c.map code)) ↔ ESatisfiable cnf := by
  constructor
  · rintro ⟨σ, hσ⟩
    exact ⟨σ, fun c hc => (esat_iff (h0 c hc)).1 (hσ _ (List.mem_map_of_mem hc))⟩
  · rintro ⟨σ, hσ⟩
    refine ⟨σ, fun c hc => ?_⟩
    obtain ⟨d, hd, rfl⟩ := List.mem_map.1 hc
    exact (esat_iff (h0 d hd)).2 (hσ d hd)

/-- C44: the empty clause is derived only if the clauses given by the user are unsatisfiable. -/
theorem C44_unsat {n : Nat} {cnf : List (List Int)} {s : State} (h : Run n cnf s)
    (hi : s.inconsistent = true) : ¬ ESatisfiable cnf := by
  obtain ⟨db, h1, h2⟩ := h.fine.unsat hi
  rw [← esatisfiable_iff (run_nonzero h)]
  exact h1.refutes h2

/-- C44: the remaining clauses are satisfiable if and only if those given by the user are. -/
theorem C44_equisatisfiable {n : Nat} {cnf : List (List Int)} {s : State} (h : Run n cnf s)
    (hi : s.inconsistent = false) : ESatisfiable cnf ↔ Satisfiable s.irr := by
  rw [← esatisfiable_iff (run_nonzero h)]
  exact (h.fine.inv hi).sat_iff

/-- C44: whatever model `τ` of the remaining clauses the search finds, `kissat_value` then gives a
model of the clauses of the user: there is one function `f` which answers all queries in any order, and
every assignment which agrees with it satisfies the clauses. -/
theorem C44_reconstruction {n : Nat} {cnf : List (List Int)} {s : State} (h : Run n cnf s)
    (hi : s.inconsistent = false) {τ : Assignment} (hτ : SatFormula τ s.irr) :
    ∃ f : Int → Int, (∀ queries, (s.found τ).answers queries = some (queries.map f)) ∧
      ∀ σ : Assignment, (∀ v : Nat, f v ≠ 0 → σ v = decide (f v = v)) → ∀ c ∈ cnf, ESat σ c := by
  obtain ⟨f, h1, h2⟩ := (h.fine.inv hi).reconstruct hτ
  exact ⟨f, h1, fun σ hσ c hc => (esat_iff (run_nonzero h c hc)).1 (h2 σ hσ _ (List.mem_map_of_mem hc))⟩

/-- C44: the lines written to the proof are accepted by a checker given the clauses of the user, which then
holds all clauses of the solver, and the empty clause if it was derived. -/
theorem C44_proof {n : Nat} {cnf : List (List Int)} {s : State} (h : Run n cnf s) :
    ∃ db, Replay (cnf.map fun c => c.map code) s.proof db ∧ (s.inconsistent = true → [] ∈ db) ∧
      (s.inconsistent = false → ∀ c, s.formula c → ∃ d ∈ db, SameLits (c.map s.ext) d) := by
  cases hi : s.inconsistent with
  | true =>
    obtain ⟨db, h1, h2⟩ := h.fine.unsat hi
    exact ⟨db, h1, fun _ => h2, fun h => (by cases h)⟩
  | false =>
    obtain ⟨db, h1, h2⟩ := (h.fine.inv hi).struct.proof
    exact ⟨db, h1, fun h => (by cases h), fun _ c hc => h2.mem hc⟩

/-- C44: eliminated variables occur in no irredundant clause or unit. -/
theorem C44_gone {n : Nat} {cnf : List (List Int)} {s : State} (h : Run n cnf s)
    (hi : s.inconsistent = false) {c : List Nat} (hc : s.irr c) {l : Nat} (hl : l ∈ c) :
    s.removed (l / 2) = false := by
  have hS := (h.fine.inv hi).struct
  rcases hc with ⟨k, hk, rfl⟩ | ⟨r, r1, r2, rfl⟩
  · rw [List.mem_singleton.1 hl]; exact (hS.unit k hk).2
  · exact hS.removed r r1 r2 l hl

/-- C62: every model of the irredundant clauses and units gives one of all clauses, including the redundant ones,
without changing the value of a variable which was not eliminated. -/
theorem C62_conservative {n : Nat} {cnf : List (List Int)} {s : State} (h : Run n cnf s)
    (hi : s.inconsistent = false) {σ : Assignment} (hσ : SatFormula σ s.irr) :
    ∃ τ, SatFormula τ s.formula ∧ ∀ v, s.removed v = false → τ v = σ v := by
  obtain ⟨τ, h1, h2⟩ := (h.fine.inv hi).implied σ hσ
  exact ⟨τ, h1, fun v hv => h2 v hv (by simp)⟩

/-- C62: so every clause of the solver without eliminated variables, in particular every learned clause which is
watched again, follows from the irredundant clauses. -/
theorem C62_follows {n : Nat} {cnf : List (List Int)} {s : State} (h : Run n cnf s)
    (hi : s.inconsistent = false) {c : List Nat} (hc : s.formula c) (hr : ∀ l ∈ c, s.removed (l / 2) = false) :
    Entails s.irr c := by
  intro σ hσ
  obtain ⟨τ, h1, h2⟩ := C62_conservative h hi hσ
  obtain ⟨l, hl, ht⟩ := h1 c hc
  refine ⟨l, hl, ?_⟩
  unfold litTrue at ht ⊢
  rw [← h2 _ (hr l hl)]
  exact ht

/-- C44: trying to eliminate one variable, from any state reached: the clauses before and after are
satisfiable or both are not; if the empty clause is derived then those before were unsatisfiable. -/
theorem C44_one_variable {n : Nat} {cnf : List (List Int)} {s : State} (h : Run n cnf s)
    (hi : s.inconsistent = false) (o : ElimOptions) (hk : o.kitten.Sound) {idx : Nat}
    (ha : s.active idx = true) :
    ((s.eliminateVariable o idx).inconsistent = true → ¬ Satisfiable s.irr) ∧
    ((s.eliminateVariable o idx).inconsistent = false →
      (Satisfiable s.irr ↔ Satisfiable (s.eliminateVariable o idx).irr)) := by
  have h0 := h.fine.inv hi
  have h1 := Fine.eliminateVariable h0 o hk ha
  refine ⟨fun hh => ?_, fun hh => ?_⟩
  · obtain ⟨db, d1, d2⟩ := h1.unsat hh
    rw [← h0.sat_iff]
    exact d1.refutes d2
  · rw [← h0.sat_iff, (h1.inv hh).sat_iff]

/-- C45: the gate clauses found for a literal `lit` are among the live clauses with the literal and with its negation, and
they define it: two assignments which satisfy them, as well as the root level units, and agree on
all other variables agree on the variable of `lit` too.  The only exception is that a unit was
learned for `lit` itself, in which case the gate is not used (resolve.c:303-307). -/
theorem C45_definition {n : Nat} {cnf : List (List Int)} {s : State} (h : Run n cnf s)
    (hi : s.inconsistent = false) (o : GateOptions) (hk : o.kitten.Sound) {lit : Nat}
    (ha : s.active (lit / 2) = true) {s' : State} {g : Gates}
    (hg : s.findGates o lit (s.occurrences lit) (s.occurrences (neg lit)) = (s', some g))
    (hv : s'.values lit = 0) :
    (∀ r ∈ g.pos, s.irr (s.clause r).lits ∧ lit ∈ (s.clause r).lits) ∧
    (∀ r ∈ g.neg, s.irr (s.clause r).lits ∧ neg lit ∈ (s.clause r).lits) ∧
    ∀ σ τ : Assignment, (∀ l ∈ s'.trail, litTrue σ l ∧ litTrue τ l) →
      (∀ r ∈ g.pos ++ g.neg, SatClause σ (s.clause r).lits ∧ SatClause τ (s.clause r).lits) →
      (∀ v, v ≠ lit / 2 → σ v = τ v) → σ (lit / 2) = τ (lit / 2) := by
  have h0 := h.fine.inv hi
  unfold State.active at ha
  simp only [Bool.and_eq_true, decide_eq_true_eq, Bool.not_eq_true'] at ha
  obtain ⟨⟨a1, a2⟩, a3⟩ := ha
  have hval : s.values lit = 0 := by
    rcases eq_or_eq_neg (show lit / 2 = 2 * (lit / 2) / 2 by omega) with e | e
    · rw [e]; exact a3
    · rw [e, h0.struct.neg, a3]; rfl
  obtain ⟨_, k⟩ := (h0.ginv hval a1 a2).findGates (occurrences_nodup _ _) (occurrences_nodup _ _) o hk
  rw [hg] at k
  have k := k hv
  have hG := k.gate g rfl
  have pos : ∀ r ∈ g.pos, s.irr (s.clause r).lits ∧ lit ∈ (s.clause r).lits := fun r hr => by
    obtain ⟨m1, m2, m3⟩ := mem_occurrences.1 (hG.pos r hr)
    exact ⟨Or.inr ⟨r, m1, m2, rfl⟩, m3⟩
  have neg : ∀ r ∈ g.neg, s.irr (s.clause r).lits ∧ Spec.neg lit ∈ (s.clause r).lits := fun r hr => by
    obtain ⟨m1, m2, m3⟩ := mem_occurrences.1 (hG.neg r hr)
    exact ⟨Or.inr ⟨r, m1, m2, rfl⟩, m3⟩
  refine ⟨pos, neg, fun σ τ ht hc hag => ?_⟩
  -- the one which makes `lit` false satisfies the rest of the clauses with `lit`
  have main : ∀ σ τ : Assignment, (∀ l ∈ s'.trail, litTrue σ l ∧ litTrue τ l) →
      (∀ r ∈ g.pos ++ g.neg, SatClause σ (s.clause r).lits ∧ SatClause τ (s.clause r).lits) →
      (∀ v, v ≠ lit / 2 → σ v = τ v) → litTrue σ lit → ¬ litTrue τ lit → False := by
    intro σ τ ht hc hag h1 h2
    refine hG.unsat σ (fun l hl => (ht l hl).1) (fun r hr => ?_) fun r hr => ?_
    · obtain ⟨m, m1, m2⟩ := (hc r (List.mem_append_left _ hr)).2
      have hne : m ≠ lit := by rintro rfl; exact h2 m2
      refine ⟨m, mem_except.2 ⟨by rw [k.step.frame.lits]; exact m1, hne⟩, ?_⟩
      have hne2 : m ≠ Spec.neg lit := by
        rintro rfl
        exact h0.struct.taut r (mem_occurrences.1 (hG.pos r hr)).1 lit (pos r hr).2 m1
      unfold litTrue at m2 ⊢
      rw [hag _ (ne_var hne hne2)]; exact m2
    · obtain ⟨m, m1, m2⟩ := (hc r (List.mem_append_right _ hr)).1
      refine ⟨m, mem_except.2 ⟨by rw [k.step.frame.lits]; exact m1, ?_⟩, m2⟩
      rintro rfl
      exact (litTrue_neg _ _).1 m2 h1
  have e : (litTrue σ lit ↔ litTrue τ lit) := by
    constructor
    · intro h1
      refine Classical.byContradiction fun h2 => main σ τ ht hc hag h1 h2
    · intro h1
      refine Classical.byContradiction fun h2 => main τ σ (fun l hl => (ht l hl).symm)
        (fun r hr => (hc r hr).symm) (fun v hv => (hag v hv).symm) h1 h2
  unfold litTrue at e
  rcases Nat.mod_two_eq_zero_or_one lit with h2 | h2 <;> simp only [h2] at e <;>
    cases e1 : σ (lit / 2) <;> cases e2 : τ (lit / 2) <;> simp [e1, e2] at e ⊢

/-- C48: forward subsumption, with any candidates and whatever is connected, keeps the models of the
irredundant clauses and units. -/
theorem C48_models {n : Nat} {cnf : List (List Int)} {s : State} (h : Run n cnf s)
    (hi : s.inconsistent = false) (elig : Nat → Bool) (conn : Nat → Nat → Bool) (flushed : List Nat)
    (candidates : List (Nat × (Nat → List Nat) × (Nat → Nat → Bool))) (σ : Assignment) :
    SatFormula σ s.irr ↔ SatFormula σ (s.forwardSubsume elig conn flushed candidates).irr :=
  (step_forwardSubsume (h.fine.inv hi) elig conn flushed candidates).same σ

/-- C48: if the empty clause is derived then there were no models. -/
theorem C48_unsat {n : Nat} {cnf : List (List Int)} {s : State} (h : Run n cnf s)
    (hi : s.inconsistent = false) (elig : Nat → Bool) (conn : Nat → Nat → Bool) (flushed : List Nat)
    (candidates : List (Nat × (Nat → List Nat) × (Nat → Nat → Bool)))
    (hu : (s.forwardSubsume elig conn flushed candidates).inconsistent = true) : ¬ Satisfiable s.irr := by
  rw [← C44_equisatisfiable h hi]
  exact C44_unsat (.forward elig conn flushed candidates h hi) hu

/-- C48: one candidate.  If it is subsumed then the clauses with which it is compared contain a live irredundant one,
other than the candidate, all of whose literals are in the candidate or false; if the literal `x` is removed then they
contain one with `¬x` all of whose other literals are in the candidate, or false. -/
theorem C48_candidate {n : Nat} {cnf : List (List Int)} {s : State} (h : Run n cnf s)
    (hi : s.inconsistent = false) {c : Nat} (watches : Nat → List Nat) {s' : State} {subsumed : Bool}
    {remove : Option Nat}
    (hr : s.forwardMarked watches c ((s.clause c).lits.filter fun l => s.values l = 0)
      (s.clause c).lits none = (s', subsumed, remove)) :
    (subsumed = true → ∃ d, d ≠ c ∧ s'.irr (s'.clause d).lits ∧
      ∀ m ∈ (s'.clause d).lits, m ∈ (s.clause c).lits ∨ s'.values m < 0) ∧
    (∀ x, remove = some x → x ∈ (s.clause c).lits ∧ ∃ d, d ≠ c ∧ s'.irr (s'.clause d).lits ∧
      neg x ∈ (s'.clause d).lits ∧
      ∀ m ∈ (s'.clause d).lits, m ≠ neg x → m ∈ (s.clause c).lits ∨ s'.values m < 0) := by
  have o := outcome_marked (c := c) (marks := (s.clause c).lits.filter fun l => s.values l = 0)
    watches (s.clause c).lits none (h.fine.inv hi)
    (fun m hm => by simpa using (List.mem_filter.1 hm).2)
    (fun l hl hv => List.mem_filter.2 ⟨hl, by simpa using hv⟩) (fun x hx => (by cases hx))
  rw [hr] at o
  refine ⟨fun hs => ?_, fun x hx => ?_⟩
  · obtain ⟨d, d1, d2, d3, d4⟩ := o.subsumes hs
    exact ⟨d, d1, Or.inr ⟨d, d2, d3, rfl⟩, fun m hm => (d4 m hm).imp (fun h => (List.mem_filter.1 h).1) id⟩
  · obtain ⟨x1, d, d1, d2, d3, d4, d5⟩ := o.removes x hx
    exact ⟨(List.mem_filter.1 x1).1, d, d1, Or.inr ⟨d, d2, d3, rfl⟩, d4,
      fun m hm hne => (d5 m hm hne).imp (fun h => (List.mem_filter.1 h).1) id⟩

/-! ## Instances -/

/-- x₁ = x₂ ∧ x₃, and (x₁ ∨ x₄)(¬x₁ ∨ x₅)(¬x₄ ∨ ¬x₅). -/
def andCnf : List (List Int) := [[-1, 2], [-1, 3], [1, -2, -3], [1, 4], [-1, 5], [-4, -5]]

/-- All gates, no sub-solver. -/
def plain : ElimOptions where
  extract := true
  equivalences := true
  ands := true
  ifthenelse := true
  definitions := true
  occlim := 100
  kitten := fun _ => none
  clslim := 100
  bound := 16
  incremental := false
  stale := false

theorem plain_sound : plain.kitten.Sound := fun _ _ _ _ h => (by cases h)

theorem andRun : Run 5 andCnf (.ofClauses 5 andCnf) := .start ⟨by unfold Clean; decide, rfl⟩

/-- The AND gate is found: base clause (1 ¬2 ¬3), binary clauses (¬1 2)(¬1 3). -/
example : ((State.ofClauses 5 andCnf).findGates plain.toGateOptions 0
    ((State.ofClauses 5 andCnf).occurrences 0) ((State.ofClauses 5 andCnf).occurrences 1)).2 =
    some ⟨[2], [0, 1], false⟩ := by decide

/-- Eliminating x₁ with the gate, then x₄. -/
def andEliminated : State := (State.ofClauses 5 andCnf).eliminateLoop [(plain, 0), (plain, 3)]

theorem andEliminated_run : Run 5 andCnf andEliminated :=
  .eliminate _ andRun (by
    intro e he
    simp only [List.mem_cons, List.not_mem_nil, or_false] at he
    rcases he with rfl | rfl <;> exact plain_sound)

/-- Both are gone; the resolvent (4 ∨ 5) of two non-gate clauses was never added. -/
example : andEliminated.removed 0 = true ∧ andEliminated.removed 3 = true ∧
    andEliminated.inconsistent = false ∧
    (andEliminated.arena.filter fun c => !c.garbage) =
      [⟨[8, 3, 5], false, false⟩, ⟨[2, 9], false, false⟩, ⟨[4, 9], false, false⟩] ∧
    andEliminated.extend.map (fun e => (e.lit, e.blocking)) =
      [(1, true), (-2, false), (-3, false), (1, true), (4, false), (-1, true), (-4, true), (-5, false), (4, true)] ∧
    andEliminated.proof = [.add [10, 5, 7], .add [8, 4], .add [8, 6], .delete [2, 5, 7], .delete [2, 8],
      .delete [3, 4], .delete [3, 6], .delete [3, 10], .add [4, 11], .add [6, 11], .delete [9, 11],
      .delete [8, 4], .delete [8, 6]] := by decide

example : ESatisfiable andCnf ↔ Satisfiable andEliminated.irr :=
  C44_equisatisfiable andEliminated_run (by decide)

example : Entails andEliminated.irr [2, 9] :=
  C62_follows andEliminated_run (by decide) (Or.inr ⟨9, by decide, by decide⟩) (by decide)

/-- A sub-solver which refutes (2)(¬2) and nothing else. -/
def tinyKitten : Kitten := fun cs => if cs = [[4], [5]] then some ([0, 1], []) else none

example : tinyKitten.Sound := by
  intro cs core lemmas _ h
  unfold tinyKitten at h
  split at h
  · rename_i e
    cases h
    subst e
    refine ⟨.done (Or.inl ⟨[4], ⟨0, by decide, rfl⟩, fun m hm => ?_⟩), fun c hc => (by cases hc)⟩
    rw [List.mem_singleton.1 hm]
    refine .unit (c := [5]) ⟨1, by decide, rfl⟩ (by decide) fun k hk hne => ?_
    exact absurd (List.mem_singleton.1 hk) hne
  · cases h

/-- (1 2)(1 2)(3 ¬4)(3 4) and (1 2 5), (1 ¬2 6 7). -/
def forwardCnf : List (List Int) := [[1, 2], [2, 1], [3, -4], [3, 4], [1, 2, 5], [1, -2, 6, 7]]

theorem forwardRun : Run 7 forwardCnf (.ofClauses 7 forwardCnf) := .start ⟨by unfold Clean; decide, rfl⟩

/-- The duplicate is deleted, the unit 3 found, (1 2 5) subsumed and (1 ¬2 6 7) strengthened. -/
def forwarded : State := (State.ofClauses 7 forwardCnf).forwardSubsume (fun _ => true) (fun _ _ => true) []
  [(4, fun _ => [0, 5], fun _ _ => true), (5, fun _ => [0], fun _ _ => true)]

example : forwarded.trail = [4] ∧ forwarded.inconsistent = false ∧
    (forwarded.arena.filter fun c => !c.garbage) = [⟨[0, 2], false, false⟩, ⟨[4, 7], false, false⟩,
      ⟨[4, 6], false, false⟩, ⟨[0, 10, 12], false, false⟩] ∧
    forwarded.proof = [.delete [4, 2], .add [6], .delete [2, 4, 10], .add [2, 12, 14], .delete [2, 5, 12, 14]] := by
  decide

example (σ : Assignment) : SatFormula σ (State.ofClauses 7 forwardCnf).irr ↔ SatFormula σ forwarded.irr :=
  C48_models forwardRun rfl _ _ _ _ σ

/-- Fast elimination of x₁ and of x₄, with subsumption. -/
def fastOptions : FastOptions := ⟨100, 100, 10, true, fun _ => 100⟩

def fastEliminated : State := (State.ofClauses 5 andCnf).fastElimination
  [([(fastOptions, 0)], [(fastOptions, 3), (fastOptions, 0)])]

theorem fastEliminated_run : Run 5 andCnf fastEliminated := .fastel _ andRun

example : fastEliminated.removed 3 = true ∧ fastEliminated.removed 0 = true ∧ fastEliminated.inconsistent = false ∧
    (fastEliminated.arena.filter fun c => !c.garbage) =
      [⟨[8, 3, 5], false, false⟩, ⟨[9, 2], false, false⟩, ⟨[9, 4], false, false⟩] ∧
    fastEliminated.proof = [.add [2, 11], .delete [2, 8], .delete [9, 11], .add [10, 5, 7], .add [11, 4],
      .add [11, 6], .delete [2, 5, 7], .delete [2, 11], .delete [3, 4], .delete [3, 6], .delete [3, 10]] := by decide

example : ESatisfiable andCnf ↔ Satisfiable fastEliminated.irr :=
  C44_equisatisfiable fastEliminated_run (by decide)

end Verif.Props
