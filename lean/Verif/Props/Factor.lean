import Verif.Props.Simplify

/-!
# Bounded variable addition (C47)

`Run n cnf s` as in `Props/Simplify.lean`.  The old internal variables are those below `s.exports.length`.
-/

namespace Verif.Props

open Verif.Spec Verif.Simp Verif.Model

/-- C47, first half: factoring from any state reached, for any schedule, any choice of the next factors and any bound
on the reduction.  The irredundant clauses before and after it have the same models on the old variables. -/
theorem C47_models {n : Nat} {cnf : List (List Int)} {s : State} (h : Run n cnf s) (hi : s.inconsistent = false)
    (bound : Nat) (sched : List (Nat × (Nat → Bool) × List Nat)) (σ : Assignment) :
    (∃ τ : Assignment, (∀ v, v < s.exports.length → τ v = σ v) ∧ SatFormula τ (s.factorize bound sched).irr) ↔
    ∃ τ : Assignment, (∀ v, v < s.exports.length → τ v = σ v) ∧ SatFormula τ s.irr := by
  obtain ⟨_, e⟩ := (h.fine.inv hi).factorize bound sched
  constructor
  · rintro ⟨τ, h1, h2⟩
    exact ⟨τ, h1, e.back τ h2⟩
  · rintro ⟨τ, h1, h2⟩
    obtain ⟨ρ, r1, r2, _⟩ := e.forth τ h2
    exact ⟨ρ, fun v hv => (r1 v hv).trans (h1 v hv), r2⟩

/-- C47: the models of all clauses, redundant ones included, are extended too, so nothing learned is lost; and the
internal literals of the old external variables, and the external literals of the old internal ones, stay. -/
theorem C47_correspondence {n : Nat} {cnf : List (List Int)} {s : State} (h : Run n cnf s) (hi : s.inconsistent = false)
    (bound : Nat) (sched : List (Nat × (Nat → Bool) × List Nat)) :
    (∀ σ, SatFormula σ s.formula → ∃ τ : Assignment, (∀ v, v < s.exports.length → τ v = σ v) ∧
      SatFormula τ (s.factorize bound sched).formula) ∧
    (∀ v, v < s.exports.length → (s.factorize bound sched).exports[v]? = s.exports[v]?) ∧
    ∀ u, u < s.imports.length → (s.factorize bound sched).imports[u]? = s.imports[u]? := by
  obtain ⟨_, e⟩ := (h.fine.inv hi).factorize bound sched
  refine ⟨fun σ hσ => ?_, fun v hv => ?_, fun u hu => ?_⟩
  · obtain ⟨τ, h1, _, h3⟩ := e.forth σ fun c hc => hσ c (State.irr_formula hc)
    exact ⟨τ, h1, h3 hσ⟩
  · obtain ⟨_, hx⟩ := e.exports
    rw [hx, List.getElem?_append_left hv]
  · obtain ⟨_, hx⟩ := e.imports
    rw [hx, List.getElem?_append_left hu]

/-- C47: the lines written to the proof are accepted, those with the fresh variables included. -/
theorem C47_proof {n : Nat} {cnf : List (List Int)} {s : State} (h : Run n cnf s) (hi : s.inconsistent = false)
    (bound : Nat) (sched : List (Nat × (Nat → Bool) × List Nat)) :
    ∃ db, Replay (cnf.map fun c => c.map code) (s.factorize bound sched).proof db := by
  obtain ⟨db, h1, _⟩ := C44_proof (.factor bound sched h hi)
  exact ⟨db, h1⟩

/-- C47: whatever model of the factored clauses is found, and whatever techniques ran before, `kissat_value` gives a
model of the clauses of the user.  Missing: that 0 is returned for fresh variables, which does not hold
(`C47_fresh_visible`). -/
theorem C47_answers_partial {n : Nat} {cnf : List (List Int)} {s : State} (h : Run n cnf s) (hi : s.inconsistent = false)
    (bound : Nat) (sched : List (Nat × (Nat → Bool) × List Nat)) {τ : Assignment}
    (hτ : SatFormula τ (s.factorize bound sched).irr) :
    ∃ f : Int → Int, (∀ queries, ((s.factorize bound sched).found τ).answers queries = some (queries.map f)) ∧
      ∀ σ : Assignment, (∀ v : Nat, f v ≠ 0 → σ v = decide (f v = v)) → ∀ c ∈ cnf, ESat σ c := by
  refine C44_reconstruction (.factor bound sched h hi) ?_ hτ
  rw [((h.fine.inv hi).factorize bound sched).2.inconsistent]; exact hi

/-! ## Instances -/

/-- Three times three clauses, and others. -/
def factorCnf : List (List Int) := [[1, 4], [1, 5], [1, 6], [2, 4], [2, 5], [2, 6], [3, 4], [3, 5], [3, 6], [-1, -2, -3],
  [1, 7, 8], [2, 7, 8], [-4, -5, 7]]

theorem factorRun : Run 8 factorCnf (.ofClauses 8 factorCnf) := .start ⟨by unfold Clean; decide, rfl⟩

/-- With the factors x₁, x₂ and x₃ the clauses with x₇ and x₈ are flushed. -/
example : let s := (State.ofClauses 8 factorCnf).factorize 0 [(0, fun _ => true, [2, 4])]
    (s.exports, s.inconsistent, s.arena.map fun c => (c.lits, c.garbage)) =
    ([1, 2, 3, 4, 5, 6, 7, 8, 9], false, [([0, 6], true), ([0, 8], true), ([0, 10], true), ([2, 6], true), ([2, 8], true),
      ([2, 10], true), ([4, 6], true), ([4, 8], true), ([4, 10], true), ([1, 3, 5], false), ([0, 12, 14], false),
      ([2, 12, 14], false), ([7, 9, 12], false), ([16, 4], false), ([16, 2], false), ([16, 0], false), ([17, 6], false),
      ([17, 8], false), ([17, 10], false)]) := by decide +kernel

/-- With x₁ and x₂ only, they are used. -/
example : let s := (State.ofClauses 8 factorCnf).factorize 0 [(0, fun _ => true, [2])]
    (s.exports, s.inconsistent, s.arena.map fun c => (c.lits, c.garbage)) =
    ([1, 2, 3, 4, 5, 6, 7, 8, 9], false, [([0, 6], true), ([0, 8], true), ([0, 10], true), ([2, 6], true), ([2, 8], true),
      ([2, 10], true), ([4, 6], false), ([4, 8], false), ([4, 10], false), ([1, 3, 5], false), ([0, 12, 14], true),
      ([2, 12, 14], true), ([7, 9, 12], false), ([16, 2], false), ([16, 0], false), ([17, 6], false), ([17, 8], false),
      ([17, 10], false), ([17, 12, 14], false)]) := by decide +kernel

theorem checked_sat {s : State} {τ : Assignment} (h : s.arena.all (fun c => c.garbage ||
    c.lits.any fun l => decide (τ (l / 2) = decide (l % 2 = 0))) = true ∧ s.trail = []) : SatFormula τ s.irr := by
  rintro c (⟨l, hl, rfl⟩ | ⟨r, hg, _, rfl⟩)
  · rw [h.2] at hl; cases hl
  · have hlt := clause_lt hg
    have hm : s.clause r ∈ s.arena := by
      unfold State.clause
      rw [List.getD_eq_getElem?_getD, List.getElem?_eq_getElem hlt]
      exact List.getElem_mem hlt
    have := List.all_eq_true.1 h.1 _ hm
    rw [hg, Bool.false_or] at this
    obtain ⟨l, l1, l2⟩ := List.any_eq_true.1 this
    exact ⟨l, l1, (of_decide_eq_true l2 : τ (l / 2) = decide (l % 2 = 0))⟩

/-- C47, second half, does not hold: the variable 9, which the user never mentioned, gets no value from the original
clauses, but has one after factoring, with the same values for all other variables. -/
theorem C47_fresh_visible : ∃ (s : State) (sched : List (Nat × (Nat → Bool) × List Nat)) (τ : Assignment),
    Run 8 factorCnf s ∧ Run 8 factorCnf (s.factorize 0 sched) ∧ SatFormula τ (s.factorize 0 sched).irr ∧
    (∀ c ∈ factorCnf, ∀ e ∈ c, e.natAbs ≤ 8) ∧
    (s.found τ).answers [1, 8, 9] = some [-1, 8, 0] ∧
    ((s.factorize 0 sched).found τ).answers [1, 8, 9] = some [-1, 8, 9] := by
  refine ⟨.ofClauses 8 factorCnf, [(0, fun _ => true, [2, 4])], fun v => decide (0 < v), factorRun, .factor _ _ factorRun (by decide),
    checked_sat (by decide +kernel), by decide, by decide +kernel, by decide +kernel⟩

example : ∃ τ : Assignment, (∀ v, v < (State.ofClauses 8 factorCnf).exports.length → τ v = decide (0 < v)) ∧
    SatFormula τ ((State.ofClauses 8 factorCnf).factorize 0 [(0, fun _ => true, [2, 4])]).irr :=
  (C47_models factorRun (by decide) 0 _ fun v => decide (0 < v)).2
    ⟨fun v => decide (0 < v), fun _ _ => rfl, checked_sat (by decide +kernel)⟩

/-! ## C65: numbers of extension variables -/

theorem markGarbage_fold_imports : ∀ (rs : List Nat) (s : State), (rs.foldl State.markGarbage s).imports = s.imports
  | [], _ => rfl
  | r :: rs, s => (markGarbage_fold_imports rs (s.markGarbage r)).trans rfl

theorem adds_imports : ∀ (L : List (List Nat)) (s : State), (s.adds L).imports = s.imports
  | [], _ => rfl
  | c :: L, s => (adds_imports L (s.newClause c false)).trans rfl

theorem dividers_imports (fresh : Nat) : ∀ (qs : List Quotient) (s : State),
    (qs.foldl (fun s q => s.addDivider fresh q) s).imports = s.imports
  | [], _ => rfl
  | q :: qs, s => (dividers_imports fresh qs (s.addDivider fresh q)).trans rfl

theorem quotients_imports (fresh factor : Nat) : ∀ (rs : List Nat) (s : State),
    (rs.foldl (fun s r => s.addQuotient fresh factor r) s).imports = s.imports
  | [], _ => rfl
  | r :: rs, s => (quotients_imports fresh factor rs (s.addQuotient fresh factor r)).trans rfl

theorem deletes_imports : ∀ (qs : List Quotient) (s : State), (qs.foldl State.deleteUnfactored s).imports = s.imports
  | [], _ => rfl
  | q :: qs, s => (deletes_imports qs (s.deleteUnfactored q)).trans (markGarbage_fold_imports q.clauses s)

theorem applyFactoring_small {s : State} (h : s.imports.length ≤ 2 ^ 30 - 1) (qs : List Quotient) :
    (s.applyFactoring qs).1.imports.length ≤ 2 ^ 30 - 1 := by
  unfold State.applyFactoring
  cases hf : s.freshLiteral with
  | none => exact h
  | some s' =>
    have hs' : s'.imports.length ≤ 2 ^ 30 - 1 := by
      have hF := (freshLiteral_fresh hf).imports
      unfold State.freshLiteral at hf
      split at hf
      · cases hf
      · rename_i hne
        rw [hF, List.length_append]
        show _ + 1 ≤ _
        omega
    cases flushUnmatched qs with
    | nil => exact h
    | cons q rest =>
      dsimp only
      rw [deletes_imports, quotients_imports, dividers_imports]
      exact hs'

theorem factorOne_small {s : State} (h : s.imports.length ≤ 2 ^ 30 - 1) (initial bound : Nat) (conn : Nat → Bool)
    (first : Nat) (nexts : List Nat) :
    (s.factorOne initial bound conn first nexts).1.imports.length ≤ 2 ^ 30 - 1 := by
  unfold State.factorOne
  split
  · exact h
  · dsimp only
    split
    · exact h
    · split
      · exact h
      · split
        · exact h
        · exact applyFactoring_small h _

theorem factorLoop_small (initial bound : Nat) : ∀ (sched : List (Nat × (Nat → Bool) × List Nat)) {s : State},
    s.imports.length ≤ 2 ^ 30 - 1 → (s.factorLoop initial bound sched).imports.length ≤ 2 ^ 30 - 1
  | [], _, h => h
  | (first, conn, nexts) :: rest, s, h => by
    have h1 := factorOne_small h initial bound conn first nexts
    unfold State.factorLoop
    split
    · rename_i s' he
      rw [he] at h1
      exact factorLoop_small initial bound rest h1
    · rename_i s' he
      rw [he] at h1
      exact h1

/-- C65, what holds: if before bounded variable addition the largest external variable is at most `2^30 - 2` then all
numbers of extension variables are legal, whatever the schedule is.  Clauses and proof lines have only variables with
legal numbers then.  Missing: formulas with the largest legal variable `2^30 - 1`, for which it does not hold, and
that the other techniques introduce no variables. -/
theorem C65_fresh_legal_partial {n : Nat} {cnf : List (List Int)} {s : State} (h : Run n cnf s)
    (hi : s.inconsistent = false) (hs : s.imports.length ≤ 2 ^ 30 - 1) (bound : Nat)
    (sched : List (Nat × (Nat → Bool) × List Nat)) :
    (s.factorize bound sched).imports.length ≤ 2 ^ 30 - 1 ∧
    (∀ v, v < (s.factorize bound sched).exports.length →
      1 ≤ ((s.factorize bound sched).exports.getD v 0).natAbs ∧
      ((s.factorize bound sched).exports.getD v 0).natAbs ≤ 2 ^ 30 - 1) ∧
    ∀ ln ∈ (s.factorize bound sched).proof, ∀ x ∈ lineLits ln, x / 2 ≤ 2 ^ 30 - 1 := by
  have h1 : (s.factorize bound sched).imports.length ≤ 2 ^ 30 - 1 := by
    unfold State.factorize
    split
    · exact hs
    · exact factorLoop_small _ _ _ hs
  have h2 := ((h.fine.inv hi).factorize bound sched).1.struct
  refine ⟨h1, fun v hv => ⟨?_, ?_⟩, fun ln hln x hx => ?_⟩
  · have := h2.nonzero v hv
    omega
  · have := h2.bound v hv
    omega
  · have := h2.lines ln hln x hx
    omega

/-- Two times three clauses. -/
def gridCnf : List (List Int) := [[1, 4], [1, 5], [1, 6], [2, 4], [2, 5], [2, 6]]

theorem ofClauses_exports (n : Nat) (cnf : List (List Int)) : (State.ofClauses n cnf).exports.length = n := by
  simp [State.ofClauses]

theorem ofClauses_imports (n : Nat) (cnf : List (List Int)) : (State.ofClauses n cnf).imports.length = n + 1 := by
  simp [State.ofClauses]

theorem grid_active {n v : Nat} (h : v < n) : (State.ofClauses n gridCnf).active v = true := by
  unfold State.active
  rw [ofClauses_exports]
  simp [h, State.ofClauses]

theorem grid_factor {n : Nat} (h6 : 6 ≤ n) : (State.ofClauses n gridCnf).factorize 0 [(0, fun _ => true, [2])] =
    ((State.ofClauses n gridCnf).applyFactoring [⟨2, [3, 4, 5], [0, 1, 2]⟩, ⟨0, [0, 1, 2], []⟩]).1 := by
  have h1 : (State.ofClauses n gridCnf).firstFactor (fun _ => true) 0 = ⟨0, [0, 1, 2], []⟩ := rfl
  have h2 : (State.ofClauses n gridCnf).factorizeNext (fun _ => true) [2, 0] ⟨0, [0, 1, 2], []⟩ 2 =
    ⟨2, [3, 4, 5], [0, 1, 2]⟩ := rfl
  have h3 : (State.ofClauses n gridCnf).quotientLoop (fun _ => true) (2 * n) [2] [⟨0, [0, 1, 2], []⟩] =
      [⟨2, [3, 4, 5], [0, 1, 2]⟩, ⟨0, [0, 1, 2], []⟩] := by
    unfold State.quotientLoop
    dsimp only [List.map]
    rw [if_neg]
    · rw [h2]; rfl
    · rw [show 2 / 2 = 1 from rfl, grid_active (by omega)]
      have : ¬ 2 * n < 2 := by omega
      simp [this]
  have h4 : (State.ofClauses n gridCnf).factorOne (2 * n) 0 (fun _ => true) 0 [2] =
      (State.ofClauses n gridCnf).applyFactoring [⟨2, [3, 4, 5], [0, 1, 2]⟩, ⟨0, [0, 1, 2], []⟩] := by
    unfold State.factorOne
    rw [show 0 / 2 = 0 from rfl, grid_active (by omega), h1]
    dsimp only
    rw [h3]
    rfl
  unfold State.factorize State.factorLoop
  rw [if_neg (by simp [State.ofClauses]), ofClauses_exports, h4]
  generalize (State.ofClauses n gridCnf).applyFactoring _ = x
  obtain ⟨s, b⟩ := x
  cases b <;> rfl

theorem markGarbage_fold_proof : ∀ (rs : List Nat) (s : State) {ln : Line}, ln ∈ s.proof →
    ln ∈ (rs.foldl State.markGarbage s).proof
  | [], _, _, h => h
  | r :: rs, s, _, h => markGarbage_fold_proof rs (s.markGarbage r) (List.mem_append_left _ h)

theorem adds_proof : ∀ (L : List (List Nat)) (s : State) {ln : Line}, ln ∈ s.proof → ln ∈ (s.adds L).proof
  | [], _, _, h => h
  | c :: L, s, _, h => adds_proof L (s.newClause c false) (List.mem_append_left _ h)

/-- With `n` variables in use the fresh one has number `n + 1`, unless `n + 1` is exactly `2^30 - 1`. -/
theorem grid_fresh {n : Nat} (h6 : 6 ≤ n) (hn : n + 1 ≠ 2 ^ 30 - 1) :
    Line.add [2 * (n + 1), 4] ∈ ((State.ofClauses n gridCnf).factorize 0 [(0, fun _ => true, [2])]).proof := by
  rw [grid_factor h6]
  obtain ⟨s', hf⟩ : ∃ s', (State.ofClauses n gridCnf).freshLiteral = some s' := by
    unfold State.freshLiteral
    rw [if_neg (by rw [ofClauses_imports]; exact hn)]
    exact ⟨_, rfl⟩
  have hF := freshLiteral_fresh hf
  rw [applyFactoring_eq (q := ⟨2, [3, 4, 5], [0, 1, 2]⟩) (rest := [⟨0, [0, 1, 2], [0, 0, 0]⟩]) hf rfl
    (by intro r hr; show r < 6; simp at hr; omega)]
  have first : ∀ (c : List Nat) (L : List (List Nat)), Line.add (c.map s'.ext) ∈ (s'.adds (c :: L)).proof := fun c L =>
    adds_proof L (s'.newClause c false) (List.mem_append_right _ (List.mem_singleton.2 rfl))
  refine markGarbage_fold_proof _ _ ?_
  rw [ofClauses_exports, List.map_cons, List.cons_append]
  have hlen := ofClauses_exports n gridCnf
  have e1 : s'.ext (2 * n) = 2 * (n + 1) := by
    unfold State.ext Extend.State.exportLiteral
    have h1 : s'.exports.getD (2 * n / 2) 0 = (n : Int) + 1 := by
      have := hF.getD_new
      rw [hlen, ofClauses_imports] at this
      rw [show 2 * n / 2 = n by omega, this]; rfl
    rw [h1, if_neg (by omega)]
    unfold code
    rw [if_neg (by omega)]
    omega
  have e2 : s'.ext 2 = 4 := by
    unfold State.ext Extend.State.exportLiteral
    have h1 : s'.exports.getD (2 / 2) 0 = 2 := by
      rw [hF.getD (by rw [hlen]; omega), getD_exports (by omega)]
      rfl
    rw [h1]
    rfl
  have := first [2 * n, 2]
  rw [List.map_cons, List.map_cons, List.map_nil, e1, e2] at this
  exact this _

/-- C65 does not hold: `kissat_fresh_literal` checks whether the number of entries of the table of external variables
*equals* the largest legal variable `2^30 - 1`, but with that variable in use the table has one entry more.  The
fresh variable gets the number `2^30`, which is not legal, and is written to the proof. -/
theorem C65_fresh_illegal : ∃ (n : Nat) (cnf : List (List Int)) (s : State) (c : List Nat), n = 2 ^ 30 - 1 ∧
    Run n cnf s ∧ s.inconsistent = false ∧ (∀ d ∈ cnf, ∀ e ∈ d, e.natAbs ≤ 6) ∧
    Line.add c ∈ s.proof ∧ ∃ x ∈ c, x / 2 = 2 ^ 30 := by
  have hr : Run (2 ^ 30 - 1) gridCnf (.ofClauses (2 ^ 30 - 1) gridCnf) := by
    refine .start ⟨fun c hc => ?_, rfl⟩
    have h : ∀ c ∈ gridCnf, 2 ≤ c.length ∧ c.Nodup ∧ ∀ e ∈ c, e ≠ 0 ∧ e.natAbs ≤ 6 ∧ - e ∉ c := by decide
    obtain ⟨h1, h2, h3⟩ := h c hc
    exact ⟨h1, h2, fun e he => ⟨(h3 e he).1, Nat.le_trans (h3 e he).2.1 (by omega), (h3 e he).2.2⟩⟩
  have hi : (State.ofClauses (2 ^ 30 - 1) gridCnf).inconsistent = false := rfl
  refine ⟨_, gridCnf, _, _, rfl, .factor 0 [(0, fun _ => true, [2])] hr hi, ?_, by decide, grid_fresh (by omega) (by omega),
    2 * (2 ^ 30 - 1 + 1), by simp, by omega⟩
  rw [((hr.fine.inv hi).factorize 0 _).2.inconsistent]
  exact hi

/-- The hypotheses of the positive part, and that a variable is introduced. -/
example : (State.ofClauses 8 factorCnf).imports.length ≤ 2 ^ 30 - 1 ∧ (State.ofClauses 8 factorCnf).inconsistent = false ∧
    ((State.ofClauses 8 factorCnf).factorize 0 [(0, fun _ => true, [2, 4])]).imports.length = 10 := by decide +kernel

end Verif.Props
