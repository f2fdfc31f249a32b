import Verif.Proofs.ExtendHistory

/-!
# Reconstruction of eliminated variables (C06, C43)
-/

namespace Verif.Props

open Verif.Spec Verif.Model.Extend

/-- The values of the remaining variables, seen from outside, satisfy `F` (whatever the
values of the other variables are). -/
def Satisfies (s : State) (F : Formula) : Prop :=
  ∀ σ : Assignment, (∀ (v : Nat) i, s.imports[v]? = some i → i.imported = true →
    i.eliminated = false → s.values i.lit ≠ 0 → σ v = decide (0 < s.values i.lit)) → SatFormula σ F

theorem satisfies_agrees {s : State} {F : Formula} (h : Satisfies s F) {σ : Assignment}
    (ha : Agrees s σ) : SatFormula σ F := by
  refine h σ fun v i h1 h2 h3 h4 => ?_
  have : s.val v = s.values i.lit := by simp [State.val, h1, h2, State.lookup, h3]
  rw [← this]
  exact ha v (by rw [this]; exact h4)

theorem agrees_of_answers {s : State} (h0 : ∀ i, s.imports[0]? = some i → i.imported = false)
    {σ : Assignment} (hσ : ∀ v : Nat, s.answer v ≠ 0 → σ v = decide (s.answer v = v)) :
    Agrees s σ := by
  intro v hv
  have hv0 : v ≠ 0 := by
    rintro rfl
    apply hv
    unfold State.val
    cases hi : s.imports[0]? with
    | none => rfl
    | some i => simp [h0 i hi]
  have hl : s.litVal (v : Int) = s.val v := by
    unfold State.litVal
    rw [if_neg (by omega), Int.natAbs_natCast]
  have := hσ v (by unfold State.answer; rw [hl, if_neg hv]; split <;> omega)
  rw [this, decide_eq_decide]
  unfold State.answer
  rw [hl, if_neg hv]
  split <;> omega

/-- C06, C43: let the solver have arrived at `s` from the clauses `F₀` by any sequence of steps
which removed clauses with witnesses, eliminated variables, and otherwise had no additional
models, and let the search have found values which satisfy the remaining clauses `F`.  Then
there is one function `f` such that any sequence of `kissat_value` queries, in any order and
with any repetitions, is answered by `f`; and all assignments agreeing with these answers
satisfy the original clauses (variables with answer 0 are don't-cares). -/
theorem C43_reconstruction {F₀ F : Formula} {s : State} (h : History F₀ s F) (hc : s.Complete)
    (h0 : ∀ i, s.imports[0]? = some i → i.imported = false) (hm : Satisfies s F) :
    ∃ f : Int → Int, (∀ queries, s.answers queries = some (queries.map f)) ∧
      ∀ σ : Assignment, (∀ v : Nat, f v ≠ 0 → σ v = decide (f v = v)) → SatFormula σ F₀ := by
  obtain ⟨T, hT⟩ := h.built
  obtain ⟨s', h1, h2, h3⟩ := extendModel_spec hT.reduces hT.wf hT.stack hT.etrail (hT.good hc)
    (fun σ => satisfies_agrees hm)
  refine ⟨_, answers_spec hT.wf.bound hT.extended h1 h2, ?_⟩
  by_cases hemp : s.extend = []
  · rw [if_pos hemp]
    intro σ hσ
    have : s.extendModel = some { s with extended := true } := by
      unfold State.extendModel
      rw [undo_zero (by exact hT.etrail)]
      simp [hemp, State.loop, Local.init]
    rw [this] at h1
    cases h1
    exact h3 σ (agrees_of_answers h0 hσ)
  · rw [if_neg hemp]
    intro σ hσ
    refine h3 σ (agrees_of_answers ?_ hσ)
    rw [h2.imports]; exact h0

/-- C06: the answers have the form promised: the literal, its negation or zero, and the
answer for the negation is the negated answer. -/
theorem C06_any_order {F₀ F : Formula} {s : State} (h : History F₀ s F) (hc : s.Complete)
    (hm : Satisfies s F) :
    ∃ f : Int → Int, (∀ queries, s.answers queries = some (queries.map f)) ∧
      ∀ e, (f e = e ∨ f e = - e ∨ f e = 0) ∧ f (- e) = f e := by
  obtain ⟨T, hT⟩ := h.built
  obtain ⟨s', h1, h2, h3⟩ := extendModel_spec hT.reduces hT.wf hT.stack hT.etrail (hT.good hc)
    (fun σ => satisfies_agrees hm)
  refine ⟨_, answers_spec hT.wf.bound hT.extended h1 h2, fun e => ?_⟩
  have key : ∀ s : State, (s.answer e = e ∨ s.answer e = - e ∨ s.answer e = 0) ∧
      s.answer (- e) = s.answer e := by
    intro s
    unfold State.answer State.litVal
    rw [Int.natAbs_neg]
    generalize s.val e.natAbs = x
    constructor
    · by_cases he : e < 0 <;> simp only [he, if_true, if_false] <;> repeat' split
      all_goals omega
    · rcases Int.lt_trichotomy e 0 with he | he | he
      · rw [if_neg (show ¬ -e < 0 by omega), if_pos he]
        repeat' split
        all_goals omega
      · subst he; simp
      · rw [if_pos (show -e < 0 by omega), if_neg (show ¬ e < 0 by omega)]
        repeat' split
        all_goals omega
  split
  · exact key s
  · exact key s'

/-- C43: what is recorded.  `kissat_weaken_clause` pushes the witness, then the other
literals which are not false. -/
theorem C43_recorded (s : State) (w : Nat) (c : List Nat) :
    (s.weakenClause w c).extend = s.extend ++ ⟨s.exportLiteral w, true⟩ ::
      ((c.filter fun o => o ≠ w ∧ 0 ≤ s.values o).map fun o => ⟨s.exportLiteral o, false⟩) := by
  rw [weakenClause_eq]
  simp only [entry, State.pushed, List.map_map]
  congr 2
  have : (fun o => decide (w ≠ o) && decide (0 ≤ s.values o)) =
      fun o => decide (o ≠ w ∧ 0 ≤ s.values o) := by
    funext o
    rw [Bool.decide_and]
    congr 1
    rw [decide_eq_decide]
    exact ⟨fun h h' => h h'.symm, fun h h' => h h'.symm⟩
  rw [this]
  rfl

/-! ## An instance: (x₁ ∨ x₂)(¬x₁ ∨ x₃) with x₁ eliminated -/

/-- Three imported variables, none eliminated; nothing assigned. -/
def three : State where
  exports := [1, 2, 3]
  imports := [⟨0, false, false⟩, ⟨0, true, false⟩, ⟨2, true, false⟩, ⟨4, true, false⟩]
  values := fun _ => 0
  extend := []
  eliminated := []
  etrail := []
  extended := false

/-- The formula. -/
def twoClauses : Formula := fun c => c = [code 1, code 2] ∨ c = [code (-1), code 3]

/-- The resolvent. -/
def resolvent : Formula := fun c => c = [code 2, code 3]

/-- As bounded variable elimination does it: the clauses with x₁ with that witness, then its
negation as unit. -/
def eliminatedOne : State :=
  (((three.weakenClause 0 [0, 2]).weakenClause 1 [1])).markEliminated 0

/-- The search has found x₂ = false, x₃ = true. -/
def afterSearch : State :=
  { eliminatedOne with values := fun l => if l = 3 ∨ l = 4 then 1 else if l = 2 ∨ l = 5 then -1 else 0 }

theorem sat_resolvent {σ : Assignment} : SatFormula σ resolvent ↔ (σ 2 = true ∨ σ 3 = true) := by
  simp [SatFormula, resolvent, SatClause, litTrue, code]

theorem sat_twoClauses {σ : Assignment} : SatFormula σ twoClauses ↔
    ((σ 1 = true ∨ σ 2 = true) ∧ (σ 1 = false ∨ σ 3 = true)) := by
  simp [SatFormula, twoClauses, SatClause, litTrue, code]

theorem history_instance : History twoClauses afterSearch resolvent := by
  have e : afterSearch.imports = eliminatedOne.imports := rfl
  refine .change (s := eliminatedOne) (F := resolvent) ?_ ⟨rfl, rfl, rfl, rfl,
    fun v i h => ⟨i, h, id, fun _ => rfl⟩, fun v i h _ => h⟩ (fun _ h => h)
  refine .eliminate 0 ?_ ?_ ?_
  · have hstart : History twoClauses three twoClauses := .start _ rfl rfl rfl rfl (by decide)
    -- all four clauses, then without the first one, then the resolvent alone
    have h1 : History twoClauses three
        (fun c => resolvent c ∨ twoClauses c) := by
      refine .change hstart ⟨rfl, rfl, rfl, rfl, fun v i h => ⟨i, h, id, fun _ => rfl⟩,
        fun v i h _ => h⟩ fun σ h c hc => h c (Or.inr hc)
    have h2 : History twoClauses (three.weakenClause 0 [0, 2])
        (fun c => resolvent c ∨ c = [code (-1), code 3]) := by
      refine .weaken 0 [0, 2] h1 (by decide) ⟨by decide, _, rfl, rfl⟩ ?_ ?_ rfl ?_ ?_
      · intro l hl _
        simp only [List.mem_cons, List.not_mem_nil, or_false] at hl
        rcases hl with rfl | rfl
        · exact ⟨by decide, _, rfl, rfl⟩
        · exact ⟨by decide, _, rfl, rfl⟩
      · intro l _ h; exact absurd h (by simp [three])
      · intro σ hσ hc
        have a := hσ _ (Or.inl rfl)
        have b := hσ _ (Or.inr rfl)
        simp [SatClause, litTrue, code, State.ext, State.exportLiteral, three] at a b hc
        intro c hcc
        rcases hcc with rfl | rfl
        · simp [SatClause, litTrue, code, State.ext, State.exportLiteral, three, assign]
          simpa using a
        · simp [SatClause, litTrue, code, State.ext, State.exportLiteral, three, assign]
          rcases a with a | a
          · simp [hc.2] at a
          · exact a
      · intro σ hσ hc c hcc
        rcases hcc with h | rfl | rfl
        · exact hσ _ (Or.inl h)
        · exact hc
        · exact hσ _ (Or.inr rfl)
    refine .weaken 1 [1] h2 (by decide) ⟨by decide, _, rfl, rfl⟩ ?_ ?_ rfl ?_ ?_
    · intro l hl _
      rw [List.mem_singleton.mp hl]
      exact ⟨by decide, _, rfl, rfl⟩
    · intro l _ h; exact absurd h (by simp [State.weakenClause, State.pushWitness,
        State.pushLiteral, three])
    · intro σ hσ hc c hcc
      have a := hσ _ (rfl : resolvent [code 2, code 3])
      cases hcc
      simp [SatClause, litTrue, code] at a
      simp [SatClause, litTrue, code, State.ext, State.exportLiteral, three, assign,
        State.weakenClause, State.pushWitness, State.pushLiteral]
      simpa using a
    · intro σ hσ hc c hcc
      rcases hcc with h | rfl
      · exact hσ _ h
      · refine ⟨code (-1), by simp, ?_⟩
        simpa [SatClause, State.ext, State.exportLiteral, three,
          State.weakenClause, State.pushWitness, State.pushLiteral] using hc
  · exact ⟨by decide, _, rfl, rfl⟩
  · intro i hi
    cases hi
    rfl

example : ∃ f : Int → Int, (∀ queries, afterSearch.answers queries = some (queries.map f)) ∧
      ∀ σ : Assignment, (∀ v : Nat, f v ≠ 0 → σ v = decide (f v = v)) →
        SatFormula σ twoClauses := by
  refine C43_reconstruction history_instance ?_ ?_ ?_
  · intro e he i hi
    have : afterSearch.extend = [⟨1, true⟩, ⟨2, false⟩, ⟨-1, true⟩] := rfl
    rw [this] at he
    simp only [List.mem_cons, List.not_mem_nil, or_false] at he
    rcases he with rfl | rfl | rfl
    · cases hi; exact Or.inl rfl
    · cases hi; exact Or.inr ⟨rfl, by decide⟩
    · cases hi; exact Or.inl rfl
  · intro i hi; cases hi; rfl
  · intro σ hσ
    have := hσ 3 _ rfl rfl rfl (by decide)
    rw [sat_resolvent]
    right
    simpa [afterSearch, eliminatedOne, State.markEliminated, State.weakenClause,
      State.pushWitness, State.pushLiteral, three] using this

/-- The answers: x₁ is first made false by the unit and then flipped. -/
example : afterSearch.answers [3, 1, -1, 2, 1, 7] = some [3, 1, 1, -2, 1, 0] := by decide

end Verif.Props
