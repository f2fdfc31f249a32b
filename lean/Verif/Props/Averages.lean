import Verif.Proofs.Averages
import Mathlib.Tactic.NormNum

/-!
# Moving averages and restarts in focused mode (C74)

`Model/Averages.lean` against `Spec/Averages.lean`.  The windows are at least 10 and 100 (options `emafast` and
`emaslow`), but 2 suffices.  All of this is for exact arithmetic.
-/

namespace Verif.Props

open Verif.Spec.Averages
open Verif.Model.Averages (State Options Smooth)

/-- C74 (partial: no rounding).  Search from the start never violates an assertion.  Afterwards the averages of each
mode are the weighted means of the glues learned in this mode, and of the numbers of decisions per conflict of this
mode, where decisions made in the other mode do not count. -/
theorem C74_average_partial {o : Options} (hf : 2 ≤ o.fast) (hs : 2 ≤ o.slow) (stable : Bool) (n : Nat)
    (es : List Event) :
    ∃ s t, State.start o stable n = some s ∧ s.run o es = some t ∧
      ∀ mode, (t.averages mode).fastGlue.value = mean (1 - 1 / o.fast) (glues mode stable es) ∧
        (t.averages mode).slowGlue.value = mean (1 - 1 / o.slow) (glues mode stable es) ∧
        (t.averages mode).decisionRate.value = mean (1 - 1 / o.slow) (rates mode stable n es) := by
  obtain ⟨s, s1, s2, s3⟩ := Verif.Model.Averages.start_inv hf hs stable n
  obtain ⟨t, k, t1, t2⟩ := Verif.Model.Averages.run_inv hf hs es s3
  refine ⟨s, t, s1, t1, fun mode => ?_⟩
  have := Verif.Model.Averages.seen_values (t2.seen mode)
  simpa only [s2, List.nil_append] using this

theorem values_of_run {o : Options} (hf : 2 ≤ o.fast) (hs : 2 ≤ o.slow) {stable : Bool} {n : Nat}
    {es : List Event} {s t : State} (h1 : State.start o stable n = some s) (h2 : s.run o es = some t) (mode : Bool) :
    (t.averages mode).fastGlue.value = mean (1 - 1 / o.fast) (glues mode stable es) ∧
      (t.averages mode).slowGlue.value = mean (1 - 1 / o.slow) (glues mode stable es) ∧
      (t.averages mode).decisionRate.value = mean (1 - 1 / o.slow) (rates mode stable n es) := by
  obtain ⟨s', t', e1, e2, h⟩ := C74_average_partial hf hs stable n es
  obtain rfl := Option.some.inj (h1.symm.trans e1)
  obtain rfl := Option.some.inj (h2.symm.trans e2)
  exact h mode

/-- C74 (partial: no rounding).  Averages are between the smallest and the largest value. -/
theorem C74_between_partial {o : Options} (hf : 2 ≤ o.fast) (hs : 2 ≤ o.slow) {stable : Bool} {n : Nat}
    {es : List Event} {s t : State} (h1 : State.start o stable n = some s) (h2 : s.run o es = some t) (mode : Bool)
    {a b : ℚ} :
    (glues mode stable es ≠ [] → (∀ g ∈ glues mode stable es, a ≤ g ∧ g ≤ b) →
      (a ≤ (t.averages mode).fastGlue.value ∧ (t.averages mode).fastGlue.value ≤ b) ∧
      a ≤ (t.averages mode).slowGlue.value ∧ (t.averages mode).slowGlue.value ≤ b) ∧
    (rates mode stable n es ≠ [] → (∀ r ∈ rates mode stable n es, a ≤ r ∧ r ≤ b) →
      a ≤ (t.averages mode).decisionRate.value ∧ (t.averages mode).decisionRate.value ≤ b) := by
  obtain ⟨e1, e2, e3⟩ := values_of_run hf hs h1 h2 mode
  have pf := (Verif.Model.Averages.window_pos hf).2.le
  have ps := (Verif.Model.Averages.window_pos hs).2.le
  rw [e1, e2, e3]
  exact ⟨fun hn h => ⟨⟨Verif.Model.Averages.mean_ge pf hn fun g hg => (h g hg).1,
      Verif.Model.Averages.mean_le pf hn fun g hg => (h g hg).2⟩,
      Verif.Model.Averages.mean_ge ps hn fun g hg => (h g hg).1,
      Verif.Model.Averages.mean_le ps hn fun g hg => (h g hg).2⟩,
    fun hn h => ⟨Verif.Model.Averages.mean_ge ps hn fun g hg => (h g hg).1,
      Verif.Model.Averages.mean_le ps hn fun g hg => (h g hg).2⟩⟩

/-- C74 (partial: no rounding).  A restart is due if and only if the recent glues of the current mode are in the mean
larger than all by the percentage of option `restartmargin`. -/
theorem C74_due_partial {o : Options} (hf : 2 ≤ o.fast) (hs : 2 ≤ o.slow) {stable : Bool} {n : Nat}
    {es : List Event} {s t : State} (h1 : State.start o stable n = some s) (h2 : s.run o es = some t) :
    t.restartDue o = true ↔
      (1 + o.margin / 100) * mean (1 - 1 / o.slow) (glues t.stable stable es) ≤
        mean (1 - 1 / o.fast) (glues t.stable stable es) := by
  obtain ⟨e1, e2, -⟩ := values_of_run hf hs h1 h2 t.stable
  unfold State.restartDue
  simp only [decide_eq_true_eq]
  rw [e1, e2, show ((100 : ℚ) + o.margin) / 100 = 1 + o.margin / 100 by ring]

/-- C74 (partial: no rounding).  If a restart is due, then the glues differ by at least the percentage of option
`restartmargin`. -/
theorem C74_jump_partial {o : Options} (hf : 2 ≤ o.fast) (hs : 2 ≤ o.slow) {stable : Bool} {n : Nat}
    {es : List Event} {s t : State} (h1 : State.start o stable n = some s) (h2 : s.run o es = some t)
    (hd : t.restartDue o = true) (hn : glues t.stable stable es ≠ []) {a b : ℚ}
    (h : ∀ g ∈ glues t.stable stable es, a ≤ g ∧ g ≤ b) : (1 + o.margin / 100) * a ≤ b := by
  have hd := (C74_due_partial hf hs h1 h2).1 hd
  have ha := Verif.Model.Averages.mean_ge (Verif.Model.Averages.window_pos hs).2.le hn fun g hg => (h g hg).1
  have hb := Verif.Model.Averages.mean_le (Verif.Model.Averages.window_pos hf).2.le hn fun g hg => (h g hg).2
  have hm : (0 : ℚ) ≤ 1 + o.margin / 100 := by positivity
  exact (mul_le_mul_of_nonneg_left ha hm).trans (hd.trans hb)

/-- C74 (partial: no rounding).  If all learned clauses have the same glue, then restarts are never due with a positive
margin, and always without margin. -/
theorem C74_constant_partial {o : Options} (hf : 2 ≤ o.fast) (hs : 2 ≤ o.slow) {stable : Bool} {n : Nat}
    {es : List Event} {s t : State} (h1 : State.start o stable n = some s) (h2 : s.run o es = some t)
    (hn : glues t.stable stable es ≠ []) {g : ℚ} (hg : 0 < g) (h : ∀ x ∈ glues t.stable stable es, x = g) :
    t.restartDue o = true ↔ o.margin = 0 := by
  constructor
  · intro hd
    have := C74_jump_partial hf hs h1 h2 hd hn (a := g) (b := g) fun x hx => by simp [h x hx]
    by_contra hm
    have hm : (0 : ℚ) < o.margin := by exact_mod_cast Nat.pos_of_ne_zero hm
    have : 0 < (o.margin : ℚ) / 100 * g := by positivity
    linarith
  · intro hm
    rw [C74_due_partial hf hs h1 h2, hm]
    have pf := (Verif.Model.Averages.window_pos hf).2.le
    have ps := (Verif.Model.Averages.window_pos hs).2.le
    have e1 := Verif.Model.Averages.mean_le (b := g) ps hn fun x hx => (h x hx).le
    have e2 := Verif.Model.Averages.mean_ge (a := g) pf hn fun x hx => (h x hx).ge
    simpa using e1.trans e2

/-- C74.  Before the first clause is learned in a mode, the test for restarts succeeds. -/
theorem C74_start {o : Options} (hf : 2 ≤ o.fast) (hs : 2 ≤ o.slow) {stable : Bool} {n : Nat}
    {es : List Event} {s t : State} (h1 : State.start o stable n = some s) (h2 : s.run o es = some t)
    (hn : glues t.stable stable es = []) : t.restartDue o = true := by
  rw [C74_due_partial hf hs h1 h2, hn]
  simp [mean]

/-- A search which changes to stable mode and back. -/
def someSearch : List Event :=
  [.decision, .decision, .conflict, .learn 2, .switch, .decision, .conflict, .learn 30, .switch, .decision, .conflict,
    .learn 4]

example : glues false false someSearch = [2, 4] ∧ glues true false someSearch = [30] ∧
    rates false false 5 someSearch = [7, 1] ∧ rates true false 5 someSearch = [1] := by
  simp [glues, rates, someSearch]

/-- With window 10 the mean of 2 and 4 is `(9/10 * 2 + 4) / (9/10 + 1)`. -/
example : mean (9 / 10) [2, 4] = 58 / 19 := by
  simp only [mean, List.length_cons, List.length_nil, Finset.sum_range_succ, Finset.sum_range_zero]
  norm_num

/-- The default options meet the hypotheses, and the run exists. -/
example : ∃ s t, State.start {} false 5 = some s ∧ s.run {} someSearch = some t ∧
    (t.averages true).fastGlue.value = 30 ∧ t.restartDue {} = false := by
  obtain ⟨s, t, h1, h2, -⟩ := C74_average_partial (o := {}) (by decide) (by decide) false 5 someSearch
  refine ⟨s, t, h1, h2, ?_⟩
  have hb := (C74_between_partial (o := {}) (by decide) (by decide) h1 h2 true (a := 30) (b := 30)).1
    (by simp [glues, someSearch]) (by simp [glues, someSearch])
  refine ⟨le_antisymm hb.1.2 hb.1.1, ?_⟩
  have hst : t.stable = false := by
    have e : ((State.start {} false 5).bind fun s => s.run {} someSearch).map (·.stable) = some false := by
      decide +kernel
    simpa [h1, h2] using e
  rw [Bool.eq_false_iff, Ne, C74_due_partial (o := {}) (by decide) (by decide) h1 h2, hst,
    show glues false false someSearch = [2, 4] by simp [glues, someSearch]]
  simp only [mean, List.length_cons, List.length_nil, Finset.sum_range_succ, Finset.sum_range_zero]
  norm_num

/-- Two clauses of glue 3: a restart is due with margin 0, and not with margin 10. -/
example : ∀ m ∈ [0, 10], ∃ s t, State.start { margin := m } false 0 = some s ∧
    s.run { margin := m } [.learn 3, .learn 3] = some t ∧ t.restartDue { margin := m } = decide (m = 0) := by
  intro m _
  obtain ⟨s, t, h1, h2, -⟩ := C74_average_partial (o := { margin := m }) (by simp) (by simp) false 0
    [.learn 3, .learn 3]
  refine ⟨s, t, h1, h2, ?_⟩
  have hst : t.stable = false := by
    have e : ((State.start {} false 0).bind fun s => s.run {} [.learn 3, .learn 3]).map (·.stable) = some false := by
      decide +kernel
    have h1' : State.start {} false 0 = some s := h1
    have h2' : s.run {} [.learn 3, .learn 3] = some t := h2
    simpa [h1', h2'] using e
  have := C74_constant_partial (o := { margin := m }) (by simp) (by simp) h1 h2 (g := 3)
    (by simp [hst, glues]) (by norm_num) (by simp [hst, glues])
  by_cases e : m = 0
  · simpa [e] using this.2 e
  · simp only [e, decide_false]
    exact Bool.eq_false_iff.2 fun hd => e (this.1 hd)

end Verif.Props
