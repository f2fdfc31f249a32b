import Verif.Proofs.Core.Warmup
import Verif.Proofs.Collect.Keep

/-! # The search loop keeps the invariants and its answers are right -/

namespace Verif.Core

open Verif.Spec

/-- The invariant between iterations of the search loop. -/
structure Between (orig : Base) (G : Assignment → Prop) (s : Solver) : Prop where
  prop : PropInv orig G s
  consistent : s.inconsistent = false

/-- The assignment of the solver as an assignment of all variables. -/
def Solver.model (s : Solver) : Assignment := fun v => s.values (2 * v) == 1

theorem model_true {s : Solver} (ht : TrailInv s) {l : Nat} (h : s.values l = 1) :
    litTrue s.model l := by
  unfold litTrue Solver.model
  rcases Nat.mod_two_eq_zero_or_one l with e | e
  · have : 2 * (l / 2) = l := by omega
    rw [this, h, e]; simp
  · have : 2 * (l / 2) = neg l := by unfold neg; rw [if_neg (by omega)]; omega
    rw [this, ht.anti, h, e]; simp

/-- When every variable has a value and propagation is complete then the
assignment satisfies all clauses. -/
theorem PropInv.sat {orig : Base} {G : Assignment → Prop} {s : Solver} (h : PropInv orig G s)
    (hp : s.propagate = s.trail.length) (h0 : s.unassigned = 0) {σ : Assignment}
    (hσ : ∀ l, s.values l = 1 → litTrue σ l) : SatFormula σ s.formula := by
  have ht := h.ok.inv.trail
  have hfree : s.free = [] := List.eq_nil_of_length_eq_zero (by rw [← ht.count, h0])
  have hval : ∀ l, s.Valid l → s.values l = 1 ∨ s.values (neg l) = 1 := by
    intro l hl
    have : ¬ (s.Valid l ∧ s.values l = 0) := by
      rw [← ht.free_iff, hfree]; simp
    have h1 := ht.dom l
    have h2 := ht.anti l
    have h3 : s.values l ≠ 0 := fun e => this ⟨hl, e⟩
    omega
  rintro c (⟨r, hr, rfl⟩ | ⟨a, b, hab, rfl⟩ | ⟨l, hv, _, rfl⟩)
  · apply Classical.byContradiction
    intro hn
    have hall : ∀ m ∈ (s.clause r).lits, s.values (neg m) = 1 := by
      intro m hm
      rcases hval m (h.ok.inv.clause.valid r hr m hm) with h1 | h1
      · exact (hn ⟨m, hm, hσ _ h1⟩).elim
      · exact h1
    refine h.noConflict hp (.large r) ⟨hr, fun m hm => ?_⟩
    exact ht.neg_pos.1 (hall m hm)
  · have hv := h.ok.inv.clause.bin a b hab
    rcases hval a hv.2.2.2.1 with h1 | h1
    · exact ⟨a, by simp, hσ _ h1⟩
    · rcases hval b hv.2.2.2.2 with h2 | h2
      · exact ⟨b, by simp, hσ _ h2⟩
      · exact (h.noConflict hp (.binary a b) ⟨hab, ht.neg_pos.1 h1, ht.neg_pos.1 h2⟩).elim
  · exact ⟨l, by simp, hσ _ hv⟩

theorem PropInv.model {orig : Base} {G : Assignment → Prop} {s : Solver} (h : PropInv orig G s)
    (hp : s.propagate = s.trail.length) (h0 : s.unassigned = 0) {σ : Assignment}
    (hσ : ∀ l, s.values l = 1 → litTrue σ l) : G σ := by
  refine h.ok.irr _ fun c hc => h.sat hp h0 hσ c ?_
  rcases hc with ⟨r, h1, _, h2⟩ | hc | hc
  · exact .inl ⟨r, h1, h2⟩
  · exact .inr (.inl hc)
  · exact .inr (.inr hc)

/-- Propagation keeps values and levels. -/
theorem searchPropagate_old {orig : Base} {G : Assignment → Prop} {s : Solver}
    (h : PropInv orig G s) (x : Nat) (hx : s.values x ≠ 0) :
    (searchPropagate s).1.values x = s.values x ∧ (searchPropagate s).1.lev x = s.lev x := by
  have hg := (Growth.loop (adequate_true s) (s.vars + 1) h (.refl _ s)).old x hx
  have e : (searchPropagate s).1.values = (propagateLoop (s.vars + 1) s).1.values ∧
      (searchPropagate s).1.assigned = (propagateLoop (s.vars + 1) s).1.assigned := by
    unfold searchPropagate
    generalize propagateLoop (s.vars + 1) s = p
    obtain ⟨t, c⟩ := p
    cases c with
    | none => simp only [updateConflictsAndTrail]; split <;> exact ⟨rfl, rfl⟩
    | some c => simp only [updateConflictsAndTrail]; split <;> exact ⟨rfl, rfl⟩
  unfold Solver.lev at hg ⊢
  rw [e.1, e.2]
  exact hg

/-- Backtracking in a consistent state. -/
theorem PropInv.backtrack {orig : Base} [Deletes orig] {G : Assignment → Prop} {s : Solver}
    (h : PropInv orig G s) (n : Nat) :
    PropInv orig G (s.backtrack n) ∧ Kept s (s.backtrack n) := by
  by_cases hn : s.level ≤ n
  · have : s.backtrack n = s := by unfold Solver.backtrack; rw [if_pos hn]
    rw [this]; exact ⟨h, .refl s⟩
  · obtain ⟨h1, h2, h3⟩ := backtrack_ok (n := n) (h.ok.at (s.level + 1) 0 (Nat.le_refl _))
      (h.watching.x (fun _ _ => False) (fun _ _ => False)) h.frames (by omega) (by omega)
    exact ⟨h2.propInv h3 (fun _ _ h => h.elim) (fun _ _ h => h.elim), h1.kept⟩

/-- Propagation on the root level in a completely propagated state finds no conflict if garbage
was not collected on a higher level. -/
theorem rootConflict_none {orig : Base} [Deletes orig] {G : Assignment → Prop} {s : Solver}
    (h : PropInv orig G s) (hp : s.propagate = s.trail.length) (hl : s.loose = true → s.level = 0) :
    s.rootConflict = false := by
  unfold Solver.rootConflict
  by_cases h0 : s.level = 0
  · rw [h0]; rfl
  · obtain ⟨h1, hk⟩ := h.backtrack 0
    obtain ⟨f, hb⟩ := h.ok.inv.trail.backtracked (m := 0) (Nat.pos_of_ne_zero h0)
    have hB : Bound (fun x => s.values x = 1) (s.backtrack 0) := by
      refine (Bound.of_complete h hp hl).congr ?_ ?_ ?_
      · intro x hx
        rw [hb.values] at hx
        split at hx
        · cases hx
        · exact hx
      · intro r hr
        have e : (s.backtrack 0).clause r = s.clause r := by
          unfold Solver.clause; rw [hb.arena]
        unfold Solver.Live at hr ⊢
        rw [e] at hr ⊢
        exact ⟨hr, .refl _⟩
      · intro a b hab; rw [hb.watches] at hab; exact hab
    have hn := (Bound.loop ((s.backtrack 0).vars + 1) h1 hB).2
    have hn : (searchPropagate (s.backtrack 0)).2 = none := by
      unfold searchPropagate; exact hn
    rw [hn]; simp

/-- If it finds a conflict the solver is inconsistent. -/
theorem flushToRoot_refuted {orig : Base} [Deletes orig] {G : Assignment → Prop} {s : Solver}
    (h : PropInv orig G s) (hn : s.rootConflict = true) : Ok orig G s.flushToRoot ∧
    s.flushToRoot.inconsistent = true ∧ s.flushToRoot.vars = s.vars ∧ s.flushToRoot.removed = s.removed := by
  unfold Solver.rootConflict at hn
  rw [Bool.and_eq_true] at hn
  obtain ⟨h0, hn⟩ := hn
  have h0 : s.level ≠ 0 := by simpa using h0
  unfold Solver.flushToRoot
  rw [if_pos h0]
  obtain ⟨h1, hk⟩ := h.backtrack 0
  obtain ⟨f, hb⟩ := h.ok.inv.trail.backtracked (m := 0) (Nat.pos_of_ne_zero h0)
  obtain ⟨g1, g2, g3, g4⟩ := searchPropagate_ok h1
  obtain ⟨c, hc⟩ := Option.isSome_iff_exists.1 hn
  rw [hc] at g4
  simp only at g4
  rw [if_pos hb.level] at g4
  exact ⟨g2, g4, g1.vars.trans hk.vars, g1.removed.trans hk.removed⟩

/-- `kissat_backtrack_propagate_and_flush_trail` in a completely propagated state which does
not run into a conflict. -/
theorem flushToRoot_ok {orig : Base} [Deletes orig] {G : Assignment → Prop} {s : Solver}
    (h : PropInv orig G s) (hp : s.propagate = s.trail.length)
    (hn : s.rootConflict = false) : PropInv orig G s.flushToRoot ∧ s.flushToRoot.propagate = s.flushToRoot.trail.length ∧
    Kept s s.flushToRoot ∧ s.flushToRoot.level = 0 := by
  unfold Solver.flushToRoot
  by_cases h0 : s.level = 0
  · rw [if_neg (by simp [h0])]; exact ⟨h, hp, .refl s, h0⟩
  · rw [if_pos h0]
    obtain ⟨h1, hk⟩ := h.backtrack 0
    obtain ⟨f, hb⟩ := h.ok.inv.trail.backtracked (m := 0) (Nat.pos_of_ne_zero h0)
    have hn : (searchPropagate (s.backtrack 0)).2 = none := by
      unfold Solver.rootConflict at hn
      rw [Bool.and_eq_false_iff] at hn
      rcases hn with hn | hn
      · simp at hn; exact absurd hn h0
      · simpa using hn
    obtain ⟨g1, g2, g3, g4⟩ := searchPropagate_ok h1
    rw [hn] at g4
    simp only at g4
    refine ⟨g4.1, g4.2.1, hk.trans ⟨g1.vars, g1.removed, g1.options, g4.2.2, g1.decisions, g1.loose,
      fun x hx h0 => ⟨(searchPropagate_old h1 x hx).1, (searchPropagate_old h1 x hx).2.trans h0⟩⟩, ?_⟩
    rw [g3, hb.level]

theorem markGarbage_kept (s : Solver) (r : Nat) :
    Kept s (s.markGarbage r) ∧ (s.markGarbage r).propagate = s.propagate ∧
    (s.markGarbage r).trail = s.trail ∧ (s.markGarbage r).assigned = s.assigned ∧
    (s.markGarbage r).values = s.values ∧ (s.markGarbage r).conflicts = s.conflicts := by
  unfold Solver.markGarbage
  exact ⟨⟨rfl, rfl, rfl, rfl, rfl, rfl, fun _ _ h => ⟨rfl, h⟩⟩, rfl, rfl, rfl, rfl, rfl⟩

theorem markLessUseful_ok {orig : Base} [Deletes orig] {G : Assignment → Prop} (refs : List Nat) :
    ∀ {s : Solver}, PropInv orig G s →
    PropInv orig G (markLessUseful s refs) ∧ Kept s (markLessUseful s refs) := by
  induction refs with
  | nil => intro s h; exact ⟨h, .refl s⟩
  | cons r refs ih =>
    intro s h
    unfold markLessUseful
    rw [List.foldl_cons]
    split
    · rename_i hr
      unfold Solver.reducible at hr
      rw [Bool.and_eq_true, Bool.and_eq_true] at hr
      obtain ⟨⟨h1, h2⟩, h3⟩ := hr
      rw [List.all_eq_true] at h3
      have hg : PropInv orig G (s.markGarbage r) := by
        refine h.markGarbage (by simpa [Solver.Live] using h2) ?_ ?_
        · intro l hl
          by_cases hm : l ∈ s.trail
          · simpa using h3 l hm
          · rw [h.ok.inv.reason.root l hl (h.ok.inv.trail.flushed l hl hm)]
            intro e; cases e
        · intro e; rw [h1] at e; cases e
      obtain ⟨a, b⟩ := ih hg
      exact ⟨a, (markGarbage_kept s r).1.trans b⟩
    · exact ih h

theorem searchPropagate_flushed {s : Solver} (h : (searchPropagate s).2 = none)
    (h0 : (searchPropagate s).1.level = 0) : (searchPropagate s).1.unflushed = 0 := by
  unfold searchPropagate at h h0 ⊢
  cases hp : propagateLoop (s.vars + 1) s with
  | mk t c =>
    rw [hp] at h h0
    simp only at h h0 ⊢
    subst h
    unfold updateConflictsAndTrail at h0 ⊢
    simp only at h0 ⊢
    split
    · rfl
    · rename_i hc
      rw [if_neg hc] at h0
      by_cases hu : t.unflushed = 0
      · exact hu
      · exact absurd ⟨h0, hu⟩ hc

theorem markLessUseful_rest (refs : List Nat) : ∀ s : Solver,
    (markLessUseful s refs).unflushed = s.unflushed ∧ (markLessUseful s refs).trail = s.trail ∧
    (markLessUseful s refs).propagate = s.propagate ∧ (markLessUseful s refs).level = s.level := by
  induction refs with
  | nil => exact fun s => ⟨rfl, rfl, rfl, rfl⟩
  | cons r refs ih =>
    intro s
    unfold markLessUseful
    rw [List.foldl_cons]
    split
    · exact ih (s.markGarbage r)
    · exact ih s

/-- The state in which `kissat_reduce` collects garbage. -/
theorem markReducible_ok {orig : Base} [Deletes orig] {G : Assignment → Prop} {s : Solver} (h : PropInv orig G s)
    (hp : s.propagate = s.trail.length) (h0 : s.level = 0 → s.unflushed = 0)
    (hn : s.unflushed ≠ 0 → s.rootConflict = false) (refs : List Nat) :
    PropInv orig G (s.markReducible refs) ∧ Kept s (s.markReducible refs) ∧
    (s.markReducible refs).propagate = (s.markReducible refs).trail.length ∧
    (s.markReducible refs).unflushed = 0 ∧ (s.markReducible refs).level ≤ s.level := by
  have hf : PropInv orig G s.flushAndMark ∧ Kept s s.flushAndMark ∧
      s.flushAndMark.propagate = s.flushAndMark.trail.length ∧ s.flushAndMark.unflushed = 0 ∧
      s.flushAndMark.level ≤ s.level := by
    unfold Solver.flushAndMark
    split
    · rename_i hu
      have hl : s.level ≠ 0 := fun e => hu (h0 e)
      have hc := hn hu
      obtain ⟨k1, k2, k3, k4⟩ := flushToRoot_ok h hp hc
      refine ⟨k1, k3, k2, ?_, by omega⟩
      unfold Solver.flushToRoot at k4 ⊢
      rw [if_pos hl] at k4 ⊢
      refine searchPropagate_flushed ?_ k4
      unfold Solver.rootConflict at hc
      rw [Bool.and_eq_false_iff] at hc
      rcases hc with hc | hc
      · simp at hc; exact absurd hc hl
      · simpa using hc
    · rename_i hu
      exact ⟨h, .refl s, hp, Classical.not_not.1 hu, Nat.le_refl _⟩
  obtain ⟨k1, k2, k3, k4, k5⟩ := hf
  obtain ⟨a, b⟩ := markLessUseful_ok refs k1
  obtain ⟨e1, e2, e3, e4⟩ := markLessUseful_rest refs s.flushAndMark
  unfold Solver.markReducible
  exact ⟨a, k2.trans b, by rw [e2, e3]; exact k3, e1.trans k4, by rw [e4]; exact k5⟩

/-- What `kissat_reduce` does not change. -/
structure Reduced (s s' : Solver) : Prop where
  vars : s'.vars = s.vars
  removed : s'.removed = s.removed
  options : s'.options = s.options
  inconsistent : s'.inconsistent = s.inconsistent
  decisions : s'.decisions = s.decisions
  root : ∀ x, s.values x ≠ 0 → s.lev x = 0 → s'.values x = s.values x ∧ s'.lev x = 0
  still : s.unflushed = 0 → s'.values = s.values ∧ ∀ x, s'.lev x = s.lev x

theorem markLessUseful_values (refs : List Nat) : ∀ s : Solver,
    (markLessUseful s refs).values = s.values ∧ (markLessUseful s refs).assigned = s.assigned := by
  induction refs with
  | nil => exact fun s => ⟨rfl, rfl⟩
  | cons r refs ih =>
    intro s
    unfold markLessUseful
    rw [List.foldl_cons]
    split
    · exact ih (s.markGarbage r)
    · exact ih s

theorem markReducible_still {s : Solver} (hu : s.unflushed = 0) (refs : List Nat) :
    (s.markReducible refs).values = s.values ∧ (s.markReducible refs).assigned = s.assigned := by
  have := markLessUseful_values refs s
  unfold Solver.markReducible Solver.flushAndMark
  rw [if_neg (by simp [hu])]
  exact this

theorem reduce_ok {orig : Base} [Deletes orig] {G : Assignment → Prop} {s : Solver} (h : PropInv orig G s)
    (hp : s.propagate = s.trail.length) (h0 : s.level = 0 → s.unflushed = 0)
    (hn : ¬ (s.unflushed ≠ 0 ∧ s.rootConflict = true)) (hi : s.inconsistent = false) (refs : List Nat)
    (start : Option Nat) :
    PropInv orig G (reduce s refs start).1 ∧ Reduced s (reduce s refs start).1 ∧ (reduce s refs start).2 = 0 ∧
    ((reduce s refs start).1.loose = true → s.loose = true ∨ start ≠ none) := by
  obtain ⟨a, k, a1, a2, a3⟩ := markReducible_ok h hp h0
    (fun hu => by
      cases hc : s.rootConflict with
      | false => rfl
      | true => exact absurd ⟨hu, hc⟩ hn) refs
  unfold reduce
  cases start with
  | none =>
    simp only
    exact ⟨a, ⟨k.1, k.2, k.3, k.4, k.5, k.root, fun hu => ⟨(markReducible_still hu refs).1,
      fun x => by unfold Solver.lev; rw [(markReducible_still hu refs).2]⟩⟩, by rw [k.inconsistent, hi]; rfl, fun hl => .inl (k.loose.symm.trans hl)⟩
  | some start =>
    simp only
    have hst := Nat.min_le_right start (s.markReducible refs).arena.length
    have hs : Settled (s.markReducible refs) :=
      ⟨a.ok.inv, by have := a.watching; rw [a1] at this; exact this, a2⟩
    have hf := (hs.collected hst).framed
    refine ⟨a.collect a1 a2 hst, ⟨hf.vars.trans k.1, hf.removed.trans k.2, hf.options.trans k.3,
      hf.inconsistent.trans k.4, hf.decisions.trans k.5, fun x h1 h2 => ?_, fun hu => ⟨?_, fun x => ?_⟩⟩, ?_, fun _ => .inr (by simp)⟩
    · obtain ⟨e1, e2⟩ := k.root x h1 h2
      rw [hf.values, e1]
      exact ⟨rfl, (hf.lev x).trans e2⟩
    · exact hf.values.trans (markReducible_still hu refs).1
    · rw [hf.lev]; unfold Solver.lev; rw [(markReducible_still hu refs).2]
    · exact if_neg (by rw [hf.inconsistent, k.inconsistent, hi]; simp)

/-- The heuristic order enumerates the variables in use. -/
def Oracle.Fair (s : Solver) (o : Oracle) : Prop :=
  ∀ v, v ∈ o.order ↔ v < s.vars ∧ s.removed v = false

/-- `kissat_decide` with an unassigned variable left. -/
theorem decide_ok {orig : Base} [Deletes orig] {G : Assignment → Prop} {s : Solver} (h : PropInv orig G s)
    (hp : s.propagate = s.trail.length) (hu : s.unassigned ≠ 0) {o : Oracle} (ho : o.Fair s) :
    ∃ s' v lit, s.decide o.order o.phase = some s' ∧ PropInv orig G s' ∧
      s.values (2 * v) = 0 ∧ s.Valid (2 * v) ∧ (lit = if o.phase then 2 * v else 2 * v + 1) ∧
      (∀ x, s'.values x = if x = neg lit then -1 else if x = lit then 1 else s.values x) ∧
      s'.vars = s.vars ∧ s'.removed = s.removed ∧ s'.options = s.options ∧
      s'.inconsistent = s.inconsistent ∧ s'.decisions = s.decisions + 1 ∧
      s'.conflicts = s.conflicts ∧ s'.level = s.level + 1 ∧ s'.loose = s.loose := by
  have ht := h.ok.inv.trail
  have hfree : s.free ≠ [] := fun e => hu (by rw [ht.count, e]; rfl)
  obtain ⟨u, hu⟩ := List.exists_mem_of_ne_nil _ hfree
  rw [free_mem] at hu
  unfold Solver.decide
  cases hn : nextDecisionVariable s o.order with
  | none =>
    exact absurd hu.2.2 (nextDecisionVariable_none hn u ((ho u).2 ⟨hu.1, hu.2.1⟩))
  | some v =>
    obtain ⟨hv, h0⟩ := nextDecisionVariable_some hn
    have hvalid : s.Valid (2 * v) := by
      have := (ho v).1 hv
      unfold Solver.Valid
      rw [show 2 * v / 2 = v by omega]; exact this
    have hneg : neg (2 * v) = 2 * v + 1 := by unfold neg; rw [if_pos (by omega)]
    have key : ∀ lit, s.values lit = 0 → s.Valid lit →
        PropInv orig G (({ s with decisions := s.decisions + 1 } : Solver).assume lit) := by
      intro lit h1 h2
      have hm : PropInv orig G { s with decisions := s.decisions + 1 } :=
        ⟨h.ok.misc s.propagate s.iterating s.conflicts _ s.options,
          h.watching.misc s.propagate s.inconsistent s.iterating s.conflicts _ s.proof s.options,
          h.frames, h.le⟩
      exact hm.assume hp h1 h2
    have hlit : ∀ lit, (lit = if o.phase then 2 * v else 2 * v + 1) →
        s.values lit = 0 ∧ s.Valid lit := by
      intro lit e
      split at e
      · subst e; exact ⟨h0, hvalid⟩
      · rw [← hneg] at e; subst e
        exact ⟨by rw [ht.anti, h0]; rfl, (valid_neg _ _).2 hvalid⟩
    simp only
    rw [hneg]
    obtain ⟨a, b⟩ := hlit _ rfl
    refine ⟨_, v, _, rfl, key _ a b, h0, hvalid, rfl, ?_, ?_⟩
    · intro x; rw [assume_values]
    · rw [assume_eq]; exact ⟨rfl, rfl, rfl, rfl, rfl, rfl, rfl, rfl⟩

/-- What the loop does not change. -/
structure Stay (s s' : Solver) : Prop where
  vars : s'.vars = s.vars
  removed : s'.removed = s.removed
  options : s'.options = s.options

theorem Stay.refl (s : Solver) : Stay s s := ⟨rfl, rfl, rfl⟩
theorem Stay.trans {s t u : Solver} (h : Stay s t) (h' : Stay t u) : Stay s u :=
  ⟨h'.1.trans h.1, h'.2.trans h.2, h'.3.trans h.3⟩
theorem Reduced.stay {s t : Solver} (h : Reduced s t) : Stay s t := ⟨h.1, h.2, h.3⟩
theorem Kept.stay {s t : Solver} (h : Kept s t) : Stay s t := ⟨h.1, h.2, h.3⟩

/-- State reached with answer `res`. -/
def Answer (orig : Base) (G : Assignment → Prop) (t : Search) (res : Nat) : Prop :=
  (res = 10 ∧ PropInv orig G t.s ∧ t.s.propagate = t.s.trail.length ∧ t.s.unassigned = 0) ∨
  (res = 20 ∧ (∃ L k, OkAt orig G L k t.s) ∧ t.s.inconsistent = true) ∨
  (res = 0 ∧ Between orig G t.s ∧ t.s.unassigned ≠ 0 ∧
    (t.flagged = true ∨ limitHit t.conflictLimit t.s.conflicts = true ∨
      limitHit t.decisionLimit t.s.decisions = true))

theorem iteration_ok {orig : Base} [Deletes orig] {G : Assignment → Prop} {o : Oracle} {t : Search}
    (h : Between orig G t.s) (ho : o.Fair t.s) :
    match iteration o t with
    | .next t' => Between orig G t'.s ∧ Stay t.s t'.s ∧ t'.conflictLimit = t.conflictLimit ∧
        t'.decisionLimit = t.decisionLimit ∧ (t'.s.loose = true → t.s.loose = true ∨ o.collecting ≠ none)
    | .done t' res => Answer orig G t' res ∧
        t'.conflictLimit = t.conflictLimit ∧ t'.decisionLimit = t.decisionLimit ∧
        t'.s.removed = t.s.removed
    | .stuck => t.s.loose = true ∧ o.localSearch = true := by
  have hp := searchPropagate_ok h.prop
  have hc := h.consistent
  unfold iteration
  cases hres : searchPropagate t.s with
  | mk s c =>
    rw [hres] at hp
    obtain ⟨hsame, hok, hlev, hp⟩ := hp
    simp only at hsame hok hlev hp
    have hstay : Stay t.s s := ⟨hsame.1, hsame.2, hsame.3⟩
    have hlo : ∀ {x : Solver}, x.loose = s.loose → x.loose = true → t.s.loose = true ∨ o.collecting ≠ none :=
      fun e hx => .inl (hsame.loose.symm.trans (e.symm.trans hx))
    cases c with
    | some c =>
      simp only at hp ⊢
      by_cases h0 : t.s.level = 0
      · rw [if_pos h0] at hp
        have ha : analyze s c = some (s, 20) := by unfold analyze; rw [hp]; rfl
        rw [ha]
        simp only
        rw [if_neg (by decide)]
        exact ⟨.inr (.inl ⟨rfl, ⟨_, 0, hok.at _ 0 (Nat.le_refl _)⟩, hp⟩), rfl, rfl, hstay.2⟩
      · rw [if_neg h0] at hp
        obtain ⟨hi, hco, k, hk, hf⟩ := hp
        have hA := AInv.of_conflict hok (by omega) hco hk hf
        obtain ⟨s', r, ha, hr⟩ := analyze_ok (hi.trans hc) hA
        rw [ha]
        simp only
        rcases hr with ⟨rfl, h1, h2⟩ | ⟨rfl, h1, h2, h3⟩
        · rw [if_pos rfl]
          exact ⟨⟨h1, h2.inconsistent.trans (hi.trans hc)⟩, hstay.trans h2.stay, rfl, rfl, hlo h2.loose⟩
        · rw [if_neg (by decide)]
          exact ⟨.inr (.inl ⟨rfl, h1, h2⟩), rfl, rfl, h3.trans hstay.2⟩
    | none =>
      simp only at hp ⊢
      obtain ⟨hP, hfull, hi⟩ := hp
      have hS : Between orig G s := ⟨hP, hi.trans hc⟩
      by_cases h1 : s.iterating = true
      · rw [if_pos h1]
        exact ⟨⟨⟨hP.ok.misc s.propagate false s.conflicts s.decisions s.options,
          hP.watching.misc s.propagate s.inconsistent false s.conflicts s.decisions s.proof
            s.options, hP.frames, hP.le⟩, hS.consistent⟩, ⟨hstay.1, hstay.2, hstay.3⟩, rfl, rfl, hlo rfl⟩
      · rw [if_neg h1]
        by_cases h2 : s.unassigned = 0
        · rw [if_pos h2]
          exact ⟨.inl ⟨rfl, hP, hfull, h2⟩, rfl, rfl, hstay.2⟩
        · rw [if_neg h2]
          by_cases h3 : (t.flagged || o.request) = true
          · rw [if_pos h3]
            exact ⟨.inr (.inr ⟨rfl, hS, h2, .inl h3⟩), rfl, rfl, hstay.2⟩
          · rw [if_neg h3]
            cases o.reducing with
            | some refs =>
              simp only
              by_cases hr : s.unflushed ≠ 0 ∧ s.rootConflict = true
              · rw [if_pos hr]
                obtain ⟨g1, g2, g3, g4⟩ := flushToRoot_refuted hP hr.2
                exact ⟨.inr (.inl ⟨rfl, ⟨_, 0, g1.at _ 0 (Nat.le_refl _)⟩, g2⟩), rfl, rfl, g4.trans hstay.2⟩
              · rw [if_neg hr]
                obtain ⟨g1, g2, g3, g4⟩ := reduce_ok hP hfull
                  (fun e => by
                    have := searchPropagate_flushed (s := t.s) (by rw [hres]) (by rw [hres]; exact e)
                    rw [hres] at this; exact this) hr hS.consistent refs o.collecting
                rw [if_pos g3]
                exact ⟨⟨g1, g2.inconsistent.trans hS.consistent⟩, hstay.trans g2.stay, rfl, rfl,
                  fun e => (g4 e).imp hsame.loose.symm.trans id⟩
            | none =>
              simp only
              by_cases h4 : o.switching = true
              · rw [if_pos h4]; exact ⟨hS, hstay, rfl, rfl, hlo rfl⟩
              · rw [if_neg h4]
                cases o.restarting with
                | some n =>
                  simp only
                  obtain ⟨g1, g2⟩ := hP.backtrack n
                  exact ⟨⟨g1, g2.inconsistent.trans hS.consistent⟩, hstay.trans g2.stay, trivial, trivial, hlo g2.loose⟩
                | none =>
                  simp only
                  by_cases h5 : o.reordering = true
                  · rw [if_pos h5]; exact ⟨hS, hstay, rfl, rfl, hlo rfl⟩
                  · rw [if_neg h5]
                    by_cases h6 : o.rephasing = true
                    · rw [if_pos h6]
                      by_cases hr : s.rootConflict = true
                      · rw [if_pos hr]
                        by_cases hls : o.localSearch = true
                        · rw [if_pos hls]
                          refine ⟨Classical.byContradiction fun hl => ?_, hls⟩
                          rw [rootConflict_none hP hfull fun e => absurd (hsame.loose.symm.trans e) hl] at hr
                          cases hr
                        · rw [if_neg hls]
                          obtain ⟨g1, g2, g3, g4⟩ := flushToRoot_refuted hP hr
                          exact ⟨.inr (.inl ⟨rfl, ⟨_, 0, g1.at _ 0 (Nat.le_refl _)⟩, g2⟩), rfl, rfl, g4.trans hstay.2⟩
                      rw [if_neg hr]
                      obtain ⟨g1, gp, g2, g0⟩ := flushToRoot_ok hP hfull (by simpa using hr)
                      cases o.warming with
                      | none =>
                        exact ⟨⟨g1, g2.inconsistent.trans hS.consistent⟩, hstay.trans g2.stay,
                          rfl, rfl, hlo g2.loose⟩
                      | some ds =>
                        obtain ⟨u, w1, w2, w3⟩ := warmup_ok g1 gp g0 (order := o.order) (fun v => by
                          rw [g2.vars, g2.removed, hstay.vars, hstay.removed]; exact ho v) ds
                        simp only
                        rw [w1]
                        have g3 := g2.trans w3.kept
                        exact ⟨⟨w2, g3.inconsistent.trans hS.consistent⟩, hstay.trans g3.stay,
                          rfl, rfl, hlo g3.loose⟩
                    · rw [if_neg h6]
                      by_cases h7 : limitHit t.conflictLimit s.conflicts = true
                      · rw [if_pos h7]
                        exact ⟨.inr (.inr ⟨rfl, hS, h2, .inr (.inl h7)⟩), rfl, rfl, hstay.2⟩
                      · rw [if_neg h7]
                        by_cases h8 : limitHit t.decisionLimit s.decisions = true
                        · rw [if_pos h8]
                          exact ⟨.inr (.inr ⟨rfl, hS, h2, .inr (.inr h8)⟩), rfl, rfl, hstay.2⟩
                        · rw [if_neg h8]
                          have ho' : o.Fair s := fun v => by
                            rw [hstay.vars, hstay.removed]; exact ho v
                          obtain ⟨s', v, lit, g1, g2, _, _, _, _, g3, g4, g5, g6, _, _, _, g7⟩ :=
                            decide_ok hP hfull h2 ho'
                          rw [g1]
                          exact ⟨⟨g2, g6.trans hS.consistent⟩,
                            hstay.trans ⟨g3, g4, g5⟩, rfl, rfl, hlo g7⟩

theorem searchLoop_ok {orig : Base} [Deletes orig] {G : Assignment → Prop} :
    ∀ (os : List Oracle) {t : Search}, Between orig G t.s → (∀ o ∈ os, o.Fair t.s) →
    match searchLoop os t with
    | some (.done t' res) => Answer orig G t' res ∧
        t'.conflictLimit = t.conflictLimit ∧ t'.decisionLimit = t.decisionLimit ∧
        t'.s.removed = t.s.removed
    | some .stuck => (t.s.loose = true ∨ ∃ o ∈ os, o.collecting ≠ none) ∧ ∃ o ∈ os, o.localSearch = true
    | some (.next _) => False
    | none => True
  | [], t, _, _ => trivial
  | o :: os, t, h, hf => by
    have hi := iteration_ok h (hf o (by simp))
    unfold searchLoop
    cases hit : iteration o t with
    | next t' =>
      rw [hit] at hi
      simp only at hi ⊢
      obtain ⟨h1, h2, h3, h4, h5⟩ := hi
      have := searchLoop_ok os h1 fun o' ho' v => by
        rw [h2.vars, h2.removed]; exact hf o' (by simp [ho']) v
      rw [h3, h4, h2.removed] at this
      cases hl : searchLoop os t' with
      | none => trivial
      | some r =>
        rw [hl] at this
        cases r with
        | next _ => exact this
        | done _ _ => exact this
        | stuck =>
          obtain ⟨this, o'', f1, f2⟩ := this
          refine ⟨?_, o'', by simp [f1], f2⟩
          rcases this with e | ⟨o', e1, e2⟩
          · rcases h5 e with e | e
            · exact .inl e
            · exact .inr ⟨o, by simp, e⟩
          · exact .inr ⟨o', by simp [e1], e2⟩
    | done t' res =>
      rw [hit] at hi
      exact hi
    | stuck => rw [hit] at hi; exact ⟨.inl hi.1, o, by simp, hi.2⟩

/-- The termination flag after an iteration. -/
theorem iteration_flag (o : Oracle) (t : Search) :
    match iteration o t with
    | .next t' => t'.flagged = (t.flagged || o.request)
    | .done t' _ => t'.flagged = (t.flagged || o.request)
    | .stuck => True := by
  unfold iteration
  rcases searchPropagate t.s with ⟨s, _ | c⟩
  · simp only
    by_cases h1 : s.iterating = true
    · rw [if_pos h1]
    rw [if_neg h1]
    by_cases h2 : s.unassigned = 0
    · rw [if_pos h2]
    rw [if_neg h2]
    by_cases h3 : (t.flagged || o.request) = true
    · rw [if_pos h3]
    rw [if_neg h3]
    cases o.reducing with
    | some refs =>
      simp only
      by_cases hr : s.unflushed ≠ 0 ∧ s.rootConflict = true
      · rw [if_pos hr]
      · rw [if_neg hr]
        by_cases h4 : (reduce s refs o.collecting).2 = 0
        · rw [if_pos h4]
        · rw [if_neg h4]
    | none =>
      simp only
      by_cases h4 : o.switching = true
      · rw [if_pos h4]
      rw [if_neg h4]
      cases o.restarting with
      | some n => rfl
      | none =>
        simp only
        by_cases h5 : o.reordering = true
        · rw [if_pos h5]
        rw [if_neg h5]
        by_cases h6 : o.rephasing = true
        · rw [if_pos h6]
          by_cases hr : s.rootConflict = true
          · rw [if_pos hr]
            by_cases hls : o.localSearch = true
            · rw [if_pos hls]; trivial
            · rw [if_neg hls]
          rw [if_neg hr]
          cases o.warming with
          | none => rfl
          | some ds =>
            simp only
            cases warmup o.order ds s.flushToRoot with
            | none => trivial
            | some u => rfl
        rw [if_neg h6]
        by_cases h7 : limitHit t.conflictLimit s.conflicts = true
        · rw [if_pos h7]
        rw [if_neg h7]
        by_cases h8 : limitHit t.decisionLimit s.decisions = true
        · rw [if_pos h8]
        rw [if_neg h8]
        cases s.decide o.order o.phase with
        | none => trivial
        | some s' => rfl
  · simp only
    cases analyze s c with
    | none => trivial
    | some p =>
      simp only
      by_cases h1 : p.2 = 0
      · rw [if_pos h1]
      · rw [if_neg h1]

theorem searchLoop_flag : ∀ (os : List Oracle) {t t' : Search} {res : Nat},
    searchLoop os t = some (.done t' res) → t'.flagged = true →
    t.flagged = true ∨ ∃ o ∈ os, o.request = true
  | [], t, t', res, h, _ => by simp [searchLoop] at h
  | o :: os, t, t', res, h, hf => by
    have hi := iteration_flag o t
    unfold searchLoop at h
    cases hit : iteration o t with
    | next u =>
      rw [hit] at h hi
      simp only at h hi
      rcases searchLoop_flag os h hf with h1 | ⟨o', h1, h2⟩
      · rw [hi, Bool.or_eq_true] at h1
        rcases h1 with h1 | h1
        · exact .inl h1
        · exact .inr ⟨o, by simp, h1⟩
      · exact .inr ⟨o', by simp [h1], h2⟩
    | done u r =>
      rw [hit] at h hi
      simp only [Option.some.injEq, Outcome.done.injEq] at h
      obtain ⟨rfl, rfl⟩ := h
      simp only at hi
      rw [hi, Bool.or_eq_true] at hf
      rcases hf with h1 | h1
      · exact .inl h1
      · exact .inr ⟨o, by simp, h1⟩
    | stuck => rw [hit] at h; simp at h

end Verif.Core
