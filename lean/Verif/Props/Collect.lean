import Verif.Proofs.Collect.Settle
import Verif.Proofs.Collect.Keep
import Verif.Proofs.Collect.Lines
import Verif.Proofs.Whole.Reach
import Verif.Proofs.Core.Again
import Verif.Proofs.Examples

/-!
# Garbage collection (C36, C40)

`Collection s start u`: `s` is the state in which `kissat_reduce` has marked any choice
of clauses as garbage after propagation without conflict in a reachable state of the
search, and `u` is the state after `kissat_sparse_collect` from the clause `start` on.
The decision level is arbitrary.  Going to the root level for new units is assumed to find no
conflict there (backtrack.c:171-172).
-/

namespace Verif.Props

open Verif.Core Verif.Spec

/-- Garbage is collected. -/
def Collection (s : Solver) (start : Nat) (u : Solver) : Prop :=
  ∃ t refs, Reachable t ∧ (searchPropagate t.s).2 = none ∧
    ((searchPropagate t.s).1.unflushed ≠ 0 → (searchPropagate t.s).1.rootConflict = false) ∧
    s = (searchPropagate t.s).1.markReducible refs ∧ start ≤ s.arena.length ∧ u = s.sparseCollect start

/-- A unit satisfies the clause. -/
def UnitSatisfied (s : Solver) (c : List Nat) : Prop := ∃ l ∈ c, s.values l = 1 ∧ s.lev l = 0

/-- `d` has the literals of `c` which are not falsified by units. -/
def Trimmed (s : Solver) (c d : List Nat) : Prop :=
  ∀ l, l ∈ d ↔ l ∈ c ∧ ¬ (s.values l = -1 ∧ s.lev l = 0)

theorem Collection.settled {s u : Solver} {start : Nat} (h : Collection s start u) :
    Settled s ∧ Collected s u start ∧ u = s.sparseCollect start ∧ start ≤ s.arena.length := by
  obtain ⟨t, refs, hr, hc, hn, rfl, hst, rfl⟩ := h
  obtain ⟨_, _, _, hb⟩ := hr.between
  obtain ⟨_, _, _, hp⟩ := searchPropagate_ok hb.prop
  rw [hc] at hp
  obtain ⟨hP, hfull, hi⟩ := hp
  have hs := reduce_settled hP hfull (searchPropagate_flushed hc) hn refs
  exact ⟨hs, hs.collected hst, rfl, hst⟩

/-- C40: the assignment is unaffected: values, levels, trail and positions on it, and
decisions stay. -/
theorem C40_collect_assignment {s u : Solver} {start : Nat} (h : Collection s start u) :
    u.values = s.values ∧ u.trail = s.trail ∧ u.frames = s.frames ∧ u.level = s.level ∧
    u.propagate = s.propagate ∧ u.inconsistent = s.inconsistent ∧
    (∀ l, u.lev l = s.lev l) ∧ ∀ l, u.pos l = s.pos l := by
  have hf := h.settled.2.1.framed
  exact ⟨hf.values, hf.trail, hf.frames, hf.level, hf.propagate, hf.inconsistent, hf.lev, hf.pos⟩

/-- C40: every clause is kept, up to removal of literals falsified by units, unless it is
satisfied by a unit; irredundant clauses are kept as irredundant ones; there are no other
clauses. -/
theorem C40_collect_clauses {s u : Solver} {start : Nat} (h : Collection s start u) :
    (∀ c, s.formula c → UnitSatisfied s c ∨ u.formula c ∨ ∃ d, u.formula d ∧ Trimmed s c d) ∧
    (∀ c, s.irr c → UnitSatisfied s c ∨ u.irr c ∨ ∃ d, u.irr d ∧ Trimmed s c d) ∧
    (∀ d, u.formula d → s.formula d ∨ ∃ c, s.formula c ∧ Trimmed s c d) := by
  obtain ⟨hs, hc, _⟩ := h.settled
  have key : ∀ {c d : List Nat}, (∀ l, l ∈ d ↔ l ∈ s.reduct c) → Trimmed s c d :=
    fun h l => (h l).trans (mem_reduct hs.inv.trail)
  refine ⟨fun c k => ?_, fun c k => ?_, fun d k => ?_⟩
  · rcases hc.formula_fwd hs k with k | k | ⟨d, k1, k2⟩
    · exact .inl k
    · exact .inr (.inl k)
    · exact .inr (.inr ⟨d, k1, key k2⟩)
  · rcases hc.irr_fwd hs k with k | k | ⟨d, k1, k2⟩
    · exact .inl k
    · exact .inr (.inl k)
    · exact .inr (.inr ⟨d, k1, key k2⟩)
  · rcases hc.formula_back k with k | ⟨c, k1, k2⟩
    · exact .inl k
    · exact .inr ⟨c, k1, key k2⟩

/-- C40: the models are the same. -/
theorem C40_collect_models {s u : Solver} {start : Nat} (h : Collection s start u)
    (σ : Assignment) : SatFormula σ u.formula ↔ SatFormula σ s.formula :=
  h.settled.2.1.models h.settled.1 σ

/-- C40: reasons.  Every true literal keeps its reason; if the reason clause was collected
it is the same clause in its new place, up to removed literals and order of literals, or
a binary clause if only two literals are left. -/
theorem C40_collect_reasons {s u : Solver} {start : Nat} (h : Collection s start u) {l : Nat}
    (hl : s.values l = 1) :
    match (s.assigned (l / 2)).reason with
    | .large r =>
      if r < start then (u.assigned (l / 2)).reason = .large r ∧ u.clause r = s.clause r
      else (∃ r', (u.assigned (l / 2)).reason = .large r' ∧ u.Live r' ∧
            (u.clause r').redundant = (s.clause r).redundant ∧
            Trimmed s (s.clause r).lits (u.clause r').lits) ∨
        ∃ o, (u.assigned (l / 2)).reason = .binary o ∧ Trimmed s (s.clause r).lits [l, o] ∧
          Watch.binary o ∈ u.watches l ∧ Watch.binary l ∈ u.watches o
    | r => (u.assigned (l / 2)).reason = r := by
  obtain ⟨hs, hc, _⟩ := h.settled
  cases hr : (s.assigned (l / 2)).reason with
  | unit => exact (hc.keptReason l hl fun r h => by rw [hr] at h; cases h).trans hr
  | decision => exact (hc.keptReason l hl fun r h => by rw [hr] at h; cases h).trans hr
  | binary o => exact (hc.keptReason l hl fun r h => by rw [hr] at h; cases h).trans hr
  | large r =>
    simp only
    split
    · rename_i hlt
      exact ⟨(hc.keptReason l hl fun r' h => by rw [hr] at h; cases h; exact hlt).trans hr, hc.low r hlt⟩
    · rename_i hlt
      obtain ⟨f1, f2, _⟩ := hs.inv.forces hl hr
      rcases hc.newReason l r hl hr (by omega) with ⟨r', _, k1, k2, k3, k4⟩ | ⟨o, k1, k2⟩
      · exact .inl ⟨r', k1, k2, k3, fun x => k4.mem_iff.trans (mem_reduct hs.inv.trail)⟩
      · have hb : Watch.binary o ∈ u.watches l ∧ Watch.binary l ∈ u.watches o := by
          have hst : s.Stays r := ⟨f1, f2.not_rootSat⟩
          rcases k2 with k2 | k2
          · exact hc.bin_new (by omega) hst k2
          · exact (hc.bin_new (by omega) hst k2).symm
        refine .inr ⟨o, k1, fun x => ?_, hb⟩
        rw [← mem_reduct hs.inv.trail]
        rcases k2 with k2 | k2 <;> rw [k2]
        simp only [List.mem_cons, List.not_mem_nil, or_false]
        exact or_comm

/-- C40: the new reasons are right: the other literals are false and were assigned
before, and the literal is watched. -/
theorem C40_collect_reasons_right {s u : Solver} {start : Nat} (h : Collection s start u) {l : Nat}
    (hl : u.values l = 1) :
    match (u.assigned (l / 2)).reason with
    | .unit => u.lev l = 0
    | .decision => ∃ f, u.frames[u.lev l - 1]? = some f ∧ f.decision = l
    | .binary o => u.values o = -1 ∧ u.lev o = u.lev l ∧ u.pos o < u.pos l ∧ Entails u.bins [l, o]
    | .large r => u.formula (u.clause r).lits ∧ (u.clause r).Watched l ∧
        ∀ m ∈ (u.clause r).lits, m ≠ l →
          u.values m = -1 ∧ u.lev m ≤ u.lev l ∧ (u.lev m = 0 ∨ u.pos m < u.pos l) := by
  obtain ⟨hs, hc, _⟩ := h.settled
  have hi := hc.collectible hs
  cases hr : (u.assigned (l / 2)).reason with
  | unit =>
    by_cases h0 : u.lev l = 0
    · exact h0
    · exact absurd hr (hi.reason.unit l hl h0)
  | decision => exact hi.reason.decision l hl hr
  | binary o =>
    obtain ⟨h1, h2, h3, h4⟩ := hi.reason.binary l o hl hr
    refine ⟨h1, h2, h3, fun σ hσ => ?_⟩
    by_cases ho : litTrue σ o
    · exact ⟨o, by simp, ho⟩
    · refine ⟨l, by simp, UP.sound hσ (fun x hx => ?_) h4⟩
      rw [hx, litTrue_neg]; exact ho
  | large r =>
    obtain ⟨h1, h2, h3, _⟩ := hi.reason.large l r hl hr
      (.inl (Nat.lt_succ_of_le (hi.trail.levle l hl)))
    exact ⟨.inl ⟨r, h1, rfl⟩, h2, h3⟩

/-- C40: watches.  Clauses which are not satisfied by a unit are watched by their first two
literals, and a clause is only in the watch lists of these and at most once; in collected
clauses these are the best ones: the first is false only if all literals are, the second
only if all but the first are, and then their levels are the highest. -/
theorem C40_collect_watches {s u : Solver} {start : Nat} (h : Collection s start u) :
    (∀ r, u.Live r → ¬ UnitSatisfied u (u.clause r).lits →
      ∀ w, (u.clause r).Watched w → ∃ b, Watch.large b r ∈ u.watches w) ∧
    (∀ w b r, Watch.large b r ∈ u.watches w → r < u.arena.length ∧
      (u.Live r → (u.clause r).Watched w ∧ b ∈ (u.clause r).lits)) ∧
    (∀ w, ((u.watches w).filterMap Watch.ref?).Nodup) ∧
    (∀ a b, Watch.binary b ∈ u.watches a → Watch.binary a ∈ u.watches b) ∧
    ∀ r, start ≤ r → r < u.arena.length → u.Live r ∧ ∃ a b rest, (u.clause r).lits = a :: b :: rest ∧
      (u.values a < 0 → ∀ x ∈ a :: b :: rest, u.values x < 0 ∧ u.lev x ≤ u.lev a) ∧
      (u.values b < 0 → ∀ x ∈ b :: rest, u.values x < 0 ∧ u.lev x ≤ u.lev b) := by
  obtain ⟨hs, hc, _⟩ := h.settled
  have hi := hc.collectible hs
  refine ⟨hi.watched, fun w b r hw => ⟨hi.inarena w b r hw, hi.back w b r hw⟩, hi.once,
    fun a b hab => (hi.clause.bin a b hab).1, fun r h1 h2 => ?_⟩
  obtain ⟨_, _, _, _, k, _⟩ := hc.back r h1 h2
  obtain ⟨a, b, rest, e, k1, k2⟩ := hc.best r h1 h2
  simp only [← hc.framed.values, ← hc.framed.lev] at k1 k2
  exact ⟨k, a, b, rest, e, k1, k2⟩

/-- C40: proof lines.  A clause satisfied by a unit is deleted; a clause with literals
falsified by units is deleted after the one without these, which follows by unit
propagation from it and the units, was added. -/
theorem C40_collect_proof {s u : Solver} {start : Nat} (h : Collection s start u) :
    ∃ blocks : List (List Spec.Line), u.proof = s.proof ++ blocks.flatten ∧
      ∀ b ∈ blocks, (∃ c, s.formula c ∧ UnitSatisfied s c ∧ b = [.delete c]) ∨
        ∃ c d, s.formula c ∧ Trimmed s c d ∧ b = [.add d, .delete c] ∧
          RUP (fun x => x = c ∨ ∃ l, s.values l = 1 ∧ s.lev l = 0 ∧ x = [l]) d := by
  obtain ⟨hs, hc, rfl, hst⟩ := h.settled
  obtain ⟨bs, h1, h2⟩ := hs.blocks hst
  refine ⟨bs, h1, fun b hb => (h2 b hb).imp id ?_⟩
  rintro ⟨c, k1, _, k2⟩
  refine ⟨c, s.reduct c, k1, fun l => mem_reduct hs.inv.trail, k2, .inl ⟨c, .inl rfl, fun m hm => ?_⟩⟩
  by_cases hf : s.values m = -1 ∧ s.lev m = 0
  · refine .unit (c := [neg m]) (.inr ⟨neg m, hs.inv.trail.neg_pos.2 hf.1, by rw [lev_neg]; exact hf.2, rfl⟩)
      (by simp) fun x hx hne => absurd (List.mem_singleton.1 hx) hne
  · refine .assumed ?_
    show neg (neg m) ∈ _
    rw [neg_neg]
    exact (mem_reduct hs.inv.trail).2 ⟨hm, hf⟩

/-- Options with chronological backtracking from the first level on. -/
def chronoOptions : Options :=
  { exOptions with chronolevels := 1, eagersubsume := 0, otfs := false }

/-- Reachable states with given options. -/
def chronoReach (es : List Int) (os : List Oracle) : Option Search :=
  match exAdd es (Api.init chronoOptions true 100 500) with
  | none => none
  | some a =>
    if a.searches = 0 ∧ a.s.inconsistent = false then
      exSteps os ⟨a.s, a.conflictLimit, a.decisionLimit, a.flagged⟩
    else none

theorem chronoReach_sound {es : List Int} {os : List Oracle} {P : Search → Bool}
    (h : (chronoReach es os).map P = some true) : ∃ t, Reachable t ∧ P t = true := by
  cases hr : chronoReach es os with
  | none => rw [hr] at h; cases h
  | some t =>
    rw [hr] at h
    refine ⟨t, ?_, by simpa using h⟩
    unfold chronoReach at hr
    cases ha : exAdd es (Api.init chronoOptions true 100 500) with
    | none => rw [ha] at hr; cases hr
    | some a =>
      rw [ha] at hr
      simp only at hr
      split at hr
      · rename_i h0
        exact .search (exAdd_run es .nil ha) (exSteps_sound os (.start h0.1 h0.2) hr)
      · cases hr

/-- Decide a given variable. -/
def chronoDecide (v : Nat) (phase : Bool) : Oracle := exDecide (v :: List.range 10) phase

/-- Restart from scratch. -/
def chronoRestart : Oracle := { chronoDecide 0 true with restarting := some 0 }

/-- Two clauses are learned with restarts after them, then four decisions lead to a
conflict after which a literal is assigned on the first level while the third one stays. -/
def chronoOracles : List Oracle :=
  [chronoDecide 0 true, chronoDecide 1 true, chronoDecide 2 true, chronoDecide 0 true, chronoRestart,
   chronoDecide 6 false, chronoDecide 5 false, chronoDecide 4 false, chronoDecide 0 true, chronoRestart,
   chronoDecide 8 true, chronoDecide 6 false, chronoDecide 5 true, chronoDecide 4 true, chronoDecide 0 true]

def chronoFormula : List Int :=
  [-1, -2, -3, 4, 0, -1, -2, -3, -4, 0, 8, 7, 6, 10, 0, 8, 7, 6, -10, 0, -8, -5, 9, 0, -8, -5, -9, 0]

/-- Garbage is collected. -/
def chronoCollect : Oracle := { chronoDecide 0 true with reducing := some [6], collecting := some 6 }

/-- C36 does not hold after garbage collection.  Collection sorts the literals of clauses
such that the watched ones are good for the current assignment.  With chronological
backtracking a literal of a lower level may come later on the trail.  After backtracking
to a level at which the clause is unit it is propagated again, but does not watch the
clause any more: propagation finishes without conflict, all but one literal of the clause
are false and the remaining one is unassigned. -/
theorem C36_missed_after_collection :
    ∃ t, Reachable t ∧ (searchPropagate t.s).2 = none ∧
      ∃ c l, (searchPropagate t.s).1.formula c ∧ l ∈ c ∧ (searchPropagate t.s).1.values l = 0 ∧
        ∀ m ∈ c, m ≠ l → (searchPropagate t.s).1.values m = -1 := by
  obtain ⟨t, hr, h⟩ := chronoReach_sound (es := chronoFormula)
    (os := chronoOracles ++ [chronoCollect, { chronoDecide 0 true with restarting := some 2 }])
    (P := fun t => let u := searchPropagate t.s
      u.2.isNone && (u.1.clause 6 == ⟨[10, 12, 8], false, true, 2⟩) &&
      (u.1.values 10 == 0) && (u.1.values 12 == -1) && (u.1.values 8 == -1))
    (by decide +kernel)
  simp only [Bool.and_eq_true, beq_iff_eq, Option.isNone_iff_eq_none] at h
  obtain ⟨⟨⟨⟨h3, h4⟩, h5⟩, h6⟩, h7⟩ := h
  refine ⟨t, hr, h3, [10, 12, 8], 10, ?_, by simp, h5, ?_⟩
  · refine .inl ⟨6, ?_, by rw [h4]⟩
    unfold Solver.Live
    rw [h4]
  · intro m hm hne
    simp only [List.mem_cons, List.not_mem_nil, or_false] at hm
    rcases hm with rfl | rfl | rfl
    · exact absurd rfl hne
    · exact h6
    · exact h7

/-- A collection at level three which removes a clause and moves another one. -/
example : ∃ s start u, Collection s start u ∧ s.level = 3 ∧
    (s.clause 6).garbage = true ∧ s.arena.length = 8 ∧ u.arena.length = 7 ∧
    (u.clause 6).lits = [10, 12, 8] := by
  obtain ⟨t, hr, h⟩ := chronoReach_sound (es := chronoFormula) (os := chronoOracles)
    (P := fun t => (searchPropagate t.s).2.isNone &&
      (((((searchPropagate t.s).1.markReducible [6]).level == 3) &&
        (((searchPropagate t.s).1.markReducible [6]).clause 6).garbage) &&
      (((searchPropagate t.s).1.markReducible [6]).arena.length == 8 &&
        (((searchPropagate t.s).1.markReducible [6]).sparseCollect 6).arena.length == 7)) &&
      ((((searchPropagate t.s).1.markReducible [6]).sparseCollect 6).clause 6).lits == [10, 12, 8] &&
      !(searchPropagate t.s).1.rootConflict)
    (by decide +kernel)
  simp only [Bool.and_eq_true, beq_iff_eq, Option.isNone_iff_eq_none, Bool.not_eq_true'] at h
  obtain ⟨⟨⟨h1, ⟨h2, h3⟩, h4, h5⟩, h6⟩, h7⟩ := h
  exact ⟨_, 6, _, ⟨t, [6], hr, h1, fun _ => h7, rfl, by omega, rfl⟩, h2, h3, h4, h5, h6⟩

/-- Decide a given variable out of fourteen. -/
def rootDecide (v : Nat) (phase : Bool) : Oracle := exDecide (v :: List.range 14) phase

/-- Restart to a given level. -/
def rootRestart (level : Nat) : Oracle := { rootDecide 0 true with restarting := some level }

/-- As `chronoFormula` with clauses such that `11` is implied and together with a missed
propagation leads to a conflict on the root level. -/
def rootFormula : List Int :=
  chronoFormula ++ [-11, -6, 0, -11, -8, 0, 11, 12, 14, 0, 11, -12, 14, 0, 11, 12, -14, 0,
    11, -12, -14, 0, -7, -11, 13, 0, -7, -11, -13, 0]

/-- Two clauses are learned, a literal is assigned out of order. -/
def rootBefore : List Oracle :=
  [rootDecide 0 true, rootDecide 1 true, rootDecide 2 true, rootDecide 0 true, rootRestart 0,
   rootDecide 6 false, rootDecide 5 false, rootDecide 4 false, rootDecide 0 true, rootRestart 0,
   rootDecide 8 true, rootDecide 6 false, rootDecide 5 true, rootDecide 4 true, rootDecide 0 true]

/-- Garbage collection, restart to level two, and the unit `11` is learned. -/
def rootAfter : List Oracle :=
  [{ rootDecide 0 true with reducing := some [12], collecting := some 12 }, rootRestart 2, rootDecide 10 false,
   rootDecide 11 true, rootDecide 0 true, rootDecide 0 true, rootDecide 0 true]

/-- The assertion `!conflict` in `kissat_backtrack_propagate_and_flush_trail`
(backtrack.c:163-177) does not hold for a search with garbage collection: propagation is
complete without conflict in a consistent state, and `kissat_rephase`, which goes to the root
level and propagates again, finds a conflict there.  Compiled without assertions the code
ignores it and goes on with an inconsistent solver. -/
theorem C36_C59_root_conflict_ignored :
    ∃ t, Reachable t ∧ t.s.inconsistent = false ∧ (searchPropagate t.s).2 = none ∧
      (searchPropagate t.s).1.inconsistent = false ∧ (searchPropagate t.s).1.iterating = false ∧
      (searchPropagate t.s).1.unassigned ≠ 0 ∧
      (searchPropagate t.s).1.flushToRoot.inconsistent = true := by
  obtain ⟨t, hr, h⟩ := chronoReach_sound (es := rootFormula) (os := rootBefore ++ rootAfter)
    (P := fun t => !t.s.inconsistent && (searchPropagate t.s).2.isNone &&
      !(searchPropagate t.s).1.inconsistent && !(searchPropagate t.s).1.iterating &&
      (searchPropagate t.s).1.unassigned != 0 && (searchPropagate t.s).1.flushToRoot.inconsistent)
    (by decide +kernel)
  simp only [Bool.and_eq_true, Bool.not_eq_true', bne_iff_ne, ne_eq, Option.isNone_iff_eq_none] at h
  obtain ⟨⟨⟨⟨⟨h1, h2⟩, h3⟩, h4⟩, h5⟩, h6⟩ := h
  exact ⟨t, hr, h1, h2, h3, h4, h5, h6⟩

/-- C59: without collection of garbage on positive decision levels the assertion holds. -/
theorem C59_root_conflict_free {t : Search} (h : Reachable t) (hl : t.s.loose = false)
    (hc : (searchPropagate t.s).2 = none) : (searchPropagate t.s).1.rootConflict = false := by
  obtain ⟨_, _, _, hb⟩ := h.between
  obtain ⟨hsame, _, _, hp⟩ := searchPropagate_ok hb.prop
  rw [hc] at hp
  obtain ⟨hP, hfull, _⟩ := hp
  exact rootConflict_none hP hfull fun e => by rw [hsame.loose, hl] at e; cases e

/-- C01, C02: the ignored conflict is not lost.  The solver is marked as inconsistent, and if
search goes on from there the next propagation finds a conflict again (for which
`kissat_analyze` returns 20, analyze.c:528-531). -/
theorem C01_conflict_again {t : Search} (h : Reachable t) (hc : (searchPropagate t.s).2 = none)
    (hr : (searchPropagate t.s).1.rootConflict = true) :
    (searchPropagate t.s).1.flushToRoot.inconsistent = true ∧
    (searchPropagate (searchPropagate t.s).1.flushToRoot).2 ≠ none := by
  obtain ⟨orig, G, hd, hb⟩ := h.between
  obtain ⟨_, _, _, hp⟩ := searchPropagate_ok hb.prop
  rw [hc] at hp
  exact ⟨(flushToRoot_refuted hp.1 hr).2.1, rootConflict_again hp.1 hr⟩

/-- Such a state is reached. -/
example : ∃ t, Reachable t ∧ (searchPropagate t.s).2 = none ∧
    (searchPropagate t.s).1.rootConflict = true := by
  obtain ⟨t, hr, h⟩ := chronoReach_sound (es := rootFormula) (os := rootBefore ++ rootAfter)
    (P := fun t => (searchPropagate t.s).2.isNone && (searchPropagate t.s).1.rootConflict)
    (by decide +kernel)
  simp only [Bool.and_eq_true, Option.isNone_iff_eq_none] at h
  exact ⟨t, hr, h.1, h.2⟩

/-- Going to the root level for resetting phases. -/
def rootRephase : Oracle := { rootDecide 0 true with rephasing := true }

/-- Runs with garbage collection: the conflict on the root level is ignored, and 20 is returned. -/
theorem rootFormula_20 : exSolve (Api.init chronoOptions true 100 500) rootFormula
    (rootBefore ++ rootAfter ++ [rootRephase]) = some 20 := by decide +kernel

example : ∃ a a' os, Run (Api.init chronoOptions true 100 500) (rootFormula.map Call.add) a ∧
    (Call.solve os).Fair a.s ∧ a.solve os = .done a' 20 ∧ ∃ o ∈ os, o.collecting ≠ none := by
  obtain ⟨b, b', h1, h2, h3⟩ := exSolve_sound (a0 := Api.init chronoOptions true 100 500) .nil rootFormula_20
  exact ⟨b, b', _, h1, h2, h3, { rootDecide 0 true with reducing := some [12], collecting := some 12 },
    by simp [rootAfter], by simp⟩

/-- The same for a satisfiable formula. -/
theorem chronoFormula_10 : exSolve (Api.init chronoOptions true 100 500) chronoFormula
    (chronoOracles ++ [chronoCollect] ++ List.replicate 8 (chronoDecide 0 true)) = some 10 := by
  decide +kernel

example : ∃ a a' os, Run (Api.init chronoOptions true 100 500) (chronoFormula.map Call.add) a ∧
    (Call.solve os).Fair a.s ∧ a.solve os = .done a' 10 ∧ ∃ o ∈ os, o.collecting ≠ none := by
  obtain ⟨b, b', h1, h2, h3⟩ := exSolve_sound (a0 := Api.init chronoOptions true 100 500) .nil chronoFormula_10
  exact ⟨b, b', _, h1, h2, h3, chronoCollect, by simp, by simp [chronoCollect]⟩

/-- The search gets stuck if local search is started after an ignored conflict. -/
def exStuck (a : Api) (es : List Int) (os : List Oracle) : Bool :=
  match exAdd es a with
  | none => false
  | some a => exFair a.s os && (match a.solve os with | .stuck => true | _ => false)

theorem exStuck_sound {a0 : Api} {es : List Int} {os : List Oracle} (h : exStuck a0 es os = true) :
    ∃ b, Run a0 (es.map Call.add) b ∧ (Call.solve os).Fair b.s ∧ b.solve os = .stuck := by
  unfold exStuck at h
  cases ha : exAdd es a0 with
  | none => rw [ha] at h; cases h
  | some b =>
    rw [ha] at h
    simp only [Bool.and_eq_true] at h
    refine ⟨b, ?_, exFair_sound h.1, ?_⟩
    · have := exAdd_run es .nil ha
      simpa using this
    · cases hs : b.solve os with
      | stuck => rfl
      | _ => rw [hs] at h; cases h.2

/-- C04, C58: it is not the case that every call of `kissat_solve` is free of undefined
behaviour and violated assertions: local search is started on an inconsistent solver. -/
theorem C04_C58_local_search_after_conflict :
    ∃ calls a os, Run (Api.init chronoOptions true 100 500) calls a ∧ (Call.solve os).Fair a.s ∧
      a.solve os = .stuck := by
  obtain ⟨b, h1, h2, h3⟩ := exStuck_sound (a0 := Api.init chronoOptions true 100 500) (es := rootFormula)
    (os := rootBefore ++ rootAfter ++ [{ rootRephase with walking := true }]) (by decide +kernel)
  exact ⟨_, b, _, h1, h2, h3⟩

end Verif.Props
