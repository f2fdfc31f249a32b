import Verif.Proofs.Core.JointExample

/-!
# Search and decision variables together (C37, C41, C60)

`Linked s d`: the queue and the heap `d` have the same values and active variables as the
solver `s`.  `Follows`: the calls made while the solver goes from one state to another.
`JointStep`: one iteration of the search loop with queue and heap (`Model/Core/Joint.lean`).
Assumption everywhere: at most one new variable per run of bounded variable addition
(`Reaches zero false`), see C60 for what happens otherwise.
-/

namespace Verif.Props

open Verif.Core Verif.Spec
open Verif.Model

variable {α : Type} [LinearOrder α]

/-- C37: the hypotheses below can be met: every state of the solver belongs to some
state of queue and heap. -/
theorem C37_C41_linked (zero : α) {s : Solver} (h : Seen s) (hv : s.vars ≤ 2 ^ 30 - 1) :
    ∃ d : Decide.State α, Decide.Reaches zero false d ∧ Linked s d :=
  linked_exists zero h.trail hv

/-- C37 (partial: at most one new variable per run of bounded variable addition).
Backtracking to a lower level calls `unassign` for the variables of the literals of higher
levels on the trail.  In whatever order, these calls succeed.  Afterwards queue and heap
agree with the solver, and every variable in use without value is available: the next
decision finds a variable without value, and this is `v` if all others have one. -/
theorem C37_available_again_partial {zero : α} {s : Solver} (h : Seen s) {n : Nat}
    (hn : n < s.level) {d : Decide.State α} (hR : Decide.Reaches zero false d) (hL : Linked s d)
    {us : List Nat} (hu : us.Perm ((s.trail.filter fun l => n < s.lev l).map (· / 2))) :
    ∃ d', Calls zero false (us.map .unassign) d d' ∧ Linked (s.backtrack n) d' ∧
      Decide.Reaches zero false d' ∧
      ∀ v, v < s.vars → s.removed v = false → (s.backtrack n).values (2 * v) = 0 →
        (∃ w d'', d'.next = some (w, d'') ∧ w < s.vars ∧ s.removed w = false ∧
          (s.backtrack n).values (2 * w) = 0) ∧
        ((∀ w, w < s.vars → s.removed w = false → w ≠ v → (s.backtrack n).values (2 * w) ≠ 0) →
          ∃ d'', d'.next = some (v, d'')) := by
  have ht := h.trail
  obtain ⟨f, hb⟩ := ht.backtracked hn
  have hB := hb.back
  have hk := hB.kept
  have hfin : ∃ d', Calls zero false (us.map .unassign) d d' ∧ Linked (s.backtrack n) d' ∧
      Decide.Reaches zero false d' := by
    have hmem : ∀ v, v ∈ us ↔ s.values (2 * v) ≠ 0 ∧ n < s.lev (2 * v) := by
      intro v
      rw [hu.mem_iff, List.mem_map]
      constructor
      · rintro ⟨l, hl, rfl⟩
        obtain ⟨h1, h2⟩ := List.mem_filter.1 hl
        have hl1 := ht.tval l h1
        refine ⟨fun e => ?_, ?_⟩
        · have := ht.zero_of_div (l := 2 * (l / 2)) (m := l) (by omega) e
          omega
        · have : s.lev (2 * (l / 2)) = s.lev l := by
            unfold Solver.lev; rw [show 2 * (l / 2) / 2 = l / 2 by omega]
          rw [this]; simpa using h2
      · rintro ⟨h1, h2⟩
        have key : ∀ l, s.values l = 1 → l / 2 = v →
            ∃ a ∈ s.trail.filter (fun l => n < s.lev l), a / 2 = v := by
          intro l h3 h4
          have hlev : s.lev l = s.lev (2 * v) := by
            unfold Solver.lev; rw [h4, show 2 * v / 2 = v by omega]
          refine ⟨l, List.mem_filter.2 ⟨?_, by rw [hlev]; simpa using h2⟩, h4⟩
          apply Classical.byContradiction
          intro hnt
          have := ht.flushed l h3 hnt
          omega
        rcases ht.dom (2 * v) with e | e | e
        · exact key (2 * v) e (by omega)
        · exact absurd e h1
        · exact key (neg (2 * v)) (by rw [ht.anti, e]; rfl) (by rw [neg_div]; omega)
    have hact : ∀ v ∈ us, d.active v = true := fun v hv => by
      obtain ⟨h1, h2⟩ := (hmem v).1 hv
      obtain ⟨a, b⟩ := ht.valid_var h1
      exact (hL.active v).2 ⟨a, b, rootValued_false.2 fun g => by omega⟩
    obtain ⟨d', hc⟩ := unassign_exist hR hact
    obtain ⟨r, a, b⟩ := calls_unassign hc rfl hact hR
    refine ⟨d', hc, ⟨fun v => ?_, fun v => ?_⟩, r⟩
    · rw [b, hmem, hL.assigned, hB.values]
      constructor
      · rintro ⟨h1, h2⟩
        rw [if_neg h2]; exact h1
      · intro g
        by_cases hc : s.values (2 * v) ≠ 0 ∧ n < s.lev (2 * v)
        · rw [if_pos hc] at g; exact absurd rfl g
        · rw [if_neg hc] at g; exact ⟨g, hc⟩
    · rw [a, hL.active]
      unfold Solver.inUse
      rw [hk.vars, hk.removed, rootValued_false, rootValued_false, hB.values, hB.lev]
      by_cases hc : s.values (2 * v) ≠ 0 ∧ n < s.lev (2 * v)
      · rw [if_pos hc]
        exact ⟨fun g => ⟨g.1, g.2.1, fun k => k.1 rfl⟩, fun g => ⟨g.1, g.2.1, fun k => by omega⟩⟩
      · rw [if_neg hc]
  obtain ⟨d', hc, hL', hR'⟩ := hfin
  refine ⟨d', hc, hL', hR', fun v h1 h2 h3 => ?_⟩
  have hfv : v ∈ (s.backtrack n).free := (free_mem _ v).2 ⟨by rw [hk.vars]; exact h1,
    by rw [hk.removed]; exact h2, h3⟩
  obtain ⟨w, d'', e⟩ := Picks.exist hL' hR' ⟨v, hfv⟩
  obtain ⟨_, _, hfw⟩ := Picks.ok hL' hR' ⟨v, hfv⟩ (.inl e)
  obtain ⟨w1, w2, w3⟩ := (free_mem _ w).1 hfw
  rw [hk.vars] at w1
  rw [hk.removed] at w2
  refine ⟨⟨w, d'', e, w1, w2, w3⟩, fun hall => ?_⟩
  by_cases hw : w = v
  · subst hw; exact ⟨d'', e⟩
  · exact absurd w3 (hall w w1 w2 hw)

/-- The hypotheses are met after two decisions. -/
example : ∃ (t : Search) (d : Decide.State Nat), Seen t.s ∧ t.s.level = 2 ∧ t.s.trail = [0, 2, 4] ∧
    Decide.Reaches 0 false d ∧ Linked t.s d := by
  obtain ⟨t, h, e⟩ : ∃ t, Reachable t ∧ (t.s.level == 2 && (t.s.trail == [0, 2, 4] &&
      t.s.vars == 5)) = true :=
    exReach_sound (es := [-1, 2, 0, 3, 4, 5, 0])
      (os := List.replicate 2 (exDecide [0, 1, 2, 3, 4] true)) (by decide)
  simp only [Bool.and_eq_true, beq_iff_eq] at e
  obtain ⟨e1, e2, e3⟩ := e
  obtain ⟨d, h1, h2⟩ := C37_C41_linked 0 (.loop h) (by rw [e3]; decide)
  exact ⟨t, d, .loop h, e1, e2, h1, h2⟩

/-- C37, C41 (partial: as before): iterations of the search loop keep queue and heap in
agreement with the solver. -/
theorem C37_C41_agree_partial {zero : α} {t t' : Search} {d d' : Decide.State α} (h : Reachable t)
    (hR : Decide.Reaches zero false d) (hL : Linked t.s d) (hs : JointRun zero t d t' d') :
    Linked t'.s d' ∧ Decide.Reaches zero false d' := by
  obtain ⟨_, _, _, hb⟩ := h.between
  exact (hs.ok hb hL hR).2

/-- C41 (partial: as before): the search loop never fails because of queue and heap.  After any
number of iterations with these, whatever the other heuristics answer next (`o`), there is an
order of decisions (also for the warm-up) made by queue and heap with which the next
iteration is performed, or the search ends.  The only failure is the one of C58. -/
theorem C41_search_goes_on_partial {zero : α} {t t' : Search} {d d' : Decide.State α}
    (h : Reachable t) (hR : Decide.Reaches zero false d) (hL : Linked t.s d)
    (hs : JointRun zero t d t' d') (o : Oracle) :
    ∃ order warming, warming.map (·.map (·.2)) = o.warming.map (·.map (·.2)) ∧
      ((∃ t'' d'', JointStep zero { o with order := order, warming := warming } t' d' t'' d'') ∨
       (∃ t'' res, iteration { o with order := order, warming := warming } t' = .done t'' res) ∨
       (iteration { o with order := order, warming := warming } t' = .stuck ∧
          t'.s.loose = true ∧ o.localSearch = true)) := by
  obtain ⟨_, _, _, hb⟩ := h.between
  obtain ⟨hb', hL', hR'⟩ := hs.ok hb hL hR
  obtain ⟨order, warming, hw, hp⟩ := joint_progress hb' hL' hR' o
  exact ⟨order, warming, hw, hp.imp id (.imp (fun ⟨a, b, c, _⟩ => ⟨a, b, c⟩) id)⟩

/-- C41 (partial: as before): a decision in the search loop.  After propagation without conflict
with some variable unassigned, queue or heap find a variable in use without value.  In stable
mode it has the largest score among these.  In focused mode all variables after it in the
queue, which were bumped later, have a value or are not in use.  The iteration makes it
true or false on a new decision level. -/
theorem C41_decision_partial {zero : α} {t : Search} (h : Reachable t) {s : Solver}
    (hs : s = (searchPropagate t.s).1) (hc : (searchPropagate t.s).2 = none)
    (hu : s.unassigned ≠ 0) {d : Decide.State α}
    (hR : Decide.Reaches zero false d) (hL : Linked s d) :
    ∃ v d', d.next = some (v, d') ∧ v < s.vars ∧ s.removed v = false ∧ s.values (2 * v) = 0 ∧
      (d.stable = true → ∀ w, w < s.vars → s.removed w = false → s.values (2 * w) = 0 →
        d.heap.getScore zero w ≤ d.heap.getScore zero v) ∧
      (d.stable = false → ∃ a b, d.queue.forward = a ++ v :: b ∧ ∀ w ∈ b, s.values (2 * w) ≠ 0) ∧
      ∀ rest phase, ∃ s', s.decide (v :: rest) phase = some s' ∧ s'.level = s.level + 1 ∧
        s'.values (if phase then 2 * v else 2 * v + 1) = 1 ∧ Linked s' (d'.assign v) ∧
        Decide.Reaches zero false (d'.assign v) := by
  obtain ⟨_, _, _, hb⟩ := h.between
  obtain ⟨_, hok, _, hp⟩ := searchPropagate_ok hb.prop
  rw [hc] at hp
  rw [← hs] at hok hp
  have ht := hok.inv.trail
  have hex := ht.exists_free hu
  obtain ⟨x, hx⟩ := hex
  obtain ⟨l, hi⟩ := Decide.reaches_inv hR
  obtain ⟨v, d', e, _, h1, h2, _, _, h3, h4⟩ := Decide.next_spec hi ⟨x, hL.free.2 hx⟩
  obtain ⟨hL', hR', hfr⟩ := Picks.ok hL hR ⟨x, hx⟩ (.inl e)
  obtain ⟨v1, v2, v3⟩ := (free_mem s v).1 hfr
  refine ⟨v, d', e, v1, v2, v3, fun hst w w1 w2 w3 => ?_, fun hf => ?_, fun rest phase => ?_⟩
  · obtain ⟨a, b⟩ := hL.free.2 ((free_mem s w).2 ⟨w1, w2, w3⟩)
    exact h3 hst w a b
  · obtain ⟨a, b, e1, e2⟩ := h4 hf
    exact ⟨a, b, by rw [hi.queue.holds.forward]; exact e1, fun w hw => (hL.assigned w).1 (e2 w hw)⟩
  · obtain ⟨a1, a2, a3⟩ := assume_phase ht hfr phase
    have hn : nextDecisionVariable s (v :: rest) = some v := by
      unfold nextDecisionVariable
      rw [List.find?_cons_of_pos]
      simp [v3]
    have e1 : s.decide (v :: rest) phase =
        some (({ s with decisions := s.decisions + 1 } : Solver).assume
          (if phase then 2 * v else neg (2 * v))) := by
      unfold Solver.decide; rw [hn]
    have hlit : (if phase then 2 * v else neg (2 * v)) = if phase then 2 * v else 2 * v + 1 := by
      split
      · rfl
      · unfold neg; rw [if_pos (by omega)]
    refine ⟨_, e1, by rw [assume_eq], ?_, ?_⟩
    · rw [assume_values, ← hlit, if_neg (fun e => neg_ne _ e.symm), if_pos rfl]
    · exact Linked.decision (s := { s with decisions := s.decisions + 1 })
        (hL'.congr rfl rfl rfl rfl) hR' hfr a1

/-- C60, negation of the full statement, for the search loop: if bounded variable addition
made five new variables in one run then the search can come to a point where a
decision is due, four variables have no value, and the search for a decision variable runs
off the start of the queue.  No bumping takes place in this run (option `--bump=0`).  The clauses
used are not ones bounded variable addition is known to produce. -/
theorem C60_search_out_of_bounds : ∃ (t t' : Search) (d d' d'' : Decide.State Nat),
    Reachable t ∧ Decide.Reaches 0 true d ∧ Linked t.s d ∧ JointRun 0 t d t' d' ∧
    Follows 0 false t'.s (searchPropagate t'.s).1 d' d'' ∧ (searchPropagate t'.s).2 = none ∧
    (searchPropagate t'.s).1.iterating = false ∧ (searchPropagate t'.s).1.unassigned = 4 ∧
    d''.stable = false ∧ d''.next = none := by
  have h : (exReach exFresh []).map exFreshCheck = some true := by decide +kernel
  cases hr : exReach exFresh [] with
  | none => rw [hr] at h; cases h
  | some t =>
    rw [hr] at h
    have h : exFreshCheck t = true := by simpa using h
    have hreach := exReach_reachable hr
    unfold exFreshCheck at h
    rw [Bool.and_eq_true, Bool.and_eq_true] at h
    obtain ⟨⟨h1, h2⟩, h3⟩ := h
    split at h3
    · cases h3
    · rename_i t' d' hj
      unfold exLost at h3
      split at h3
      · cases h3
      · rename_i d'' hf
        simp only [Bool.and_eq_true, Bool.not_eq_true', beq_iff_eq, Option.isNone_iff_eq_none] at h3
        obtain ⟨⟨⟨⟨a, b⟩, c⟩, e⟩, f⟩ := h3
        exact ⟨t, t', exQueue 8, d', d'', hreach, exQueue_reaches,
          .start hreach exQueue_assigned exQueue_active h1
            (by simpa using h2), exJoints_sound hj, followOps_follows _ hf, a, b, c, e, f⟩

/-- A run with queue and heap: without new variables the search of C60 goes well.  After two decisions
a conflict is found, and then another decision is made. -/
example : ∃ (t t' : Search) (d d' : Decide.State Nat), Reachable t ∧ Decide.Reaches 0 false d ∧
    Linked t.s d ∧ JointRun 0 t d t' d' ∧ t'.s.level = 2 ∧ t'.s.trail = [8, 7, 0] := by
  have h : (exReach exFresh []).map exPlainCheck = some true := by decide +kernel
  cases hr : exReach exFresh [] with
  | none => rw [hr] at h; cases h
  | some t =>
    rw [hr] at h
    have h : exPlainCheck t = true := by simpa using h
    have hreach := exReach_reachable hr
    unfold exPlainCheck at h
    rw [Bool.and_eq_true, Bool.and_eq_true] at h
    obtain ⟨⟨h1, h2⟩, h3⟩ := h
    split at h3
    · cases h3
    · rename_i t' d' hj
      rw [Bool.and_eq_true, beq_iff_eq, beq_iff_eq] at h3
      exact ⟨t, t', exPlain 7, d', hreach, exPlain_reaches,
        .start hreach rfl exPlain_active h1 (by simpa using h2), exJoints_sound hj, h3.1, h3.2⟩

end Verif.Props
