import Verif.Proofs.Restart
import Verif.Spec.Restart
import Verif.Props.Reorder

/-!
# Restarts (C72)

`Model/Restart.lean` against `Spec/Restart.lean`.  The solver restarts after propagation without conflict, if there are
variables without value.  `random` is the variable of a random decision sequence, if there is one going on.
-/

namespace Verif.Props

open Verif.Core Verif.Spec
open Verif.Model
open Verif.Model.Restart (reuseTrail restart Pace Event)
open Verif.Spec.Restart (Prefers)

variable {α : Type} [LinearOrder α]

theorem decision_inUse {s : Solver} (ht : TrailInv s) {j : Nat} {f : Frame} (hf : s.frames[j]? = some f) :
    s.inUse (f.decision / 2) := by
  obtain ⟨h1, h2⟩ := ht.decision j f hf
  have hv := ht.tval f.decision (List.mem_of_getElem? h1)
  obtain ⟨h3, h4⟩ := ht.valid f.decision (by omega)
  refine ⟨h3, h4, ?_⟩
  have : s.lev (2 * (f.decision / 2)) = j + 1 := by
    rw [← h2]; unfold Solver.lev; rw [show 2 * (f.decision / 2) / 2 = f.decision / 2 by omega]
  unfold Solver.rootValued
  rw [this]
  simp

theorem prefers_stamp {l : List Nat} {f : Nat → Nat} (h : l.Pairwise fun a b => f a < f b) {a b : Nat}
    (ha : a ∈ l) (hb : b ∈ l) : [a, b].Sublist l ↔ f a < f b :=
  ⟨fun hs => (List.pairwise_cons.1 (h.sublist hs)).1 b List.mem_cons_self, before_of_stamp h ha hb⟩

/-- C72 (partial: at most one new variable per run of bounded variable addition, see C60).  Determining the level to
restart to succeeds.  Let `v` be the next decision variable.  The decisions of all levels which are kept are preferred
to `v`, and the one of the first level which is not kept (if any) is not.  Order, scores and the agreement of solver
and queue or heap are kept. -/
theorem C72_level_partial {zero : α} {t : Search} (h : Reachable t) {s : Solver}
    (hs : s = (searchPropagate t.s).1) (hc : (searchPropagate t.s).2 = none) (hu : s.unassigned ≠ 0)
    {d : Decide.State α} (hR : Decide.Reaches zero false d) (hL : Linked s d) {random : Option Nat}
    (hr : ∀ v, random = some v → v < s.vars ∧ s.removed v = false ∧ s.values (2 * v) = 0) :
    ∃ r v d', reuseTrail zero true random s d = some (r, d') ∧ r ≤ s.level ∧
      v < s.vars ∧ s.removed v = false ∧ s.values (2 * v) = 0 ∧
      (random = some v ∨ random = none ∧ d.next = some (v, d')) ∧
      (∀ (j : Nat) (f : Frame), j < r → s.frames[j]? = some f → Prefers zero d (f.decision / 2) v) ∧
      (r < s.level → ∃ f, s.frames[r]? = some f ∧ ¬ Prefers zero d (f.decision / 2) v) ∧
      Linked s d' ∧ Picks d v d' := by
  obtain ⟨l, hi⟩ := Decide.reaches_inv hR
  have ht : TrailInv s := by rw [hs]; exact (inv_after h).trail
  have hfree : ∀ v, v < s.vars → s.removed v = false → s.values (2 * v) = 0 →
      d.active v = true ∧ d.assigned v = false := fun v v1 v2 v3 => hL.free.2 ((free_mem s v).2 ⟨v1, v2, v3⟩)
  obtain ⟨v, d', e, v1, v2, v3, hor, hsc, hst, hsb, hL', hp⟩ :
      ∃ v d', Restart.nextVariable random d = some (v, d') ∧ v < s.vars ∧ s.removed v = false ∧
        s.values (2 * v) = 0 ∧ (random = some v ∨ random = none ∧ d.next = some (v, d')) ∧
        (∀ w, d'.heap.getScore zero w = d.heap.getScore zero w) ∧ d'.queue.stampOf = d.queue.stampOf ∧
        d'.stable = d.stable ∧ Linked s d' ∧ Picks d v d' := by
    cases random with
    | some v =>
      obtain ⟨v1, v2, v3⟩ := hr v rfl
      obtain ⟨a1, a2⟩ := hfree v v1 v2 v3
      exact ⟨v, d, rfl, v1, v2, v3, .inl rfl, fun _ => rfl, rfl, rfl, hL, .inr ⟨a1, a2, rfl⟩⟩
    | none =>
      obtain ⟨v, d', e, v1, v2, v3, _⟩ := C41_decision_partial h hs hc hu hR hL
      have hex : ∃ v, d.active v = true ∧ d.assigned v = false := ⟨v, hfree v v1 v2 v3⟩
      obtain ⟨h1, h2, h3⟩ := Proofs.Restart.next_same hi hex e
      obtain ⟨_, _, e', _, _, _, a1, a2, _⟩ := Decide.next_spec hi hex
      rw [e] at e'; cases e'
      exact ⟨v, d', e, v1, v2, v3, .inr ⟨rfl, e⟩, h1, h2, h3,
        ⟨by rw [a2]; exact hL.assigned, by rw [a1]; exact hL.active⟩, .inl e⟩
  have hfl : 0 + s.level ≤ s.frames.length := by rw [ht.frames]; omega
  have hmem : ∀ w, s.inUse w → w ∈ l := fun w hw => (hi.mem w).2 ((hL.active w).2 hw)
  have hvl : v ∈ l := (hi.mem v).2 (hfree v v1 v2 v3).1
  obtain ⟨stop, hstop, hrun⟩ : ∃ stop : Nat → Bool,
      (∀ (j : Nat) (f : Frame), s.frames[j]? = some f → (stop (f.decision / 2) = false ↔ Prefers zero d (f.decision / 2) v)) ∧
      reuseTrail zero true random s d = (Restart.reuseLoop s.frames stop s.level 0).map (·, d') := by
    cases hm : d.stable with
    | true =>
      refine ⟨fun idx => decide (d'.heap.getScore zero idx ≤ d'.heap.getScore zero v), fun j f _ => ?_, ?_⟩
      · unfold Prefers
        rw [if_pos hm]
        simp only [hsc]
        simp
      · unfold reuseTrail Restart.reuseStable
        rw [if_neg (by decide), if_pos hm, e]
        rfl
    | false =>
      refine ⟨fun idx => decide (d'.queue.stampOf idx ≤ d'.queue.stampOf v), fun j f hf => ?_, ?_⟩
      · unfold Prefers
        rw [if_neg (by rw [hm]; decide), hst, hi.queue.holds.forward,
          prefers_stamp hi.queue.stamps.incr hvl (hmem _ (decision_inUse ht hf))]
        simp
      · unfold reuseTrail Restart.reuseFocused
        rw [if_neg (by decide), if_neg (by rw [hm]; decide), e]
        rfl
  obtain ⟨r, er, h1, h2, h3⟩ := Proofs.Restart.reuseLoop_spec (stop := stop) s.level (res := 0) hfl
    (fun j f hj => absurd hj (Nat.not_lt_zero _))
  rw [er] at hrun
  refine ⟨r, v, d', hrun, by omega, v1, v2, v3, hor, fun j f hj hf => (hstop j f hf).1 (h2 j f hj hf), fun hlt => ?_,
    hL', hp⟩
  have hlt' : r < s.frames.length := by rw [ht.frames]; exact hlt
  refine ⟨s.frames[r], List.getElem?_eq_getElem hlt', fun hpf => ?_⟩
  have h4 := h3 (by omega) s.frames[r] (List.getElem?_eq_getElem hlt')
  rw [(hstop r _ (List.getElem?_eq_getElem hlt')).2 hpf] at h4
  cases h4

/-- C72 (partial: as before).  Without random decisions every decision which is kept is preferred to all variables
without value. -/
theorem C72_kept_partial {zero : α} {t : Search} (h : Reachable t) {s : Solver}
    (hs : s = (searchPropagate t.s).1) (hc : (searchPropagate t.s).2 = none) (hu : s.unassigned ≠ 0)
    {d d' : Decide.State α} (hR : Decide.Reaches zero false d) (hL : Linked s d) {r : Nat}
    (hr : reuseTrail zero true none s d = some (r, d')) {j : Nat} (hj : j < r) {f : Frame}
    (hf : s.frames[j]? = some f) {w : Nat} (w1 : w < s.vars) (w2 : s.removed w = false)
    (w3 : s.values (2 * w) = 0) : Prefers zero d (f.decision / 2) w := by
  obtain ⟨r', v, d'', e, -, v1, v2, v3, hor, hp, -⟩ :=
    C72_level_partial h hs hc hu hR hL (random := none) (fun v hv => by cases hv)
  rw [e] at hr; cases hr
  have hv := hp j f hj hf
  obtain ⟨x, dx, ex, x1, x2, x3, x4, x5, _⟩ := C41_decision_partial h hs hc hu hR hL
  rcases hor with hor | ⟨-, hor⟩
  · cases hor
  rw [ex] at hor; cases hor
  unfold Prefers at hv ⊢
  cases hm : d.stable with
  | true =>
    rw [hm, if_pos rfl] at hv
    rw [if_pos rfl]
    exact lt_of_le_of_lt (x4 hm w w1 w2 w3) hv
  | false =>
    rw [hm, if_neg (by decide)] at hv
    rw [if_neg (by decide)]
    obtain ⟨l, hi⟩ := Decide.reaches_inv hR
    have ht : TrailInv s := by rw [hs]; exact (inv_after h).trail
    obtain ⟨a, b, hab, hb⟩ := x5 hm
    have hinc := hi.queue.stamps.incr
    have hfw := hi.queue.holds.forward
    rw [← hfw] at hinc
    have hfm : ∀ y, d.active y = true → y ∈ d.queue.forward := fun y hy => by rw [hfw]; exact (hi.mem y).2 hy
    have hwm := hfm w (hL.free.2 ((free_mem s w).2 ⟨w1, w2, w3⟩)).1
    have hvm := hfm v (hL.free.2 ((free_mem s v).2 ⟨v1, v2, v3⟩)).1
    have hdm := hfm _ ((hL.active _).2 (decision_inUse ht hf))
    have h1 := (prefers_stamp hinc hvm hdm).1 hv
    refine (prefers_stamp hinc hwm hdm).2 (Nat.lt_of_le_of_lt ?_ h1)
    rw [hab] at hwm hinc
    rcases List.mem_append.1 hwm with hw | hw
    · exact Nat.le_of_lt ((List.pairwise_append.1 hinc).2.2 w hw v List.mem_cons_self)
    · rcases List.mem_cons.1 hw with rfl | hw
      · exact Nat.le_refl _
      · exact absurd w3 (hb w hw)

/-- C72 (partial: as before).  A restart keeps exactly the assignments of the levels up to the one determined, which is
the root level if the trail is not to be reused. -/
theorem C72_restart_partial {zero : α} {t : Search} (h : Reachable t) {s : Solver}
    (hs : s = (searchPropagate t.s).1) (hc : (searchPropagate t.s).2 = none) (hu : s.unassigned ≠ 0)
    {d : Decide.State α} (hR : Decide.Reaches zero false d) (hL : Linked s d) {random : Option Nat}
    (hr : ∀ v, random = some v → v < s.vars ∧ s.removed v = false ∧ s.values (2 * v) = 0) (reuse : Bool) :
    ∃ r s' d', reuseTrail zero reuse random s d = some (r, d') ∧ restart zero reuse random s d = some (s', d') ∧
      (reuse = false → r = 0) ∧ s'.level = r ∧ s'.frames = s.frames.take r ∧
      (∀ l, s'.values l = if s.lev l ≤ r then s.values l else 0) ∧
      s'.trail = s.trail.filter (fun l => s.lev l ≤ r) ∧ s'.arena = s.arena := by
  have ht : TrailInv s := by rw [hs]; exact (inv_after h).trail
  have hsn : Seen s := by rw [hs]; exact .propagated h
  obtain ⟨r, d', e, hle, h0⟩ : ∃ r d', reuseTrail zero reuse random s d = some (r, d') ∧ r ≤ s.level ∧
      (reuse = false → r = 0) := by
    cases reuse with
    | false => exact ⟨0, d, rfl, Nat.zero_le _, fun _ => rfl⟩
    | true =>
      obtain ⟨r, _, d', e, hle, _⟩ := C72_level_partial h hs hc hu hR hL hr
      exact ⟨r, d', e, hle, fun h => by cases h⟩
  refine ⟨r, s.backtrack r, d', e, by unfold restart; rw [e]; rfl, h0, ?_⟩
  rcases Nat.lt_or_ge r s.level with hlt | hge
  · obtain ⟨b1, b2, -, -, b3, b4, -, -, b5, -⟩ := C37_backtrack_partial hsn hlt
    refine ⟨b4, b3, fun l => ?_, b2, b5⟩
    rw [b1]
    by_cases hl : r < s.lev l
    · rw [if_pos hl, if_neg (by omega)]
    · rw [if_neg hl, if_pos (by omega)]
  · have hb : s.backtrack r = s := by unfold Solver.backtrack; rw [if_pos hge]
    have hrl : r = s.level := Nat.le_antisymm hle hge
    have hlev : ∀ l, s.values l ≠ 0 → s.lev l ≤ r := fun l hl => by
      rw [hrl]
      rcases ht.dom l with h1 | h1 | h1
      · exact ht.levle l h1
      · exact absurd h1 hl
      · have h2 := ht.levle (neg l) (by rw [ht.anti, h1]; rfl)
        have h3 : s.lev (neg l) = s.lev l := by
          unfold Solver.lev; rw [Spec.neg_div]
        rwa [h3] at h2
    rw [hb]
    refine ⟨hrl.symm, ?_, fun l => ?_, ?_, rfl⟩
    · rw [List.take_of_length_le (by rw [ht.frames]; exact hge)]
    · by_cases hl : s.lev l ≤ r
      · rw [if_pos hl]
      · rw [if_neg hl]
        by_contra hne
        exact hl (hlev l hne)
    · symm
      rw [List.filter_eq_self]
      intro l hl
      have := ht.tval l hl
      simpa using hlev l (by omega)

/-- C72: after a restart in focused mode there is no other one (also in stable mode) during the next `restartint`
conflicts, whatever happens in between. -/
theorem C72_pause {logn : Nat → Nat} (hl : ∀ n, n ≠ 0 → 1 ≤ logn n) (p : Pace) (es : List Event)
    {a b : List (Nat × Bool)} {n : Nat} (h : p.run logn es = a ++ (n, true) :: b) : ∀ x ∈ b, n + p.interval ≤ x.1 :=
  Proofs.Restart.run_pause hl es p h

/-- C72: there are no restarts on the root level and none if they are disabled. -/
theorem C72_none (p : Pace) (level : Nat) (due : Bool) (h : p.restarting level due = true) :
    p.enabled = true ∧ level ≠ 0 ∧ due = true := by
  unfold Pace.restarting at h
  split at h
  · cases h
  · split at h
    · cases h
    · split at h
      · cases h
      · exact ⟨by simpa using ‹¬ p.enabled = false›, ‹_›, h⟩

/-- Two restarts in focused mode with interval two: tests after one conflict fail. -/
example : (Pace.mk true 2 0 0 0 false).run (fun _ => 1)
    [.test 1 true, .conflict, .test 1 true, .conflict, .test 0 true, .test 3 true, .conflict] =
      [(0, true), (2, true)] := by decide

/-- The hypotheses are met on level two. -/
example : ∃ (t : Search) (d : Decide.State Nat), Reachable t ∧ (searchPropagate t.s).2 = none ∧
    (searchPropagate t.s).1.unassigned ≠ 0 ∧ (searchPropagate t.s).1.level = 2 ∧
    Decide.Reaches 0 false d ∧ Linked (searchPropagate t.s).1 d := by
  obtain ⟨t, h, e⟩ : ∃ t, Reachable t ∧ ((searchPropagate t.s).2.isNone && ((searchPropagate t.s).1.unassigned == 2 &&
      ((searchPropagate t.s).1.level == 2 && (searchPropagate t.s).1.vars == 5))) = true :=
    exReach_sound (es := [-1, 2, 0, 3, 4, 5, 0])
      (os := List.replicate 2 (exDecide [0, 1, 2, 3, 4] true)) (by decide +kernel)
  simp only [Bool.and_eq_true, beq_iff_eq, Option.isNone_iff_eq_none] at e
  obtain ⟨e1, e2, e3, e4⟩ := e
  obtain ⟨d, h1, h2⟩ := C37_C41_linked 0 (.propagated h) (by rw [e4]; decide)
  exact ⟨t, d, h, e1, by omega, e3, h1, h2⟩

/-- Queue and heap for this state: variable 0 was decided first, but 2 is now behind the next decision variable 4. -/
def exReuse : Option (Decide.State Nat) :=
  runOps [.enlarge 5 (fun _ => 0) (fun _ => none), .activate 2 0, .activate 3 0, .activate 4 0, .activate 1 0,
    .activate 0 0, .assign 0, .assign 1, .assign 2]
    (.init (fun _ => none) (fun _ => none) (fun _ => 0) (fun _ => 0) (fun _ => none) (fun _ => 0))

/-- The first of two levels is kept. -/
example : ∃ t, Reachable t ∧ ((searchPropagate t.s).1.level == 2 &&
    ((exReuse.bind fun d => (restart 0 true none (searchPropagate t.s).1 d).map fun x => (x.1.level, x.1.trail)) ==
      some (1, [0, 2]))) = true :=
  exReach_sound (es := [-1, 2, 0, 3, 4, 5, 0])
    (os := List.replicate 2 (exDecide [0, 1, 2, 3, 4] true)) (by decide +kernel)

end Verif.Props
