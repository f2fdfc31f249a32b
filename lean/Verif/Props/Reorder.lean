import Verif.Proofs.Reorder
import Verif.Props.Search
import Verif.Props.Joint

/-!
# Reordering decision variables (C70)

`Model/Reorder.lean` against `Spec/Reorder.lean`.  Reordering takes place on the root level after propagation without
conflict.  `o` are the operations on floating point numbers, about which nothing is assumed; their order is linear
(there is no NaN).  `m` is the option `reordermaxsize`, which is at least two.
-/

namespace Verif.Props

open Verif.Core Verif.Spec
open Verif.Model
open Verif.Model.Reorder (computeWeights reorder)
open Verif.Spec.Reorder (Ops weight)

variable {α : Type} [LinearOrder α]

theorem countP_two {β : Type} {p : β → Bool} {l : List β} {a b : β} (ha : a ∈ l) (hb : b ∈ l) (hab : a ≠ b)
    (pa : p a = true) (pb : p b = true) : 2 ≤ l.countP p := by
  obtain ⟨x, y, rfl⟩ := List.append_of_mem ha
  have : b ∈ x ++ y := by
    rcases List.mem_append.1 hb with h | h
    · exact List.mem_append_left _ h
    · rcases List.mem_cons.1 h with h | h
      · exact absurd h.symm hab
      · exact List.mem_append_right _ h
  have h1 : 0 < (x ++ y).countP p := List.countP_pos_iff.2 ⟨b, this, pb⟩
  rw [List.countP_append] at h1
  rw [List.countP_append, List.countP_cons, if_pos pa]
  omega

theorem reorder_fit {t : Search} (h : Reachable t) (h0 : t.s.level = 0) (hc : (searchPropagate t.s).2 = none) :
    (∀ c ∈ (searchPropagate t.s).1.arena, c.garbage = false → Proofs.Reorder.Fit (searchPropagate t.s).1 c) ∧
    ∀ a b, Watch.binary b ∈ (searchPropagate t.s).1.watches a → b < 2 * (searchPropagate t.s).1.vars := by
  have hi := (inv_after h).clause
  have hcomp := @C36_complete_partial t h (.inr h0) hc
  generalize (searchPropagate t.s).1 = s at *
  refine ⟨fun c hcm hg => ?_, fun a b hab => ?_⟩
  · obtain ⟨r, hr, rfl⟩ := List.getElem_of_mem hcm
    have he : s.clause r = s.arena[r] := by
      unfold Solver.clause
      rw [List.getD_eq_getElem?_getD, List.getElem?_eq_getElem hr]; rfl
    have hl : s.Live r := by unfold Solver.Live; rw [he]; exact hg
    rw [← he]
    refine ⟨?_, hi.nodup r hl, fun l hm => ?_⟩
    · rcases hcomp (formula_large hl) with ⟨l, hm, hv⟩ | ⟨l, hm, k, hk, hlk, v1, v2⟩
      · exact .inl ⟨l, hm, by omega⟩
      · exact .inr (countP_two hm hk hlk (by simp [v1]) (by simp [v2]))
    · have := (hi.valid r hl l hm).1
      omega
  · have := (hi.bin a b hab).2.2.2.2.1
    omega

/-- C70: weights can be computed: nothing outside of an array and nothing which was not written is read.  The result
for an active variable is the one of the specification. -/
theorem C70_weights (o : Ops α) {t : Search} (h : Reachable t) (h0 : t.s.level = 0)
    (hc : (searchPropagate t.s).2 = none) {s : Solver} (hs : s = (searchPropagate t.s).1) {m : Nat} (hm : 2 ≤ m)
    {d : Decide.State α} (hL : Linked s d) :
    ∃ ws, computeWeights o m s d.active = some ws ∧
      ∀ v, d.active v = true → ws[v]? = some (weight o s m d.active v) := by
  obtain ⟨h1, h2⟩ := reorder_fit h h0 hc
  rw [← hs] at h1 h2
  obtain ⟨ws, e, _, hw⟩ := Proofs.Reorder.computeWeights_spec (o := o) (active := d.active) hm h1 h2
  exact ⟨ws, e, fun v hv => hw v ((hL.active v).1 hv).1 hv⟩

theorem before_of_stamp {l : List Nat} {f : Nat → Nat} (h : l.Pairwise fun a b => f a < f b) {a b : Nat}
    (ha : a ∈ l) (hb : b ∈ l) (hab : f a < f b) : [a, b].Sublist l := by
  obtain ⟨x, y, rfl⟩ := List.append_of_mem ha
  have hy : b ∈ y := by
    rcases List.mem_append.1 hb with hb | hb
    · have := (List.pairwise_append.1 h).2.2 b hb a List.mem_cons_self
      omega
    · rcases List.mem_cons.1 hb with rfl | hb
      · omega
      · exact hb
  exact ((List.singleton_sublist.2 hy).cons_cons a).trans (List.sublist_append_right _ _)

/-- C70 (partial: at most one new variable per run of bounded variable addition, see C60).  In focused mode reordering succeeds and sorts the decision queue by weight; variables of the same weight keep
their order.  Values, active variables and scores stay, and queue and solver still agree. -/
theorem C70_focused_partial (o : Ops α) (f : α → α) {t : Search} (h : Reachable t) (h0 : t.s.level = 0)
    (hc : (searchPropagate t.s).2 = none) {s : Solver} (hs : s = (searchPropagate t.s).1) {m : Nat} (hm : 2 ≤ m)
    {d : Decide.State α} (hR : Decide.Reaches o.zero false d) (hL : Linked s d) (hf : d.stable = false) :
    ∃ d', reorder o f m s d = some d' ∧ Linked s d' ∧ Decide.Reaches o.zero false d' ∧ d'.stable = false ∧
      d'.queue.forward.Perm d.queue.forward ∧
      d'.queue.forward.Pairwise (fun a b => weight o s m d.active a < weight o s m d.active b ∨
        weight o s m d.active a = weight o s m d.active b ∧ [a, b].Sublist d.queue.forward) ∧
      d'.heap = d.heap := by
  obtain ⟨ws, e, hw⟩ := C70_weights o h h0 hc hs hm hL
  obtain ⟨l, hi⟩ := Decide.reaches_inv hR
  obtain ⟨d', l', e', k, i', hp, ho, a', s', t', p'⟩ :=
    Proofs.Reorder.focused_spec hi hf (fun v => ws.getD v o.zero)
  have hR' := (calls_unassign (us := []) k rfl (fun v hv => absurd hv List.not_mem_nil) hR).1
  have hwv : ∀ v ∈ l', ws.getD v o.zero = weight o s m d.active v := fun v hv => by
    rw [List.getD_eq_getElem?_getD, hw v ((hi.mem v).1 (hp.mem_iff.1 hv))]; rfl
  refine ⟨d', ?_, ⟨by rw [s']; exact hL.assigned, by rw [a']; exact hL.active⟩, hR', t'.trans hf, ?_, ?_, p'⟩
  · unfold reorder
    rw [e]
    simp only [Option.bind_some]
    rw [if_neg (by rw [hf]; simp)]
    exact e'
  · rw [i'.queue.holds.forward, hi.queue.holds.forward]; exact hp
  · rw [i'.queue.holds.forward, hi.queue.holds.forward]
    refine ho.imp_of_mem fun {a b} ha hb hab => ?_
    rw [hwv a ha, hwv b hb] at hab
    exact hab.imp id fun ⟨h1, h2⟩ => ⟨h1, before_of_stamp hi.queue.stamps.incr (hp.mem_iff.1 ha) (hp.mem_iff.1 hb) h2⟩

/-- C70 (partial: as before).  The next decision in focused mode is a variable without value of largest weight. -/
theorem C70_focused_decision_partial (o : Ops α) (f : α → α) {t : Search} (h : Reachable t) (h0 : t.s.level = 0)
    (hc : (searchPropagate t.s).2 = none) {s : Solver} (hs : s = (searchPropagate t.s).1) (hu : s.unassigned ≠ 0)
    {m : Nat} (hm : 2 ≤ m) {d : Decide.State α} (hR : Decide.Reaches o.zero false d) (hL : Linked s d)
    (hf : d.stable = false) :
    ∃ d' v d'', reorder o f m s d = some d' ∧ d'.next = some (v, d'') ∧
      v < s.vars ∧ s.removed v = false ∧ s.values (2 * v) = 0 ∧
      ∀ w, w < s.vars → s.removed w = false → s.values (2 * w) = 0 →
        weight o s m d.active w ≤ weight o s m d.active v := by
  obtain ⟨d', e, hL', hR', hf', hp, ho, _⟩ := C70_focused_partial o f h h0 hc hs hm hR hL hf
  obtain ⟨v, d'', e', h1, h2, h3, _, h4, _⟩ := C41_decision_partial h hs hc hu hR' hL'
  obtain ⟨a, b, hab, hb⟩ := h4 hf'
  obtain ⟨l, hi⟩ := Decide.reaches_inv hR'
  refine ⟨d', v, d'', e, e', h1, h2, h3, fun w w1 w2 w3 => ?_⟩
  have ht : TrailInv s := by rw [hs]; exact (inv_after h).trail
  have hw : w ∈ d'.queue.forward := by
    rw [hi.queue.holds.forward, hi.mem]
    exact (hL'.free.2 ((free_mem s w).2 ⟨w1, w2, w3⟩)).1
  rw [hab] at hw ho
  rcases List.mem_append.1 hw with hw | hw
  · rcases (List.pairwise_append.1 ho).2.2 w hw v List.mem_cons_self with h | h
    · exact le_of_lt h
    · exact le_of_eq h.1
  · rcases List.mem_cons.1 hw with rfl | hw
    · exact le_refl _
    · exact absurd w3 (hb w hw)

/-- C70 (partial: as before).  In stable mode reordering succeeds.  Scores are rescaled by `f`, and the weight is added to the score of each
active variable.  The queue stays, and heap and solver still agree. -/
theorem C70_stable_partial (o : Ops α) {f : α → α} (hmono : ∀ a b, a ≤ b → f a ≤ f b) (hzero : f o.zero = o.zero)
    {t : Search} (h : Reachable t) (h0 : t.s.level = 0)
    (hc : (searchPropagate t.s).2 = none) {s : Solver} (hs : s = (searchPropagate t.s).1) {m : Nat} (hm : 2 ≤ m)
    {d : Decide.State α} (hR : Decide.Reaches o.zero false d) (hL : Linked s d) (hst : d.stable = true) :
    ∃ d', reorder o f m s d = some d' ∧ Linked s d' ∧ Decide.Reaches o.zero false d' ∧ d'.stable = true ∧
      d'.queue = d.queue ∧
      (∀ v, d'.heap.getScore o.zero v = if d.active v = true
        then o.add (f (d.heap.getScore o.zero v)) (weight o s m d.active v)
        else f (d.heap.getScore o.zero v)) ∧
      ∀ v, d'.heap.contains v = d.heap.contains v := by
  obtain ⟨ws, e, hw⟩ := C70_weights o h h0 hc hs hm hL
  obtain ⟨l, hi⟩ := Decide.reaches_inv hR
  obtain ⟨d', e', k, i', a', s', t', q', g', c'⟩ :=
    Proofs.Reorder.stable_spec hi hmono hzero (fun v => ws.getD v o.zero)
  have hR' := (calls_unassign (us := []) k rfl (fun v hv => absurd hv List.not_mem_nil) hR).1
  refine ⟨d', ?_, ⟨by rw [s']; exact hL.assigned, by rw [a']; exact hL.active⟩, hR', t'.trans hst, q',
    fun v => ?_, c'⟩
  · unfold reorder
    rw [e]
    simp only [Option.bind_some]
    rw [if_pos hst]
    exact e'
  · rw [g']
    by_cases hv : d.active v = true
    · rw [if_pos hv, if_pos hv, List.getD_eq_getElem?_getD, hw v hv]; rfl
    · rw [if_neg hv, if_neg hv]

/-- C70 (partial: as before).  The next decision in stable mode is a variable without value for which the rescaled score plus weight is
largest. -/
theorem C70_stable_decision_partial (o : Ops α) {f : α → α} (hmono : ∀ a b, a ≤ b → f a ≤ f b) (hzero : f o.zero = o.zero)
    {t : Search} (h : Reachable t) (h0 : t.s.level = 0)
    (hc : (searchPropagate t.s).2 = none) {s : Solver} (hs : s = (searchPropagate t.s).1) (hu : s.unassigned ≠ 0)
    {m : Nat} (hm : 2 ≤ m) {d : Decide.State α} (hR : Decide.Reaches o.zero false d) (hL : Linked s d)
    (hst : d.stable = true) :
    ∃ d' v d'', reorder o f m s d = some d' ∧ d'.next = some (v, d'') ∧
      v < s.vars ∧ s.removed v = false ∧ s.values (2 * v) = 0 ∧
      ∀ w, w < s.vars → s.removed w = false → s.values (2 * w) = 0 →
        o.add (f (d.heap.getScore o.zero w)) (weight o s m d.active w) ≤
          o.add (f (d.heap.getScore o.zero v)) (weight o s m d.active v) := by
  obtain ⟨d', e, hL', hR', hst', _, hg, _⟩ := C70_stable_partial o hmono hzero h h0 hc hs hm hR hL hst
  obtain ⟨v, d'', e', h1, h2, h3, h4, _⟩ := C41_decision_partial h hs hc hu hR' hL'
  refine ⟨d', v, d'', e, e', h1, h2, h3, fun w w1 w2 w3 => ?_⟩
  have hact : ∀ x, x < s.vars → s.removed x = false → s.values (2 * x) = 0 → d.active x = true :=
    fun x x1 x2 x3 => (hL.free.2 ((free_mem s x).2 ⟨x1, x2, x3⟩)).1
  have := h4 hst' w w1 w2 w3
  rwa [hg, hg, if_pos (hact w w1 w2 w3), if_pos (hact v h1 h2 h3)] at this

/-- Numbers for the examples: integers, where one is represented by eight. -/
def exOps : Ops Nat := ⟨0, 8, (· + ·), (· / 2), (2 * ·)⟩

/-- Weights in a reachable state: variable 1 is in two binary clauses, variables 2 and 3 in one each with different
signs in a clause of size three, variable 4 only in the latter. -/
example : ∃ t, Reachable t ∧ (t.s.level == 0 && (searchPropagate t.s).2.isNone &&
    ((computeWeights exOps 100 (searchPropagate t.s).1 (fun v => v < 4)).map (List.take 4) ==
      some [16, 16, 16, 4])) = true :=
  exReach_sound (es := exF) (os := []) (by decide +kernel)

/-- The hypotheses of all theorems are met, in both modes. -/
example : ∃ (t : Search) (d d' : Decide.State Nat), Reachable t ∧ t.s.level = 0 ∧ (searchPropagate t.s).2 = none ∧
    (searchPropagate t.s).1.unassigned ≠ 0 ∧
    Decide.Reaches exOps.zero false d ∧ Linked (searchPropagate t.s).1 d ∧
    Decide.Reaches exOps.zero false d' ∧ Linked (searchPropagate t.s).1 d' ∧ d'.stable = !d.stable := by
  obtain ⟨t, h, e⟩ : ∃ t, Reachable t ∧ (t.s.level == 0 && ((searchPropagate t.s).2.isNone &&
      ((searchPropagate t.s).1.unassigned == 4 && (searchPropagate t.s).1.vars == 4))) = true :=
    exReach_sound (es := exF) (os := []) (by decide +kernel)
  simp only [Bool.and_eq_true, beq_iff_eq, Option.isNone_iff_eq_none] at e
  obtain ⟨e1, e2, e3, e4⟩ := e
  obtain ⟨d, h1, h2⟩ := C37_C41_linked exOps.zero (.propagated h) (by rw [e4]; decide)
  obtain ⟨l, hi⟩ := Decide.reaches_inv h1
  cases hst : d.stable with
  | false =>
    obtain ⟨d', k, _, a, b⟩ := Decide.toStable_spec hi
    have hs' : d'.stable = true := by
      unfold Decide.State.toStable at k
      obtain ⟨q, -, rfl⟩ := Option.map_eq_some_iff.1 k
      rfl
    exact ⟨t, d, d', h, e1, e2, by omega, h1, h2, h1.step (op := .toStable) hst k,
      ⟨by rw [b]; exact h2.assigned, by rw [a]; exact h2.active⟩, by rw [hs', hst]; rfl⟩
  | true =>
    have hex : ∃ v, d.active v = true := by
      obtain ⟨v, hv⟩ := (inv_after h).trail.exists_free (by omega)
      exact ⟨v, (h2.free.2 hv).1⟩
    obtain ⟨d', k, _, a, b⟩ := Decide.toFocused_spec hi hex
    have hs' : d'.stable = false := by
      unfold Decide.State.toFocused at k
      obtain ⟨q, -, rfl⟩ := Option.map_eq_some_iff.1 k
      rfl
    exact ⟨t, d, d', h, e1, e2, by omega, h1, h2, h1.step (op := .toFocused) ⟨hst, hex⟩ k,
      ⟨by rw [b]; exact h2.assigned, by rw [a]; exact h2.active⟩, by rw [hs', hst]; rfl⟩

end Verif.Props
