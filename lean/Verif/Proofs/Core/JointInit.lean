import Verif.Proofs.Core.Joint

/-!
# Every solver state has a linked state of queue and heap
-/

namespace Verif.Core

open Verif.Spec
open Verif.Model

variable {α : Type} [LinearOrder α]

theorem activate_vars {zero : α} {d d' : Decide.State α} {l : List Nat} (h : Decide.DInv zero d l)
    {v : Nat} (hv : v < d.queue.vars) (ha : d.assigned v = false) {x : α}
    (e : d.activate zero v x = some d') : d'.queue.vars = d.queue.vars := by
  unfold Decide.State.activate at e
  by_cases hact : d.active v = true
  · rw [if_pos hact] at e
    obtain rfl := Option.some.inj e
    rfl
  · rw [if_neg hact] at e
    have hvl : v ∉ l := fun hm => hact ((h.mem v).1 hm)
    have hq := (Queue.enqueue_spec h.queue hvl hv ha).2.2
    simp only at e
    split at e
    · cases e
    · split at e
      · obtain ⟨_, _, rfl⟩ := Option.map_eq_some_iff.1 e
        exact hq
      · obtain rfl := Option.some.inj e
        exact hq

theorem activate_all {zero : α} (x : α) : ∀ (l : List Nat) {d : Decide.State α},
    Decide.Reaches zero false d → (∀ v ∈ l, v < d.queue.vars ∧ d.assigned v = false) →
    ∃ d', Decide.Reaches zero false d' ∧ (∀ v, d'.active v = true ↔ d.active v = true ∨ v ∈ l) ∧
      d'.assigned = d.assigned ∧ d'.queue.vars = d.queue.vars
  | [], d, hr, _ => ⟨d, hr, by simp, rfl, rfl⟩
  | u :: l, d, hr, h => by
    obtain ⟨m, hi⟩ := Decide.reaches_inv hr
    obtain ⟨h1, h2⟩ := h u (by simp)
    obtain ⟨d1, _, e, _, a1, a2, _⟩ := Decide.activate_spec hi h1 h2 x
    have hv := activate_vars hi h1 h2 e
    obtain ⟨d', g1, g2, g3, g4⟩ := activate_all x l (hr.step (op := .activate u x) ⟨h1, h2⟩ e)
      (fun v hm => by rw [hv, a2]; exact h v (by simp [hm]))
    refine ⟨d', g1, fun v => ?_, g3.trans a2, g4.trans hv⟩
    rw [g2, a1]
    simp [or_assoc]

theorem assign_all {zero : α} : ∀ (l : List Nat) {d : Decide.State α},
    Decide.Reaches zero false d → (∀ v ∈ l, v < d.queue.vars) →
    ∃ d', Decide.Reaches zero false d' ∧ (∀ v, d'.assigned v = true ↔ d.assigned v = true ∨ v ∈ l) ∧
      d'.active = d.active
  | [], d, hr, _ => ⟨d, hr, by simp, rfl⟩
  | u :: l, d, hr, h => by
    obtain ⟨d', g1, g2, g3⟩ := assign_all l (hr.step (op := .assign u) (h u (by simp)) rfl)
      (fun v hm => h v (by simp [hm]))
    refine ⟨d', g1, fun v => ?_, g3⟩
    rw [g2]
    show upd d.assigned u true v = true ∨ _ ↔ _
    by_cases hv : v = u
    · subst hv; rw [Heap.upd_same]; simp
    · rw [Heap.upd_ne hv]; simp [hv]

theorem linked_exists (zero : α) {s : Solver} (ht : TrailInv s) (hv : s.vars ≤ 2 ^ 30 - 1) :
    ∃ d : Decide.State α, Decide.Reaches zero false d ∧ Linked s d := by
  have r0 := Decide.Reaches.init (zero := zero) (many := false) (fun _ => none) (fun _ => none)
    (fun _ => 0) (fun _ => zero) (fun _ => none) (fun _ => 0)
  obtain ⟨d1, r1, hv1, ha1, hc1⟩ : ∃ d1 : Decide.State α, Decide.Reaches zero false d1 ∧
      d1.queue.vars = s.vars ∧ (d1.assigned = fun _ => false) ∧ (d1.active = fun _ => false) := by
    refine ⟨_, r0.step (op := .enlarge s.vars (fun _ => zero) (fun _ => none)) hv rfl, ?_, ?_, ?_⟩ <;>
    simp [Decide.State.enlarge, Decide.State.init, Queue.Queue.init]
  obtain ⟨d2, r2, a2, b2, c2⟩ := activate_all zero
    ((List.range s.vars).filter fun v => !s.removed v && !s.rootValued v) r1 (fun v hm => by
      obtain ⟨h1, _⟩ := List.mem_filter.1 hm
      rw [hv1, ha1]
      exact ⟨List.mem_range.1 h1, rfl⟩)
  have hq : d2.queue.vars = s.vars := c2.trans hv1
  obtain ⟨d3, r3, a3, b3⟩ := assign_all ((List.range s.vars).filter fun v => s.values (2 * v) != 0)
    r2 (fun v hm => by rw [hq]; exact List.mem_range.1 (List.mem_filter.1 hm).1)
  refine ⟨d3, r3, ⟨fun v => ?_, fun v => ?_⟩⟩
  · rw [a3, b2, List.mem_filter, List.mem_range, ha1]
    simp only [Bool.false_eq_true, false_or, bne_iff_ne]
    exact ⟨fun h => h.2, fun h => ⟨(ht.valid_var h).1, h⟩⟩
  · rw [b3, a2, List.mem_filter, List.mem_range, hc1]
    unfold Solver.inUse
    simp

end Verif.Core
