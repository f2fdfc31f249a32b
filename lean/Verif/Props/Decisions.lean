import Verif.Proofs.Decide
import Mathlib.Data.Nat.Basic

/-!
# The score heap, the queue and decisions (C26, C27, C41, C60)

C26 is stated with `Spec.PQ`, the specification of priority queues.  `Heap.Reaches zero
ops h`: `h` is the heap after a sequence of calls, each within its precondition, whose
effects according to the specification are `ops`.

C27, C41, C60: `Decide.Reaches zero false s`: `s` is the state of queue, heap, flags and
values after any sequence of calls (activation, deactivation, assignment, unassignment,
bumping, rescaling, mode switches, decisions, bounded variable addition with at most one
new variable at a time).  With `true` instead of `false` bounded variable addition may add
several variables.
-/

namespace Verif.Props

open Verif.Spec
open Verif.Model

variable {α : Type} [LinearOrder α]

/-- C26: the heap after any sequence of calls represents what the specification of a
priority queue says: the elements for which `kissat_heap_contains` is true are those
inserted and not removed, the scores are those set last. -/
theorem C26_history {zero : α} {ops : List (PQOp α)} {h : Heap.Heap α}
    (hr : Heap.Reaches zero ops h) : ∃ q, PQ.Run (PQ.empty zero) ops q ∧
      (∀ v, h.contains v = true ↔ q.mem v) ∧ (∀ v, h.getScore zero v = q.score v) :=
  ⟨Heap.abs zero h, (Heap.reaches_spec hr).2, fun _ => Iff.rfl, fun _ => rfl⟩

/-- C26: every call within its precondition succeeds (no access outside of an array) and has
the effect the specification prescribes; in particular `kissat_pop_max_heap` returns and
removes an element of largest score. -/
theorem C26_call {zero : α} {ops : List (PQOp α)} {h : Heap.Heap α}
    (hr : Heap.Reaches zero ops h) {op : Heap.Op α} (hl : Heap.Legal zero h op) :
    ∃ r, Heap.exec zero h op = some r ∧ PQ.Step (Heap.abs zero h) r.1 (Heap.abs zero r.2) := by
  obtain ⟨r, e, _, hs⟩ := Heap.exec_spec (Heap.reaches_spec hr).1 hl
  exact ⟨r, e, hs⟩

/-- C26: the maximum of a nonempty heap is an element, and no element has a larger score. -/
theorem C26_max {zero : α} {ops : List (PQOp α)} {h : Heap.Heap α}
    (hr : Heap.Reaches zero ops h) (hne : h.empty = false) :
    h.contains h.max = true ∧
    ∀ v, h.contains v = true → h.getScore zero v ≤ h.getScore zero h.max :=
  Heap.max_spec (Heap.reaches_spec hr).1 (by simpa [Heap.Heap.empty] using hne)

/-- C26: the heap is empty exactly if it holds no element. -/
theorem C26_empty {zero : α} {ops : List (PQOp α)} {h : Heap.Heap α}
    (hr : Heap.Reaches zero ops h) : h.empty = true ↔ ∀ v, h.contains v = false := by
  have hi := (Heap.reaches_spec hr).1
  constructor
  · intro he v
    cases hc : h.contains v with
    | false => rfl
    | true =>
      obtain ⟨p, _, hp, _⟩ := Heap.contains_pos hi hc
      have : h.count = 0 := by simpa [Heap.Heap.empty] using he
      omega
  · intro hv
    cases he : h.empty with
    | true => rfl
    | false =>
      have := (C26_max hr he).1
      rw [hv] at this
      cases this


example : ∃ h : Heap.Heap Nat, Heap.Reaches 0 [.reserve, .update 1 5, .insert 0, .insert 1] h ∧
    h.empty = false ∧ h.max = 1 := by
  have h0 := Heap.Reaches.init (zero := 0) (fun _ => 0) (fun _ => none) (fun _ => 0)
  have h1 := h0.step (op := .adjust 1 (fun _ => 0) (fun _ => none)) trivial rfl
  have h2 := h1.step (op := .update 1 5) (by show 1 < _; decide) rfl
  obtain ⟨r3, e3, _⟩ := C26_call h2 (op := .push 0) ⟨by show 0 < _; decide, rfl⟩
  have h3 := h2.step (op := .push 0) ⟨by show 0 < _; decide, rfl⟩ e3
  simp [Heap.exec, Heap.Heap.push, Heap.Heap.heapImport, Heap.Heap.adjust, Heap.Heap.resize,
    Heap.growSize, Heap.Heap.enlarge, Heap.Heap.init, Heap.Heap.update, Heap.Heap.getScore,
    Heap.Heap.contains, Heap.Heap.bubbleUp, Heap.bubbleUpLoop, Verif.Core.upd] at e3
  subst e3
  obtain ⟨r4, e4, _⟩ := C26_call h3 (op := .push 1) ⟨by show 1 < _; decide, by
    simp [Heap.Heap.contains, Verif.Core.upd]⟩
  have h4 := h3.step (op := .push 1) ⟨by show 1 < _; decide, by
    simp [Heap.Heap.contains, Verif.Core.upd]⟩ e4
  simp [Heap.exec, Heap.Heap.push, Heap.Heap.heapImport,
    Heap.Heap.contains, Heap.Heap.bubbleUp, Heap.bubbleUpLoop, Verif.Core.upd] at e4
  subst e4
  exact ⟨_, h4, rfl, rfl⟩

/-- C27: following the links from the first or from the last variable gives the same list
in opposite directions; it holds every active variable exactly once and nothing else; time
stamps strictly increase along it; and in focused mode every variable after the search
position is assigned. -/
theorem C27_consistent {zero : α} {s : Decide.State α} (h : Decide.Reaches zero false s) :
    s.queue.backward = s.queue.forward.reverse ∧ s.queue.forward.Nodup ∧
    (∀ v, v ∈ s.queue.forward ↔ s.active v = true) ∧
    s.queue.forward.Pairwise (fun a b => s.queue.stampOf a < s.queue.stampOf b) ∧
    (∀ p, s.queue.search = some p → p ∈ s.queue.forward) ∧
    (s.stable = false → ∀ p a b, s.queue.search = some p → s.queue.forward = a ++ p :: b →
      ∀ w ∈ b, s.assigned w = true) := by
  obtain ⟨l, hi⟩ := Decide.reaches_inv h
  rw [hi.queue.holds.forward, hi.queue.holds.backward]
  refine ⟨rfl, hi.queue.holds.nodup, hi.mem, hi.queue.stamps.incr,
    fun p hp => (hi.queue.inside p hp).1, ?_⟩
  rintro hf p a b hp rfl w hw
  refine hi.focused hf w (List.mem_append_right _ (List.mem_cons_of_mem _ hw)) ?_
  rw [(hi.queue.inside p hp).2]
  exact hi.queue.stamps.sorted.2 w hw

/-- C27: every call within its precondition succeeds, and its effect on the order is: a new
variable is put at the end, a removed one disappears, a bumped one is moved to the end, a
variable of bounded variable addition is moved to the start, and all other calls do not
change the order. -/
theorem C27_order {zero : α} {s : Decide.State α} (h : Decide.Reaches zero false s)
    {op : Decide.Op α} (hl : Decide.Legal zero false s op) :
    ∃ s', Decide.exec zero s op = some s' ∧
      s'.queue.forward = (match op with
        | .activate v _ => if s.active v then s.queue.forward else s.queue.forward ++ [v]
        | .deactivate v => s.queue.forward.erase v
        | .moveToFront v => s.queue.forward.erase v ++ [v]
        | .fresh vs => vs ++ s.queue.forward.filter (fun v => !vs.contains v)
        | _ => s.queue.forward) := by
  obtain ⟨l, hi⟩ := Decide.reaches_inv h
  obtain ⟨s', e, hi'⟩ := Decide.exec_spec hi hl
  refine ⟨s', e, ?_⟩
  rw [hi'.queue.holds.forward, hi.queue.holds.forward]
  cases op <;> rfl

/-- The state with three active variables 2, 0, 1, activated in this order. -/
theorem exThree (many : Bool) : ∃ s : Decide.State Nat, Decide.Reaches 0 many s ∧
    s.queue.forward = [2, 0, 1] ∧ s.stable = false ∧ s.assigned = (fun _ => false) ∧
    s.active 0 = true ∧ s.active 1 = true ∧ s.active 2 = true := by
  have h0 := Decide.Reaches.init (zero := 0) (many := many) (fun _ => none) (fun _ => none)
    (fun _ => 0) (fun _ => 0) (fun _ => none) (fun _ => 0)
  have h1 := h0.step (op := .enlarge 3 (fun _ => 0) (fun _ => none)) (by show 3 ≤ _; decide) rfl
  have h2 := h1.step (op := .activate 2 0) ⟨by show 2 < 3; decide, rfl⟩ rfl
  have h3 := h2.step (op := .activate 0 1) ⟨by show 0 < 3; decide, rfl⟩ rfl
  have h4 := h3.step (op := .activate 1 2) ⟨by show 1 < 3; decide, rfl⟩ rfl
  exact ⟨_, h4, rfl, rfl, rfl, rfl, rfl, rfl⟩

example : ∃ s : Decide.State Nat, Decide.Reaches 0 false s ∧
    Decide.Legal 0 false s (.moveToFront 2) ∧ s.queue.forward = [2, 0, 1] := by
  obtain ⟨s, h, hf, hst, _, _, _, h2⟩ := exThree false
  exact ⟨s, h, ⟨h2, hst⟩, hf⟩

/-- C41 (partial: bounded variable addition adds at most one variable at a time, see C60).
If some active variable has no value then a decision variable is found; it is active and
has no value.  In stable mode no active variable without value has a larger score.  In
focused mode all variables bumped later are assigned. -/
theorem C41_variable_partial {zero : α} {s : Decide.State α} (h : Decide.Reaches zero false s)
    (hex : ∃ v, s.active v = true ∧ s.assigned v = false) :
    ∃ r s', s.next = some (r, s') ∧ s.active r = true ∧ s.assigned r = false ∧
      (s.stable = true → ∀ v, s.active v = true → s.assigned v = false →
        s.heap.getScore zero v ≤ s.heap.getScore zero r) ∧
      (s.stable = false → ∃ a b, s.queue.forward = a ++ r :: b ∧
        ∀ w ∈ b, s.assigned w = true) := by
  obtain ⟨l, hi⟩ := Decide.reaches_inv h
  obtain ⟨r, s', e, _, h1, h2, _, _, h3, h4⟩ := Decide.next_spec hi hex
  refine ⟨r, s', e, h1, h2, h3, fun hf => ?_⟩
  rw [hi.queue.holds.forward]
  exact h4 hf

example : ∃ s : Decide.State Nat, Decide.Reaches 0 false s ∧ s.stable = true ∧
    ∃ v, s.active v = true ∧ s.assigned v = false := by
  obtain ⟨s, h, hf, hst, ha, h0, _, _⟩ := exThree false
  obtain ⟨s', e, _⟩ := C27_order h (op := .toStable) hst
  refine ⟨s', h.step (op := .toStable) hst e, ?_⟩
  obtain ⟨l, hi⟩ := Decide.reaches_inv h
  obtain ⟨s'', e', _, h1, h2⟩ := Decide.toStable_spec hi
  have e : s.toStable 0 = some s' := e
  rw [e'] at e
  cases e
  refine ⟨?_, 0, by rw [h1]; exact h0, by rw [h2, ha]⟩
  unfold Decide.State.toStable at e'
  cases hp : Decide.pushActive 0 s.active (List.range s.queue.vars) s.heap with
  | none => rw [hp] at e'; cases e'
  | some k => rw [hp] at e'; cases e'; rfl

/-- C41: the phase is 1 or -1; the decision literal is the variable or its negation
accordingly. -/
theorem C41_phase (p : Decide.PhaseInput) (v : Nat) :
    (Decide.decidePhase p v = 1 ∧ Decide.decisionLit p v = 2 * v) ∨
    (Decide.decidePhase p v = -1 ∧ Decide.decisionLit p v = 2 * v + 1) := by
  obtain ⟨x, hx⟩ : ∃ x : Int, Decide.decidePhase p v = if x < 0 then -1 else 1 := ⟨_, rfl⟩
  unfold Decide.decisionLit
  rw [hx]
  by_cases h : x < 0
  · right
    rw [if_pos h]
    exact ⟨rfl, rfl⟩
  · left
    rw [if_neg h]
    exact ⟨rfl, rfl⟩

/-- C41: with forced phases, in stable mode, the initial phase is used. -/
theorem C41_forced (p : Decide.PhaseInput) (v : Nat) (hf : p.forcephase = true)
    (hs : p.stable = true) (hi : p.initial = 1 ∨ p.initial = -1) :
    Decide.decidePhase p v = p.initial := by
  unfold Decide.decidePhase
  rcases hi with hi | hi <;> simp [hf, hs, hi]

/-- C41: in stable mode the target phase has priority over the saved phase. -/
theorem C41_target_first (p : Decide.PhaseInput) (v : Nat) (hf : p.forcephase = false)
    (hs : p.stable = true) (ht : p.target ≠ 0) (hv : p.targetOf v = 1 ∨ p.targetOf v = -1) :
    Decide.decidePhase p v = p.targetOf v := by
  unfold Decide.decidePhase
  rcases hv with hv | hv <;> simp [hf, hs, ht, hv]

/-- C37: backtracking puts an unassigned variable back: it can be decided again.  If it is
the only active variable without value then it is the next decision variable. -/
theorem C37_available {zero : α} {s : Decide.State α} (h : Decide.Reaches zero false s) {v : Nat}
    (hv : s.active v = true) : ∃ s', Decide.exec zero s (.unassign v) = some s' ∧
      s'.assigned v = false ∧ (∀ w, w ≠ v → s'.assigned w = s.assigned w) ∧
      ((∀ w, s.active w = true → w ≠ v → s.assigned w = true) →
        ∃ s'', s'.next = some (v, s'')) := by
  obtain ⟨l, hi⟩ := Decide.reaches_inv h
  obtain ⟨s', e, hi', h1, h2⟩ := Decide.unassign_spec hi hv
  have hav : s'.assigned v = false := by rw [h2]; exact if_pos rfl
  have hw : ∀ w, w ≠ v → s'.assigned w = s.assigned w := fun w hw => by rw [h2]; exact if_neg hw
  refine ⟨s', e, hav, hw, fun hall => ?_⟩
  obtain ⟨r, s'', e', _, r1, r2, _⟩ := Decide.next_spec hi' ⟨v, by rw [h1]; exact hv, hav⟩
  have : r = v := by
    by_cases hr : r = v
    · exact hr
    · have := hall r (by rw [← h1]; exact r1) hr
      rw [hw r hr, this] at r2
      cases r2
  subst this
  exact ⟨s'', e'⟩

/-- C60, negation of the full statement: after bounded variable addition introduced two
variables in one run, time stamps do not increase along the queue. -/
theorem C60_stamps_decrease : ∃ s : Decide.State Nat, Decide.Reaches 0 true s ∧
    s.queue.forward = [0, 1, 2] ∧ s.queue.stampOf 1 < s.queue.stampOf 0 := by
  have h0 := Decide.Reaches.init (zero := 0) (many := true) (fun _ => none) (fun _ => none)
    (fun _ => 0) (fun _ => 0) (fun _ => none) (fun _ => 0)
  have h1 := h0.step (op := .enlarge 3 (fun _ => 0) (fun _ => none)) (by show 3 ≤ _; decide) rfl
  have h2 := h1.step (op := .activate 2 0) ⟨by show 2 < 3; decide, rfl⟩ rfl
  have h3 := h2.step (op := .activate 0 1) ⟨by show 0 < 3; decide, rfl⟩ rfl
  have h4 := h3.step (op := .activate 1 2) ⟨by show 1 < 3; decide, rfl⟩ rfl
  have h5 := h4.step (op := .fresh [0, 1]) ⟨by
    intro v hv
    simp only [List.mem_cons, List.not_mem_nil, or_false] at hv
    rcases hv with rfl | rfl <;> rfl, by decide, (by intro h; cases h)⟩ rfl
  exact ⟨_, h5, rfl, by decide⟩

/-- C60, negation of the full statement: as a consequence there is a sequence of
assignments, decisions and unassignments after which an active variable has no value but the
search for a decision variable runs off the start of the queue. -/
theorem C60_decision_out_of_bounds : ∃ s : Decide.State Nat, Decide.Reaches 0 true s ∧
    s.stable = false ∧ s.active 1 = true ∧ s.assigned 1 = false ∧ s.next = none := by
  have h0 := Decide.Reaches.init (zero := 0) (many := true) (fun _ => none) (fun _ => none)
    (fun _ => 0) (fun _ => 0) (fun _ => none) (fun _ => 0)
  have h1 := h0.step (op := .enlarge 3 (fun _ => 0) (fun _ => none)) (by show 3 ≤ _; decide) rfl
  have h2 := h1.step (op := .activate 2 0) ⟨by show 2 < 3; decide, rfl⟩ rfl
  have h3 := h2.step (op := .activate 0 1) ⟨by show 0 < 3; decide, rfl⟩ rfl
  have h4 := h3.step (op := .activate 1 2) ⟨by show 1 < 3; decide, rfl⟩ rfl
  have h5 := h4.step (op := .fresh [0, 1]) ⟨by
    intro v hv
    simp only [List.mem_cons, List.not_mem_nil, or_false] at hv
    rcases hv with rfl | rfl <;> rfl, by decide, (by intro h; cases h)⟩ rfl
  have h6 := h5.step (op := .decide) ⟨2, rfl, rfl⟩ rfl
  have h7 := h6.step (op := .decide) ⟨1, rfl, rfl⟩ rfl
  have h8 := h7.step (op := .assign 0) (by show 0 < 3; decide) rfl
  have h9 := h8.step (op := .unassign 0) rfl rfl
  have h10 := h9.step (op := .unassign 1) rfl rfl
  have h11 := h10.step (op := .assign 0) (by show 0 < 3; decide) rfl
  exact ⟨_, h11, rfl, rfl, rfl, rfl⟩

/-- C60 (partial: at most one new variable per run of bounded variable addition): the
variable becomes the first of the queue, which stays consistent, and the next decision
picks an unassigned variable. -/
theorem C60_single_fresh_partial {zero : α} {s : Decide.State α} (h : Decide.Reaches zero false s)
    {v : Nat} (hv : s.active v = true) : ∃ s', Decide.exec zero s (.fresh [v]) = some s' ∧
      s'.queue.forward = v :: s.queue.forward.filter (fun w => ![v].contains w) ∧
      s'.queue.forward.Pairwise (fun a b => s'.queue.stampOf a < s'.queue.stampOf b) ∧
      ((∃ w, s'.active w = true ∧ s'.assigned w = false) →
        ∃ r s'', s'.next = some (r, s'') ∧ s'.active r = true ∧ s'.assigned r = false) := by
  have hl : Decide.Legal zero false s (.fresh [v]) :=
    ⟨fun w hw => by rw [List.mem_singleton.1 hw]; exact hv, by simp, fun _ => Nat.le_refl _⟩
  obtain ⟨s', e, hf⟩ := C27_order h hl
  have h' := h.step hl e
  refine ⟨s', e, hf, (C27_consistent h').2.2.2.1, fun hex => ?_⟩
  obtain ⟨r, s'', e, h1, h2, _⟩ := C41_variable_partial h' hex
  exact ⟨r, s'', e, h1, h2⟩

end Verif.Props
