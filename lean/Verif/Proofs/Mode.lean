import Verif.Model.Mode

/-! # Proofs about search modes -/

namespace Verif.Model.Mode

open Verif.Spec.Mode

/-- Least numbers of conflicts in focused mode. -/
def bound (o : Options) (scale : Nat → Nat → Nat) (k : Nat) : Nat := if k = 0 then o.init else scale o.interval k

/-- State and marks agree. -/
structure Inv (o : Options) (scale : Nat → Nat → Nat) (s : State) (m : Mark) (ms : List Mark) : Prop where
  conflicts : m.conflicts ≤ s.conflicts
  ticks : m.ticks ≤ s.ticks
  modeTicks : s.modeTicks = m.ticks
  switched : s.switched = ms.length
  count : s.count = ms.length
  stable : s.stable = decide (ms.length % 2 = 1)
  limitTicks : ms.length % 2 = 1 → ∃ m' ms', ms = m' :: ms' ∧ s.limitTicks = m.ticks + (m.ticks - m'.ticks)
  limitConflicts : ms.length % 2 = 0 → s.limitConflicts = m.conflicts + bound o scale (ms.length / 2)
  lengths : Lengths (bound o scale) (m :: ms)

theorem switching_iff {o : Options} (ho : o.stable = 1) {scale : Nat → Nat → Nat} {s : State} {m : Mark}
    {ms : List Mark} (h : Inv o scale s m ms) :
    s.switching o = true ↔ MayEnd (bound o scale) ⟨s.conflicts, s.ticks⟩ (m :: ms) := by
  unfold State.switching
  rw [if_neg (by omega), h.count]
  cases ms with
  | nil =>
    have := h.limitConflicts rfl
    simp only [List.length_nil, Nat.zero_mod, Nat.zero_ne_one, if_false, decide_eq_true_eq, MayEnd, ge_iff_le,
      Nat.zero_div] at this ⊢
    rw [this]
  | cons m' ms =>
    have ht := h.ticks
    simp only [List.length_cons, MayEnd]
    by_cases e : ms.length % 2 = 0
    · obtain ⟨_, _, e1, e2⟩ := h.limitTicks (by simp only [List.length_cons]; omega)
      injection e1 with e1 e3
      subst e1
      rw [if_pos (by omega), if_pos e, decide_eq_true_eq, e2]
      omega
    · have := h.limitConflicts (by simp only [List.length_cons]; omega)
      rw [if_neg (by omega), if_neg e, decide_eq_true_eq, this]
      rfl

theorem switch_inv {o : Options} (ho : o.stable = 1) {scale : Nat → Nat → Nat} {s : State} {m : Mark}
    {ms : List Mark} (h : Inv o scale s m ms) (hs : s.switching o = true) :
    ∃ t, s.switch o scale = some t ∧ Inv o scale t ⟨s.conflicts, s.ticks⟩ (m :: ms) := by
  have hl : Lengths (bound o scale) (⟨s.conflicts, s.ticks⟩ :: m :: ms) :=
    ⟨⟨h.conflicts, h.ticks, (switching_iff ho h).1 hs⟩, h.lengths⟩
  have h1 := h.count
  have h2 := h.switched
  have h3 := h.modeTicks
  by_cases e : ms.length % 2 = 1
  · have hst : s.stable = true := by rw [h.stable]; simp [e]
    refine ⟨{ s with
        switched := s.switched + 1, count := s.count + 1, stable := false,
        limitConflicts := s.conflicts + scale o.interval ((s.switched + 1 + 1) / 2), modeTicks := s.ticks }, ?_, ?_⟩
    · unfold State.switch State.updateLimit
      simp only [hst, if_true]
      rw [if_neg (by omega), if_neg (by simp)]
    · refine ⟨Nat.le_refl _, Nat.le_refl _, rfl, ?_, ?_, ?_, ?_, ?_, hl⟩
      · simp only [List.length_cons]; omega
      · simp only [List.length_cons]; omega
      · simp only [List.length_cons]; rw [eq_comm, decide_eq_false_iff_not]; omega
      · simp only [List.length_cons]; omega
      · intro _
        simp only [List.length_cons]
        rw [bound, if_neg (by omega), show (s.switched + 1 + 1) / 2 = (ms.length + 1) / 2 by omega]
  · have hst : s.stable = false := by rw [h.stable]; simp [e]
    refine ⟨{ s with
        switched := s.switched + 1, count := s.count + 1, stable := true,
        limitTicks := s.ticks + (s.ticks - s.modeTicks), modeTicks := s.ticks }, ?_, ?_⟩
    · unfold State.switch State.updateLimit
      simp only [hst]
      rw [if_neg (by simp), if_pos (by omega)]
      rfl
    · refine ⟨Nat.le_refl _, Nat.le_refl _, rfl, ?_, ?_, ?_, ?_, ?_, hl⟩
      · simp only [List.length_cons]; omega
      · simp only [List.length_cons]; omega
      · simp only [List.length_cons]; rw [eq_comm, decide_eq_true_eq]; omega
      · intro _
        exact ⟨m, ms, rfl, by rw [h3]⟩
      · simp only [List.length_cons]; omega

theorem run_inv {o : Options} (ho : o.stable = 1) {scale : Nat → Nat → Nat} (es : List Event) {s : State} {m : Mark}
    {ms : List Mark} (h : Inv o scale s m ms) :
    ∃ t m' ms', s.run o scale (m :: ms) es = some (t, m' :: ms') ∧ Inv o scale t m' ms' := by
  induction es generalizing s m ms with
  | nil => exact ⟨s, m, ms, rfl, h⟩
  | cons e es ih =>
    cases e with
    | work c t =>
      have h1 := h.conflicts
      have h2 := h.ticks
      exact ih ⟨Nat.le_add_right_of_le h1, Nat.le_add_right_of_le h2, h.modeTicks, h.switched, h.count, h.stable,
        h.limitTicks, h.limitConflicts, h.lengths⟩
    | test =>
      rw [State.run]
      by_cases hs : s.switching o = true
      · obtain ⟨t, t1, t2⟩ := switch_inv ho h hs
        rw [if_pos hs, t1]
        exact ih t2
      · rw [if_neg hs]
        exact ih h

theorem start_inv {o : Options} (ho : o.stable = 1) (scale : Nat → Nat → Nat) (c t : Nat) :
    Inv o scale (State.start o c t) ⟨c, t⟩ [] := by
  unfold State.start State.init
  simp only [if_pos ho]
  exact ⟨Nat.le_refl _, Nat.le_refl _, rfl, rfl, rfl, by simp [ho], fun e => by simp at e, fun _ => rfl, trivial⟩

theorem run_never {o : Options} (ho : o.stable ≠ 1) {scale : Nat → Nat → Nat} (es : List Event) (s : State)
    (ms : List Mark) : ∃ t, s.run o scale ms es = some (t, ms) ∧ t.stable = s.stable := by
  induction es generalizing s with
  | nil => exact ⟨s, rfl, rfl⟩
  | cons e es ih =>
    cases e with
    | work c t => exact ih _
    | test =>
      rw [State.run, if_neg (by simp [State.switching, ho])]
      exact ih s

end Verif.Model.Mode
