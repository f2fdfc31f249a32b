import Verif.Proofs.Mode

/-!
# Focused and stable mode (C75)

`Model/Mode.lean` against `Spec/Mode.lean`.  `scale interval k` is the number of conflicts for the phase in focused mode
after `k` others, computed with floating point numbers in the code; it is arbitrary here.
-/

namespace Verif.Props

open Verif.Spec.Mode
open Verif.Model.Mode (State Options Event)

/-- C75.  With option `stable=1` search violates no assertion.  Its mode is focused or stable, if the number of
changes is even or odd.  All completed phases took as long as they should. -/
theorem C75_phases {o : Options} (ho : o.stable = 1) (scale : Nat → Nat → Nat) (c t : Nat) (es : List Event) :
    ∃ s m ms, (State.start o c t).run o scale [⟨c, t⟩] es = some (s, m :: ms) ∧
      s.stable = decide (ms.length % 2 = 1) ∧
      Lengths (fun k => if k = 0 then o.init else scale o.interval k) (m :: ms) := by
  obtain ⟨s, m, ms, h1, h2⟩ := Verif.Model.Mode.run_inv ho es (Verif.Model.Mode.start_inv ho scale c t)
  exact ⟨s, m, ms, h1, h2.stable, h2.lengths⟩

/-- C75.  At any time the test for changing the mode succeeds if and only if the current phase took as long as it
should. -/
theorem C75_test {o : Options} (ho : o.stable = 1) {scale : Nat → Nat → Nat} {c t : Nat} {es : List Event}
    {s : State} {ms : List Mark} (h : (State.start o c t).run o scale [⟨c, t⟩] es = some (s, ms)) :
    s.switching o = true ↔
      MayEnd (fun k => if k = 0 then o.init else scale o.interval k) ⟨s.conflicts, s.ticks⟩ ms := by
  obtain ⟨s', m, ms', h1, h2⟩ := Verif.Model.Mode.run_inv ho es (Verif.Model.Mode.start_inv ho scale c t)
  obtain ⟨rfl, rfl⟩ := Prod.mk.inj (Option.some.inj (h.symm.trans h1))
  exact Verif.Model.Mode.switching_iff ho h2

/-- C75.  If the test succeeds then the mode changes, and a new phase starts. -/
theorem C75_change {o : Options} (ho : o.stable = 1) {scale : Nat → Nat → Nat} {c t : Nat} {es : List Event}
    {s : State} {ms : List Mark} (h : (State.start o c t).run o scale [⟨c, t⟩] es = some (s, ms))
    (hs : s.switching o = true) :
    ∃ s', s.run o scale ms [.test] = some (s', ⟨s.conflicts, s.ticks⟩ :: ms) ∧ s'.stable = !s.stable := by
  obtain ⟨s', m, ms', h1, h2⟩ := Verif.Model.Mode.run_inv ho es (Verif.Model.Mode.start_inv ho scale c t)
  obtain ⟨rfl, rfl⟩ := Prod.mk.inj (Option.some.inj (h.symm.trans h1))
  obtain ⟨t', t1, t2⟩ := Verif.Model.Mode.switch_inv ho h2 hs
  refine ⟨t', by rw [State.run, if_pos hs, t1]; rfl, ?_⟩
  rw [t2.stable, h2.stable]
  simp only [List.length_cons]
  by_cases e : ms'.length % 2 = 1
  · simp [e, show ¬ (ms'.length + 1) % 2 = 1 by omega]
  · simp [e, show (ms'.length + 1) % 2 = 1 by omega]

/-- C75.  A phase in stable mode which ended took at least as many ticks as the phase in focused mode before: here `b`
is the start of the stable phase, `d` its end, and `a` the start of the focused phase. -/
theorem C75_balance {o : Options} (ho : o.stable = 1) {scale : Nat → Nat → Nat} {c t : Nat} {es : List Event}
    {s : State} {pre post : List Mark} {a b d : Mark}
    (h : (State.start o c t).run o scale [⟨c, t⟩] es = some (s, pre ++ d :: b :: a :: post))
    (he : post.length % 2 = 0) : b.ticks - a.ticks ≤ d.ticks - b.ticks ∧ a.ticks ≤ b.ticks ∧ b.ticks ≤ d.ticks := by
  obtain ⟨s', m, ms, h1, -, h2⟩ := C75_phases ho scale c t es
  rw [← (Prod.mk.inj (Option.some.inj (h.symm.trans h1))).2] at h2
  clear h h1
  induction pre with
  | nil =>
    obtain ⟨⟨-, k1, k2⟩, ⟨-, k3, -⟩, -⟩ := h2
    rw [MayEnd, if_pos he] at k2
    exact ⟨k2, k3, k1⟩
  | cons p pre ih =>
    apply ih
    cases pre with
    | nil => exact h2.2
    | cons q pre => exact h2.2

/-- C75.  With `stable=0` the search stays in focused mode, with `stable=2` in stable mode. -/
theorem C75_single {o : Options} (ho : o.stable ≠ 1) (scale : Nat → Nat → Nat) (c t : Nat) (es : List Event) :
    ∃ s, (State.start o c t).run o scale [⟨c, t⟩] es = some (s, [⟨c, t⟩]) ∧ s.stable = decide (o.stable = 2) := by
  obtain ⟨s, h1, h2⟩ := Verif.Model.Mode.run_never ho (scale := scale) es (State.start o c t) [⟨c, t⟩]
  refine ⟨s, h1, ?_⟩
  rw [h2]
  unfold State.start State.init
  rw [if_neg ho]
  by_cases e : o.stable = 2 <;> simp [e]

/-- A search with three phases: focused for 1000 conflicts and 500 ticks, stable for 600 ticks, and focused again; the
second test comes too early. -/
example : ((State.start {} 7 20).run {} (fun i k => i * k) [⟨7, 20⟩]
    [.work 1000 500, .test, .work 5 400, .test, .work 3 200, .test, .work 9 9, .test]).map
      (fun r => (r.1.stable, r.2)) = some (false, [⟨1015, 1120⟩, ⟨1007, 520⟩, ⟨7, 20⟩]) := by decide

/-- The hypotheses of `C75_balance` hold there. -/
example : (520 : Nat) - 20 ≤ 1120 - 520 := by
  have h : ∃ s, (State.start {} 7 20).run {} (fun i k => i * k) [⟨7, 20⟩]
      [.work 1000 500, .test, .work 5 400, .test, .work 3 200, .test] =
        some (s, [] ++ ⟨1015, 1120⟩ :: ⟨1007, 520⟩ :: ⟨7, 20⟩ :: []) := ⟨_, rfl⟩
  obtain ⟨s, h⟩ := h
  exact (C75_balance rfl h rfl).1

/-- Phases which are too short are rejected by the specification. -/
example : ¬ Lengths (fun _ => 10) [⟨5, 3⟩, ⟨0, 0⟩] ∧ Lengths (fun _ => 10) [⟨12, 3⟩, ⟨0, 0⟩] ∧
    ¬ Lengths (fun _ => 10) [⟨12, 5⟩, ⟨12, 3⟩, ⟨0, 0⟩] := by
  simp [Lengths, MayEnd]

/-- Without stable mode there is no change. -/
example : ((State.start { stable := 0 } 0 0).run { stable := 0 } (fun i k => i * k) [⟨0, 0⟩]
    [.work 5000 500, .test]).map (fun r => (r.1.stable, r.2)) = some (false, [⟨0, 0⟩]) := by decide

end Verif.Props
