/-
Specification for reluctant doubling (C32): the Luby sequence 1,1,2,1,1,2,4,... and an abstract
restart schedule.  Nothing here refers to the solver.
-/
namespace Verif.Spec

/-- The Luby sequence (starting at index 1): if `i = 2^k - 1` then `2^(k-1)`, and otherwise the
sequence repeats itself from the start, `luby i = luby (i + 1 - 2^k)` for `2^k < i + 1 < 2^(k+1)`. -/
def luby (i : Nat) : Nat :=
  if i + 1 = 2 ^ (i + 1).log2 then 2 ^ ((i + 1).log2 - 1)
  else luby (i + 1 - 2 ^ (i + 1).log2)
termination_by i
decreasing_by
  rename_i h
  have h1 : (i + 1).log2 ≠ 0 := by
    intro h0
    have := Nat.lt_log2_self (n := i + 1)
    rw [h0] at this h
    simp at h; simp at this; omega
  have h3 : i ≠ 0 := by
    intro h0; apply h1; rw [h0]; decide
  have h2 : 2 ^ 1 ≤ 2 ^ (i + 1).log2 := Nat.pow_le_pow_right (by decide) (by omega)
  omega

/-- Abstract restart schedule: `index` is the current index into the Luby sequence, `remaining`
the number of conflicts until the next restart is due, `due` whether one is due now. -/
structure Schedule where
  index : Nat
  remaining : Nat
  due : Bool
  deriving DecidableEq, Repr

/-- What happens to the schedule: a conflict, or the solver asks whether to restart. -/
inductive ScheduleEvent where
  | conflict
  | ask

/-- The schedule with the given period: waits are `period` times the Luby sequence, which starts
again if the next wait would exceed a non-zero limit.  Conflicts do not count while a
restart is due. -/
def Schedule.next (period limit : Nat) (s : Schedule) : ScheduleEvent → Schedule × Option Bool
  | .ask => ({ s with due := false }, some s.due)
  | .conflict =>
    if s.due then (s, none)
    else if s.remaining ≠ 1 then ({ s with remaining := s.remaining - 1 }, none)
    else
      let i := if limit ≠ 0 ∧ limit < period * luby (s.index + 1) then 1 else s.index + 1
      (⟨i, period * luby i, true⟩, none)

/-- Answers to all questions asked in a history. -/
def Schedule.answers (period limit : Nat) : Schedule → List ScheduleEvent → List Bool
  | _, [] => []
  | s, e :: es =>
    let r := s.next period limit e
    r.2.toList ++ Schedule.answers period limit r.1 es

end Verif.Spec
