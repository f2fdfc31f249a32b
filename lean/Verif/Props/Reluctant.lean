import Verif.Proofs.Reluctant
/-
C32: reluctant doubling realises the Luby restart schedule.
-/
namespace Verif.Props
open Verif.Spec Verif.Model Verif.Proofs.Reluctant

/-- What the program answers to `kissat_reluctant_triggered` along a history of calls to
`kissat_tick_reluctant` (`conflict`) and `kissat_reluctant_triggered` (`ask`). -/
def reluctantAnswers : Reluctant → List ScheduleEvent → List Bool
  | _, [] => []
  | r, .conflict :: es => reluctantAnswers r.tick es
  | r, .ask :: es => r.triggered.1 :: reluctantAnswers r.triggered.2 es

private theorem answers_eq (period limit : Nat) (hp : 1 ≤ period) (es : List ScheduleEvent) :
    ∀ (r : Reluctant) (s : Schedule), Refines period limit r s →
      (limit ≠ 0 ∧ limit < 2 ^ 61) ∨ (limit = 0 ∧ (s.index + es.length + 1) * period < 2 ^ 61) →
      reluctantAnswers r es = Schedule.answers period limit s es := by
  induction es with
  | nil => intros; rfl
  | cons e es ih =>
    intro r s h hsafe
    have hi := index_le period limit s e h.index
    have hsafe' : (limit ≠ 0 ∧ limit < 2 ^ 61) ∨
        (limit = 0 ∧ ((s.next period limit e).1.index + es.length + 1) * period < 2 ^ 61) := by
      refine hsafe.imp id fun ⟨hl, hb⟩ => ⟨hl, lt_of_le_of_lt (Nat.mul_le_mul_right _ ?_) hb⟩
      simp only [List.length_cons]; omega
    cases e with
    | ask =>
      obtain ⟨h', ha⟩ := refines_ask h
      simp only [reluctantAnswers, Schedule.answers, ha, Option.toList]
      rw [ih _ _ h' hsafe']; rfl
    | conflict =>
      have h' := refines_tick hp h (by
        refine hsafe.imp id fun ⟨hl, hb⟩ => ⟨hl, lt_of_le_of_lt (Nat.mul_le_mul_right _ ?_) hb⟩
        simp only [List.length_cons]; omega)
      have hn : (s.next period limit .conflict).2 = none := by
        simp only [Schedule.next]; repeat' split
        all_goals rfl
      simp only [reluctantAnswers, Schedule.answers, hn, Option.toList, List.nil_append]
      exact ih _ _ h' hsafe'

/-- **C32.** With a restart limit (`reluctantlim`, at most `2^30`), for every history of conflicts
and restart questions, of any length, the answers are exactly those of the Luby schedule with
waiting times `period * luby i`, started again when the next waiting time exceeds the limit. -/
theorem C32_reluctant_limited (period limit : Nat) (es : List ScheduleEvent)
    (hp : 1 ≤ period) (hp2 : period < 2 ^ 61) (hl : 1 ≤ limit) (hl2 : limit < 2 ^ 61) :
    reluctantAnswers (Reluctant.enable period limit) es =
      Schedule.answers (min period limit) limit ⟨1, min period limit, false⟩ es := by
  have hm : (if limit ≠ 0 ∧ period > limit then limit else period) = min period limit := by
    split <;> omega
  have h := refines_enable period limit hp (by omega)
  rw [hm] at h
  exact answers_eq _ _ (by omega) es _ _ h (.inl ⟨by omega, hl2⟩)

/-- **C32.** Without restart limit the same holds for the pure Luby schedule, as long as
the history is too short to overflow the 64-bit counters (with the largest period the options
allow, `2^15`, this covers `2^46 - 2` events). -/
theorem C32_reluctant_unlimited (period : Nat) (es : List ScheduleEvent)
    (hp : 1 ≤ period) (hes : (es.length + 2) * period < 2 ^ 61) :
    reluctantAnswers (Reluctant.enable period 0) es =
      Schedule.answers period 0 ⟨1, period, false⟩ es := by
  have h := refines_enable period 0 hp (by
    have : 1 * period ≤ (es.length + 2) * period := Nat.mul_le_mul_right _ (by omega)
    omega)
  simp only [ne_eq, not_true_eq_false, false_and, if_false] at h
  refine answers_eq _ _ hp es _ _ h (.inr ⟨rfl, ?_⟩)
  refine lt_of_le_of_lt (Nat.mul_le_mul_right _ ?_) hes
  simp only; omega

/-- **C32.** Once disabled (and not yet triggered), no restart is ever due. -/
theorem C32_disabled_never_triggers (r : Reluctant) (h : r.trigger = false)
    (es : List ScheduleEvent) : ∀ b ∈ reluctantAnswers r.disable es, b = false := by
  have key : ∀ es (r : Reluctant), r.trigger = false → r.period = 0 →
      ∀ b ∈ reluctantAnswers r es, b = false := by
    intro es
    induction es with
    | nil => intro r _ _ b hb; simp [reluctantAnswers] at hb
    | cons e es ih =>
      intro r ht hp b hb
      cases e with
      | conflict =>
        have : r.tick = r := by simp [Reluctant.tick, hp]
        rw [reluctantAnswers, this] at hb
        exact ih r ht hp b hb
      | ask =>
        have : r.triggered = (false, r) := by simp [Reluctant.triggered, ht]
        simp only [reluctantAnswers, this, List.mem_cons] at hb
        rcases hb with hb | hb
        · exact hb
        · exact ih r ht hp b hb
  exact key es _ h rfl

/-- The first terms of the specification's Luby sequence. -/
example : (List.range 15).map (fun i => luby (i + 1)) =
    [1, 1, 2, 1, 1, 2, 4, 1, 1, 2, 1, 1, 2, 4, 8] := by decide +kernel

/-- A concrete history: with period 2 and limit 4 a restart is due after 2, 2, 4, 2, ... conflicts
(the sequence restarts after the 4, the next 8 never happens). -/
example : reluctantAnswers (Reluctant.enable 2 4)
    ([.conflict, .ask, .conflict, .ask, .conflict, .conflict, .ask, .ask] ++
      [.conflict, .conflict, .conflict, .ask, .conflict, .ask]) =
    [false, true, true, false, false, true] := by decide +kernel

end Verif.Props
