import Verif.Spec.Averages

/-!
# Moving averages: `smooth.c`, `averages.c`

Numbers of type `double` are rational numbers here: there is no rounding.  A failing assertion is `none`.
-/

namespace Verif.Model.Averages

open Verif.Spec.Averages (Event)

/-- `struct smooth` (smooth.h:8-14) without the members for logging. -/
structure Smooth where
  value : ℚ := 0
  biased : ℚ := 0
  alpha : ℚ := 0
  beta : ℚ := 0
  exp : ℚ := 0

/-- `kissat_init_smooth` (smooth.c:5-23). -/
def Smooth.init (window : Nat) : Option Smooth :=
  if window = 0 then none
  else
    let alpha : ℚ := 1 / window
    if 0 < 1 - alpha then some { value := 0, biased := 0, alpha := alpha, beta := 1 - alpha, exp := 1 } else none

/-- `kissat_update_smooth` (smooth.c:25-73). -/
def Smooth.update (s : Smooth) (y : ℚ) : Option Smooth :=
  let delta := y - s.biased
  let scaledDelta := s.alpha * delta
  let newBiased := s.biased + scaledDelta
  if s.exp ≠ 0 then
    let newExp := s.exp * s.beta
    if ¬ newExp < 1 then none
    else if newExp = s.exp then some { s with biased := newBiased, exp := 0, value := newBiased }
    else
      let div := 1 - newExp
      if ¬ 0 < div then none
      else some { s with biased := newBiased, exp := newExp, value := newBiased / div }
  else some { s with biased := newBiased, value := newBiased }

/-- `struct averages` (averages.h:10-18) without the averages `level`, `size` and `trail`, which are only printed. -/
structure Bank where
  initialized : Bool := false
  fastGlue : Smooth := {}
  slowGlue : Smooth := {}
  decisionRate : Smooth := {}
  saved : Nat := 0

/-- Options `emafast` and `emaslow` (options.h:49-50) and `restartmargin` (options.h:125). -/
structure Options where
  fast : Nat := 33
  slow : Nat := 100000
  margin : Nat := 10

/-- `kissat_init_averages` (averages.c:3-18). -/
def Bank.init (o : Options) (a : Bank) : Option Bank :=
  if a.initialized then some a
  else do
    let fast ← Smooth.init o.fast
    let slow ← Smooth.init o.slow
    let rate ← Smooth.init o.slow
    some { a with fastGlue := fast, slowGlue := slow, decisionRate := rate, initialized := true }

/-- The members of the solver used here: `stable`, the number of decisions and `averages[2]`, which is indexed by
`stable` (averages.h:24). -/
structure State where
  stable : Bool
  decisions : Nat
  focusedAverages : Bank := {}
  stableAverages : Bank := {}

/-- `solver->averages[mode]`. -/
def State.averages (s : State) (mode : Bool) : Bank := if mode then s.stableAverages else s.focusedAverages

/-- Assignment to `AVERAGES` (averages.h:24). -/
def State.setAverages (s : State) (a : Bank) : State :=
  if s.stable then { s with stableAverages := a } else { s with focusedAverages := a }

/-- `start_search` (search.c:45-56); `decisions` is the number of decisions before. -/
def State.start (o : Options) (stable : Bool) (decisions : Nat) : Option State :=
  let s : State := { stable := stable, decisions := decisions }
  (Bank.init o (s.averages s.stable)).map s.setAverages

/-- `update_decision_rate_average` (analyze.c:379-388). -/
def State.updateDecisionRate (s : State) : Option State :=
  let a := s.averages s.stable
  if ¬ a.saved ≤ s.decisions then none
  else (a.decisionRate.update ((s.decisions - a.saved : Nat) : ℚ)).map fun r =>
    s.setAverages { a with saved := s.decisions, decisionRate := r }

/-- The end of `kissat_update_learned` (learn.c:129-130). -/
def State.learned (s : State) (glue : Nat) : Option State := do
  let a := s.averages s.stable
  let fast ← a.fastGlue.update glue
  let slow ← a.slowGlue.update glue
  some (s.setAverages { a with fastGlue := fast, slowGlue := slow })

/-- `kissat_switch_search_mode` (mode.c:202-215) with the parts of `switch_to_focused_mode`, `switch_to_stable_mode`
and `update_mode_limit` (mode.c:69-70, 160, 175) for averages. -/
def State.switch (o : Options) (s : State) : Option State :=
  let s := { s with stable := !s.stable }
  (Bank.init o (s.averages s.stable)).map fun a => s.setAverages { a with saved := s.decisions }

/-- One step of search. -/
def State.step (o : Options) (s : State) : Event → Option State
  | .decision => some { s with decisions := s.decisions + 1 }
  | .conflict => s.updateDecisionRate
  | .learn glue => s.learned glue
  | .switch => s.switch o

/-- Search. -/
def State.run (o : Options) (s : State) : List Event → Option State
  | [] => some s
  | e :: es => (s.step o e).bind fun s => s.run o es

/-- The test at the end of `kissat_restarting` (restart.c:24-37). -/
def State.restartDue (o : Options) (s : State) : Bool :=
  let fast := (s.averages s.stable).fastGlue.value
  let slow := (s.averages s.stable).slowGlue.value
  let margin : ℚ := (100 + o.margin) / 100
  let limit := margin * slow
  decide (limit ≤ fast)

end Verif.Model.Averages
