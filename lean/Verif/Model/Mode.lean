import Verif.Spec.Mode

/-!
# Search modes: `mode.c`

Numbers have no overflow.  Messages and the members only used for them are left out, as are averages (see
`Averages.lean`), queue and scores.
-/

namespace Verif.Model.Mode

open Verif.Spec.Mode (Mark)

/-- Options `stable`, `modeinit` and `modeint` (options.h:83-84, 131). -/
structure Options where
  stable : Nat := 1
  init : Nat := 1000
  interval : Nat := 1000

/-- Members `stable`, `statistics.conflicts`, `statistics.search_ticks`, `statistics.switched`, `limits.mode` and
`mode.ticks` of the solver. -/
structure State where
  stable : Bool
  conflicts : Nat
  ticks : Nat
  switched : Nat := 0
  limitConflicts : Nat := 0
  limitTicks : Nat := 0
  count : Nat := 0
  modeTicks : Nat := 0

/-- `kissat_init_mode_limit` (mode.c:19-67). -/
def State.init (o : Options) (s : State) : State :=
  if o.stable = 1 then
    let conflictsLimit := s.conflicts + o.init
    { s with limitConflicts := conflictsLimit, limitTicks := 0, count := 0, modeTicks := s.ticks }
  else s

/-- `start_search` (search.c:45-66). -/
def State.start (o : Options) (conflicts ticks : Nat) : State :=
  State.init o { stable := o.stable == 2, conflicts := conflicts, ticks := ticks }

/-- `kissat_switching_search_mode` (mode.c:186-199). -/
def State.switching (o : Options) (s : State) : Bool :=
  if o.stable ≠ 1 then false
  else if s.count % 2 = 1 then decide (s.ticks ≥ s.limitTicks)
  else decide (s.conflicts ≥ s.limitConflicts)

/-- `update_mode_limit` (mode.c:69-107).  `scale interval count` is `interval * kissat_nlogpown (count, 4)` rounded
down (kimits.c:27-37); the assertion there is `none`.  The assertion on the limit of ticks is left out. -/
def State.updateLimit (o : Options) (scale : Nat → Nat → Nat) (s : State) (delta : Nat) : Option State :=
  if s.count % 2 = 1 then
    if s.stable then some { s with limitTicks := s.ticks + delta, modeTicks := s.ticks } else none
  else
    let count := (s.switched + 1) / 2
    if count = 0 ∨ s.stable then none
    else some { s with limitConflicts := s.conflicts + scale o.interval count, modeTicks := s.ticks }

/-- `kissat_switch_search_mode` (mode.c:201-215) with `switch_to_focused_mode` and `switch_to_stable_mode`
(mode.c:150-184), whose difference is the new mode; `delta` comes from `report_switching_from_mode`
(mode.c:112). -/
def State.switch (o : Options) (scale : Nat → Nat → Nat) (s : State) : Option State :=
  let s := { s with switched := s.switched + 1, count := s.count + 1 }
  let delta := s.ticks - s.modeTicks
  if s.stable then State.updateLimit o scale { s with stable := false } delta
  else State.updateLimit o scale { s with stable := true } delta

/-- Search: some conflicts and ticks, or the test for switching modes in the main loop (search.c:206-207). -/
inductive Event where
  | work (conflicts ticks : Nat)
  | test

/-- Search with marks where the mode changed. -/
def State.run (o : Options) (scale : Nat → Nat → Nat) (s : State) (marks : List Mark) :
    List Event → Option (State × List Mark)
  | [] => some (s, marks)
  | .work c t :: es => State.run o scale { s with conflicts := s.conflicts + c, ticks := s.ticks + t } marks es
  | .test :: es =>
    if s.switching o then
      (s.switch o scale).bind fun s' => State.run o scale s' (⟨s.conflicts, s.ticks⟩ :: marks) es
    else State.run o scale s marks es

end Verif.Model.Mode
