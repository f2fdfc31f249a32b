import Verif.Model.Core.Joint

/-!
# Restarts: `restart.c`

When the solver restarts and how many decisions it keeps.
-/

namespace Verif.Model.Restart

open Verif.Core

variable {α : Type} [LinearOrder α]

/-- `kissat_next_decision_variable` (decide.c:126-153).  `random` is the result of `next_random_decision`
(decide.c:86-124). -/
def nextVariable (random : Option Nat) (d : Decide.State α) : Option (Nat × Decide.State α) :=
  match random with
  | some v => some (v, d)
  | none => d.next

/-- The loops in `reuse_stable_trail` and `reuse_focused_trail` (restart.c:59-67, 78-86), where `stop` is the test
`score <= limit`.  The first number is how many levels are left, the second is `res`.  An access to a frame which does
not exist is `none`. -/
def reuseLoop (frames : List Frame) (stop : Nat → Bool) : Nat → Nat → Option Nat
  | 0, res => some res
  | n + 1, res =>
    match frames[res]? with
    | none => none
    | some f => if stop (f.decision / 2) then some res else reuseLoop frames stop n (res + 1)

/-- `reuse_stable_trail` (restart.c:54-69). -/
def reuseStable (zero : α) (random : Option Nat) (s : Solver) (d : Decide.State α) :
    Option (Nat × Decide.State α) :=
  (nextVariable random d).bind fun (next, d) =>
    let limit := d.heap.getScore zero next
    (reuseLoop s.frames (fun idx => Decidable.decide (d.heap.getScore zero idx ≤ limit)) s.level 0).map (·, d)

/-- `reuse_focused_trail` (restart.c:71-88). -/
def reuseFocused (random : Option Nat) (s : Solver) (d : Decide.State α) : Option (Nat × Decide.State α) :=
  (nextVariable random d).bind fun (next, d) =>
    let limit := d.queue.stampOf next
    (reuseLoop s.frames (fun idx => Decidable.decide (d.queue.stampOf idx ≤ limit)) s.level 0).map (·, d)

/-- `reuse_trail` (restart.c:90-116) without statistics.  `reuse` is the option `restartreusetrail`. -/
def reuseTrail (zero : α) (reuse : Bool) (random : Option Nat) (s : Solver) (d : Decide.State α) :
    Option (Nat × Decide.State α) :=
  if reuse = false then some (0, d)
  else if d.stable then reuseStable zero random s d
  else reuseFocused random s d

/-- `kissat_restart` (restart.c:118-132), the part concerning the trail.  The calls for queue and heap made by
backtracking are those of `Follows` (Core/Joint.lean). -/
def restart (zero : α) (reuse : Bool) (random : Option Nat) (s : Solver) (d : Decide.State α) :
    Option (Solver × Decide.State α) :=
  (reuseTrail zero reuse random s d).map fun (level, d) => (s.backtrack level, d)

/-- What `kissat_restarting` depends on.  `interval` is the option `restartint`. -/
structure Pace where
  enabled : Bool
  interval : Nat
  conflicts : Nat
  limit : Nat
  restarts : Nat
  stable : Bool

/-- `kissat_restarting` (restart.c:14-37).  `due` is the answer of the reluctant doubling sequence in stable mode and
the comparison of averages in focused mode. -/
def Pace.restarting (p : Pace) (level : Nat) (due : Bool) : Bool :=
  if p.enabled = false then false
  else if level = 0 then false
  else if p.conflicts < p.limit then false
  else due

/-- `kissat_update_focused_restart_limit` (restart.c:39-52).  `logn` is the result of `kissat_logn` (kimits.c:13-18)
rounded down, which is at least one.  Overflow of 64-bit numbers is left out. -/
def Pace.update (p : Pace) (logn : Nat → Nat) : Pace :=
  let delta := p.interval
  let delta := if p.restarts ≠ 0 then delta + logn p.restarts - 1 else delta
  { p with limit := p.conflicts + delta }

/-- What happens between and during restarts: a conflict; a test whether to restart, which is done if so; switching
modes (mode.c:150-185); a new call to search (kimits.c:99-120), which starts in either mode. -/
inductive Event
  | conflict
  | test (level : Nat) (due : Bool)
  | toStable
  | toFocused
  | search (stable : Bool)

/-- Effect of an event, and whether the solver restarts. -/
def Pace.step (logn : Nat → Nat) (p : Pace) : Event → Pace × Bool
  | .conflict => ({ p with conflicts := p.conflicts + 1 }, false)
  | .test level due =>
    if p.restarting level due then
      let p := { p with restarts := p.restarts + 1 }
      (if p.stable = false then p.update logn else p, true)
    else (p, false)
  | .toStable => ({ p with stable := true }, false)
  | .toFocused => (({ p with stable := false } : Pace).update logn, false)
  | .search stable =>
    let p := { p with stable := stable }
    (if stable = false then p.update logn else p, false)

/-- Restarts during a list of events: number of conflicts and whether in focused mode. -/
def Pace.run (logn : Nat → Nat) : Pace → List Event → List (Nat × Bool)
  | _, [] => []
  | p, e :: es =>
    if (p.step logn e).2 then (p.conflicts, !p.stable) :: (p.step logn e).1.run logn es
    else (p.step logn e).1.run logn es

end Verif.Model.Restart
