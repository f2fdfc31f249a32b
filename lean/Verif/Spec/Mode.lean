/-! # Lengths of phases in focused and stable mode -/

namespace Verif.Spec.Mode

/-- A point of the search: numbers of conflicts and of ticks, which measure propagation effort. -/
structure Mark where
  conflicts : Nat
  ticks : Nat
deriving DecidableEq

/-- The current phase of the search may end at `now`.  The marks are where phases started, the newest first, and the
last one is where search started, in focused mode.  Modes alternate.  A phase in focused mode takes at least
`bound k` conflicts if `k` phases in focused mode came before.  A phase in stable mode takes at least as many
ticks as the phase in focused mode before. -/
def MayEnd (bound : Nat → Nat) (now : Mark) : List Mark → Prop
  | [] => False
  | [m] => m.conflicts + bound 0 ≤ now.conflicts
  | m :: m' :: ms =>
    if ms.length % 2 = 0 then m.ticks - m'.ticks ≤ now.ticks - m.ticks
    else m.conflicts + bound ((ms.length + 1) / 2) ≤ now.conflicts

/-- All completed phases ended when they might. -/
def Lengths (bound : Nat → Nat) : List Mark → Prop
  | [] => False
  | [_] => True
  | a :: m :: ms => (m.conflicts ≤ a.conflicts ∧ m.ticks ≤ a.ticks ∧ MayEnd bound a (m :: ms)) ∧ Lengths bound (m :: ms)

end Verif.Spec.Mode
