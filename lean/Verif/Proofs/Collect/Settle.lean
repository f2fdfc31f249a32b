import Verif.Proofs.Core.Search

/-! # Garbage is collected in settled states -/

namespace Verif.Core

open Verif.Spec

/-- After `kissat_reduce` marked garbage. -/
theorem reduce_settled {orig : Base} [Deletes orig] {G : Assignment → Prop} {s : Solver}
    (h : PropInv orig G s) (hp : s.propagate = s.trail.length)
    (h0 : s.level = 0 → s.unflushed = 0) (hn : s.unflushed ≠ 0 → s.rootConflict = false) (refs : List Nat) :
    Settled (s.markReducible refs) := by
  obtain ⟨a, _, a1, a2, _⟩ := markReducible_ok h hp h0 hn refs
  exact ⟨a.ok.inv, by have := a.watching; rw [a1] at this; exact this, a2⟩

end Verif.Core
