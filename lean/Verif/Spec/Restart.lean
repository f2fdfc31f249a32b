import Verif.Model.Core.Joint

/-! # Priority of variables -/

namespace Verif.Spec.Restart

open Verif.Model

variable {α : Type} [LinearOrder α]

/-- Variable `v` is decided before variable `w`: in stable mode it has the larger score, in focused mode it comes
later in the queue. -/
def Prefers (zero : α) (d : Decide.State α) (v w : Nat) : Prop :=
  if d.stable then d.heap.getScore zero w < d.heap.getScore zero v else [w, v].Sublist d.queue.forward

end Verif.Spec.Restart
