import Verif.Model.Api

/-! # Reachable states of the solver -/

namespace Verif.Core

/-- States at the beginning of an iteration of the search loop (search.c:194-224)
started from `a`. -/
inductive Searching (a : Api) : Search → Prop
  | start : a.searches = 0 → a.s.inconsistent = false →
      Searching a ⟨a.s, a.conflictLimit, a.decisionLimit, a.flagged⟩
  | next {t o t'} : Searching a t → (∀ v, v ∈ o.order ↔ v < t.s.vars ∧ t.s.removed v = false) →
      iteration o t = .next t' → Searching a t'

end Verif.Core
