import Verif.Model.Reach
import Verif.Model.Whole

/-! # Reachable states of the whole solver -/

namespace Verif.Core

/-- States at the beginning of an iteration of the search loop (search.c:194-224) after any sequence of
calls of the library: `whole` with lucky phases, preprocessing, and inprocessing by any sequence of techniques before any
iteration, `search` for the search loop alone. -/
inductive Reachable : Search → Prop
  | search {options tumble probeinit eliminateinit calls a t} : Run (Api.init options tumble probeinit eliminateinit) calls a →
      Searching a t → Reachable t
  | whole {options tumble probeinit eliminateinit calls a o preprocess w} :
      Run (Api.init options tumble probeinit eliminateinit) calls a → Whole.Searching o preprocess a w → Reachable w.t

/-- States in which `kissat_analyze` looks at a conflict (analyze.c:542-576). -/
inductive Analysing : Solver → Conflict → Prop
  | start {t s c} : Reachable t → searchPropagate t.s = (s, some c) → s.level ≠ 0 →
      Analysing s c
  | again {s c s' c'} : Analysing s c → analyzeStep s c = .again s' c' → Analysing s' c'

/-- States of the solver at these points. -/
inductive Seen : Solver → Prop
  | loop {t} : Reachable t → Seen t.s
  | propagated {t} : Reachable t → Seen (searchPropagate t.s).1
  | analysing {s c} : Analysing s c → Seen s
  | several {s c lv} : Analysing s c → (oneLiteral s c).2 = .many lv → Seen (oneLiteral s c).1

end Verif.Core
