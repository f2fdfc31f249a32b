import Verif.Model.Whole
import Verif.Model.WriteDimacs

/-!
# Writing the formula after solving

With `-o` the application writes the formula after `kissat_solve` has returned, whatever the answer is
(application.c:844-862).
-/

namespace Verif.Whole

/-- `kissat_write_dimacs` (krite.c:8-45) for a solver with preprocessing and inprocessing.  The counter
`BINIRR_CLAUSES` is an argument. -/
def State.writeDimacs (w : State) (binirr : Nat) : List Nat :=
  w.t.s.writeDimacs w.tables.imports.length w.tables.exportLiteral binirr

end Verif.Whole
