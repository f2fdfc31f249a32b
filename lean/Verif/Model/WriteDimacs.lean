import Verif.Model.Api
import Verif.Model.Printf

/-!
# Writing the formula: `krite.c`

The counter `BINIRR_CLAUSES` (statistics.h) is an argument, since the model of the search has no
statistics.
-/

namespace Verif.Core

open Verif.Model (printNat printInt)

/-- The binary clauses written (krite.c:15-24): each is watched by both literals and written for
the smaller one.  The branch for the state without blocking literals (krite.c:26-35) is the same. -/
def Solver.writtenBinaries (s : Solver) : List (List Nat) :=
  (List.range (2 * s.vars)).flatMap fun ilit => (s.watches ilit).filterMap fun
    | .binary iother => if iother < ilit then none else some [ilit, iother]
    | .large _ _ => none

/-- The clauses of the arena written (krite.c:37-38). -/
def Solver.writtenLarge (s : Solver) : List (List Nat) :=
  (s.arena.filter fun c => !c.garbage && !c.redundant).map Clause.lits

/-- `fprintf (file, "%d %d 0\n", elit, eother)` (krite.c:23). -/
def binaryText (x y : Int) : List Nat := printInt x ++ [32] ++ printInt y ++ [32, 48, 10]

/-- Writing a large clause (krite.c:39-43). -/
def largeText (c : List Int) : List Nat := (c.map fun e => printInt e ++ [32]).flatten ++ [48, 10]

/-- `kissat_write_dimacs` (krite.c:8-45) for a table of imported variables of this size and the function
`kissat_export_literal`. -/
def Solver.writeDimacs (s : Solver) (imported : Nat) (exportLiteral : Nat → Int) (binirr : Nat) : List Nat :=
  let imported := if imported ≠ 0 then imported - 1 else imported
  [112, 32, 99, 110, 102, 32] ++ printNat imported ++ [32] ++ printNat binirr ++ [10] ++
  (s.writtenBinaries.map fun c => binaryText (exportLiteral (c.getD 0 0)) (exportLiteral (c.getD 1 0))).flatten ++
  (s.writtenLarge.map fun c => largeText (c.map exportLiteral)).flatten

/-- The same for a solver without preprocessing and inprocessing. -/
def Api.writeDimacs (a : Api) (binirr : Nat) : List Nat := a.s.writeDimacs a.imports.length a.exportLiteral binirr

end Verif.Core
