import Verif.Model.Core.Search
import Verif.Spec.ProofFormat

/-!
# The library interface: `internal.c`, `import.c`, `flags.c`

Simplifications: memory allocation is left out; the option `tumble` does not change;
lucky phases, preprocessing, probing and elimination are disabled (options
`luckyearly`, `luckylate`, `preprocess`, `probing`, `eliminate` zero); the C type
`int` of arguments is `Int`.
-/

namespace Verif.Core

open Verif.Spec (neg ProofLine)

/-- `struct import` (internal.h:26-33) without elimination and extension flags. -/
structure Import where
  lit : Nat
  imported : Bool
  deriving DecidableEq, Repr

/-- The parts of `struct kissat` used by the interface. -/
structure Api where
  s : Solver
  /-- `solver->import` -/
  imports : List Import
  /-- `solver->export` -/
  exports : List Nat
  /-- `solver->marks` -/
  marks : Nat → Int
  /-- `solver->clause` -/
  clause : List Nat
  /-- `solver->original` from `offset_of_last_original_clause`, as internal literals
  (the code stores the external ones) -/
  original : List Nat
  satisfied : Bool
  trivial : Bool
  shrink : Bool
  /-- statistics counter `searches` -/
  searches : Nat
  conflictLimit : Option Nat
  decisionLimit : Option Nat
  /-- `termination.flagged` -/
  flagged : Bool
  /-- `termination.terminate` and `termination.state`: what the callback returns at
  each invocation -/
  callback : Option (Nat → Int)
  tumble : Bool
  probeinit : Nat
  eliminateinit : Nat

/-- `kissat_init` (internal.c:25-49): everything zero, except `last_learned` which is
`INVALID_REF`. -/
def Api.init (options : Options) (tumble : Bool) (probeinit eliminateinit : Nat) : Api where
  s := { vars := 0, removed := fun _ => true, values := fun _ => 0,
         assigned := fun _ => ⟨0, 0, .unit⟩, trail := [], propagate := 0, frames := [],
         level := 0, unassigned := 0, unflushed := 0, watches := fun _ => [], arena := [],
         inconsistent := false, iterating := false, lastLearned := List.replicate 4 none,
         conflicts := 0, decisions := 0, proof := [], options := options }
  imports := []
  exports := []
  marks := fun _ => 0
  clause := []
  original := []
  satisfied := false
  trivial := false
  shrink := false
  searches := 0
  conflictLimit := none
  decisionLimit := none
  flagged := false
  callback := none
  tumble := tumble
  probeinit := probeinit
  eliminateinit := eliminateinit

/-- Result of a call: `rejected` is the abort in `kissat_require` (require.h:4-14),
`undefined` is a state in which the code violates its own assertions. -/
inductive Result (α : Type)
  | ok (a : α)
  | rejected
  | undefined

/-- `EXTERNAL_MAX_VAR` (literal.h:9). -/
def externalMaxVar : Nat := 2 ^ 30 - 1

/-- `kissat_require_valid_external_internal` (require.h:19-28). -/
def validExternal (e : Int) : Bool := e.natAbs ≤ externalMaxVar

/-- `adjust_imports_for_external_literal` (import.c:5-15). -/
def Api.adjustImports (a : Api) (eidx : Nat) : Api :=
  { a with imports := a.imports ++ List.replicate (eidx + 1 - a.imports.length) ⟨0, false⟩ }

/-- `adjust_exports_for_external_literal` (import.c:17-38). -/
def Api.adjustExports (a : Api) (eidx : Nat) : Api :=
  let iidx := a.s.vars
  let exports := a.exports ++ List.replicate (iidx + 1 - a.exports.length) 0
  { a with
    s := { a.s with vars := iidx + 1 }
    imports := a.imports.set eidx ⟨2 * iidx, true⟩
    exports := exports.set iidx eidx }

/-- `import_literal` (import.c:40-56) with `extension` false. -/
def Api.importLiteral1 (a : Api) (e : Int) : Api × Nat :=
  let eidx := e.natAbs
  let a := a.adjustImports eidx
  let a := if (a.imports.getD eidx ⟨0, false⟩).imported then a else a.adjustExports eidx
  let ilit := (a.imports.getD eidx ⟨0, false⟩).lit
  (a, if e < 0 then neg ilit else ilit)

/-- The loop in `kissat_import_literal` (import.c:71-74): imports the `n` variables from
`other` on; returns the literal of the last one. -/
def importRange : Nat → Nat → Api × Nat → Api × Nat
  | 0, _, p => p
  | n + 1, other, p => importRange n (other + 1) (p.1.importLiteral1 (other : Int))

/-- `kissat_import_literal` (import.c:58-80). -/
def Api.importLiteral (a : Api) (e : Int) : Api × Nat :=
  if a.tumble then a.importLiteral1 e
  else
    let eidx := e.natAbs
    if eidx < a.imports.length then a.importLiteral1 e
    else
      let a := if a.imports.length = 0 then a.adjustImports 0 else a
      let other := a.imports.length
      match importRange (eidx + 1 - other) other (a, 0) with
      | (a, ilit) => (a, if e < 0 then neg ilit else ilit)

/-- `kissat_export_literal` (inline.h:197-207). -/
def Api.exportLiteral (a : Api) (ilit : Nat) : Int :=
  let e : Int := a.exports.getD (ilit / 2) 0
  if e = 0 then 0 else if ilit % 2 = 1 then - e else e

/-- `activate_literal` (flags.c:5-34).  The flag `active` is `removed` negated for
variables without root level value. -/
def Solver.activate (s : Solver) (lit : Nat) : Solver :=
  if s.removed (lit / 2) then
    { s with removed := upd s.removed (lit / 2) false, unassigned := s.unassigned + 1 }
  else s

/-- `kissat_activate_literals` (flags.c:54-58). -/
def Solver.activateAll (s : Solver) (lits : List Nat) : Solver := lits.foldl Solver.activate s

/-- `kissat_new_original_clause` (clause.c:130-136, 52-118).  At level zero
`kissat_sort_literals` (sort.c) leaves the clause as it is, since its literals are
unassigned. -/
def Solver.newOriginal (s : Solver) : List Nat → Solver
  | [a, b] => s.watchBinary a b
  | lits =>
    let ref := s.arena.length
    ({ s with arena := s.arena ++ [⟨lits, false, false, 2⟩] } : Solver).watchReference
      (lits.getD 0 0) (lits.getD 1 0) ref

/-- `kissat_add` with a non zero literal (internal.c:266-309). -/
def Api.addLiteral (a : Api) (e : Int) : Api :=
  match a.importLiteral e with
  | (b, ilit) =>
    let a : Api := { b with original := b.original ++ [ilit] }
    if a.marks ilit = 0 then
      let value := a.s.fixed ilit
      if 0 < value then { a with satisfied := true }
      else if value < 0 then { a with shrink := true }
      else { a with
        marks := upd (upd a.marks ilit 1) (neg ilit) (-1)
        clause := a.clause ++ [ilit] }
    else if a.marks ilit < 0 then { a with trivial := true }
    else { a with shrink := true }

/-- The part of `kissat_add` with argument zero that changes the solver
(internal.c:322-412).  At level zero no literal of the clause has a value, so the
cases which assign a literal immediately (internal.c:359-410) are not reached. -/
def Api.addClause (a : Api) : Solver :=
  if a.s.inconsistent then a.s
  else if a.satisfied then a.s
  else if a.trivial then a.s
  else
    let s := a.s.activateAll a.clause
    match a.clause with
    | [] => { s with inconsistent := true }.emit (.add [])
    | [unit] =>
      let s := s.assignUnit unit
      if s.level = 0 then (searchPropagate s).1 else s
    | lits => s.newOriginal lits

/-- The proof lines written at the end of `kissat_add` with argument zero
(internal.c:414-442). -/
def Api.addLines (a : Api) (s : Solver) : Solver :=
  if a.satisfied || a.trivial then
    if a.original.length = 1 then s else s.emit (.delete a.original)
  else if !s.inconsistent && a.shrink then
    (s.emit (.add a.clause)).emit (.delete a.original)
  else s

/-- `kissat_add` with argument zero (internal.c:310-464). -/
def Api.addZero (a : Api) : Api :=
  { a with
    s := a.addLines a.addClause
    marks := fun l => if l ∈ a.clause ∨ neg l ∈ a.clause then 0 else a.marks l
    clause := []
    original := []
    satisfied := false
    trivial := false
    shrink := false }

/-- `kissat_add` (internal.c:258-465). -/
def Api.add (a : Api) (e : Int) : Result Api :=
  if a.searches ≠ 0 then .rejected
  else if e ≠ 0 then
    if validExternal e then .ok (a.addLiteral e) else .rejected
  else .ok a.addZero

/-- `kissat_terminate` (internal.c:475-479). -/
def Api.terminate (a : Api) : Api := { a with flagged := true }

/-- `kissat_set_terminate` (internal.c:481-486).  The field it sets is never read. -/
def Api.setTerminate (a : Api) (callback : Option (Nat → Int)) : Api :=
  { a with callback := callback }

/-- `kissat_set_conflict_limit` (internal.c:212-222). -/
def Api.setConflictLimit (a : Api) (limit : Nat) : Api :=
  { a with conflictLimit := some (a.s.conflicts + limit) }

/-- `kissat_set_decision_limit` (internal.c:200-210). -/
def Api.setDecisionLimit (a : Api) (limit : Nat) : Api :=
  { a with decisionLimit := some (a.s.decisions + limit) }

/-- `kissat_reserve` (internal.c:159-172).  Activating a variable that is fixed
violates the assertion in flags.c:13. -/
def Api.reserve (a : Api) (maxVar : Int) : Result Api :=
  if maxVar < 0 then .rejected
  else if externalMaxVar < maxVar.natAbs then .rejected
  else if a.tumble then .ok a
  else
    let n := maxVar.natAbs
    let a := (List.range n).foldl (fun a idx => (a.importLiteral ((idx : Int) + 1)).1) a
    if (List.range n).any fun idx => a.s.values (2 * idx) ≠ 0 then .undefined
    else .ok { a with s := a.s.activateAll ((List.range n).map (2 * ·)) }

/-- `kissat_propagated` (inline.h:15-19) and `searching` (search.c:167-177). -/
def Api.searching (a : Api) : Bool :=
  if a.s.propagate ≠ a.s.trail.length then true
  else if a.probeinit = 0 then true
  else if a.eliminateinit = 0 then true
  else if limitHit a.conflictLimit a.s.conflicts then false
  else true

/-- Result of `kissat_solve`. -/
inductive Solved
  | rejected
  /-- the given oracles do not suffice -/
  | running
  | stuck
  | done (a : Api) (res : Nat)

/-- `kissat_solve` (internal.c:467-473) and `kissat_search` (search.c:179-229), with
`start_search` (search.c:45-100) and `stop_search` (search.c:102-127).  The `oracles`
stand for the heuristics and concurrent calls of `kissat_terminate`. -/
def Api.solve (a : Api) (oracles : List Oracle) : Solved :=
  if a.clause ≠ [] then .rejected
  else if a.searches ≠ 0 then .rejected
  else if a.s.inconsistent then .done a 20
  else if !a.searching then .done a 0
  else
    match searchLoop oracles ⟨a.s, a.conflictLimit, a.decisionLimit, a.flagged⟩ with
    | none => .running
    | some (.next _) => .stuck
    | some .stuck => .stuck
    | some (.done t res) =>
      let t := stopSearch t
      .done { a with s := t.s, conflictLimit := t.conflictLimit,
                     decisionLimit := t.decisionLimit, flagged := t.flagged,
                     searches := a.searches + 1 } res

/-- `kissat_value` (internal.c:488-512) without eliminated variables. -/
def Api.value (a : Api) (e : Int) : Result Int :=
  if !validExternal e then .rejected
  else
    let eidx := e.natAbs
    match a.imports[eidx]? with
    | none => .ok 0
    | some i =>
      if !i.imported then .ok 0
      else
        let tmp := a.s.values i.lit
        if tmp = 0 then .ok 0
        else
          let tmp := if e < 0 then - tmp else tmp
          .ok (if tmp < 0 then - e else e)

/-- The proof lines in external literals (`kissat_export_literal` is applied by the
proof writer, proof.c:137-147; entries of `export` never change). -/
def Api.proofLines (a : Api) : List ProofLine :=
  a.s.proof.map fun
    | .add c => .add (c.map a.exportLiteral)
    | .delete c => .delete (c.map a.exportLiteral)

/-- Calls a user can make (besides options and queries). -/
inductive Call
  | add (e : Int)
  | reserve (maxVar : Int)
  | terminate
  | setTerminate (callback : Option (Nat → Int))
  | setConflictLimit (limit : Nat)
  | setDecisionLimit (limit : Nat)
  | solve (oracles : List Oracle)

/-- Execution of a call.  `ret` is the return value of `kissat_solve`, zero otherwise. -/
inductive ApiStep : Api → Call → Api → Nat → Prop
  | add {a e a'} : a.add e = .ok a' → ApiStep a (.add e) a' 0
  | reserve {a n a'} : a.reserve n = .ok a' → ApiStep a (.reserve n) a' 0
  | terminate {a} : ApiStep a .terminate a.terminate 0
  | setTerminate {a f} : ApiStep a (.setTerminate f) (a.setTerminate f) 0
  | setConflictLimit {a n} : ApiStep a (.setConflictLimit n) (a.setConflictLimit n) 0
  | setDecisionLimit {a n} : ApiStep a (.setDecisionLimit n) (a.setDecisionLimit n) 0
  | solve {a os a' res} : a.solve os = .done a' res → ApiStep a (.solve os) a' res

/-- The oracles used in a call: `kissat_decide` looks at all active variables. -/
def Call.Fair (s : Solver) : Call → Prop
  | .solve os => ∀ o ∈ os, ∀ v, v ∈ o.order ↔ v < s.vars ∧ s.removed v = false
  | _ => True

/-- `Run a calls a'`: executing the calls one after the other leads from `a` to `a'`. -/
inductive Run (a : Api) : List Call → Api → Prop
  | nil : Run a [] a
  | snoc {cs b c b' ret} : Run a cs b → c.Fair b.s → ApiStep b c b' ret → Run a (cs ++ [c]) b'

/-- The integers added by the calls. -/
def addedInts (cs : List Call) : List Int :=
  cs.filterMap fun
    | .add e => some e
    | _ => none

end Verif.Core
