import Verif.Model.Core.Backtrack

/-!
# Conflict analysis: `analyze.c`, `deduce.c`, `strengthen.c`, `learn.c`
-/

namespace Verif.Core

open Verif.Spec (neg)

/-! ## Reusing the conflict as driving clause -/

/-- Variables of the scan in `one_literal_on_conflict_level` (analyze.c:21-24);
`none` is `INVALID_LEVEL`. -/
structure Scan where
  jump : Option Nat
  conflict : Option Nat
  count : Nat
  forced : Nat

/-- The scan loop (analyze.c:32-50). -/
def scanConflict (s : Solver) : List Nat → Scan → Scan
  | [], t => t
  | lit :: rest, t =>
    let l := s.lev lit
    let t' : Scan :=
      if t.conflict.all (· < l) then ⟨t.conflict, some l, 1, lit⟩
      else
        ⟨if t.jump.all (· < l) then some l else t.jump, t.conflict,
          if t.conflict = some l then t.count + 1 else t.count, t.forced⟩
    if 1 < t'.count ∧ t'.conflict = some s.level then t' else scanConflict s rest t'

/-- Position of the first literal of highest level (analyze.c:76-90, learn.c:87-104,
strengthen.c:52-63).  `stop` is the level at which the search ends early. -/
def findHighest (lev : Nat → Nat) (stop : Option Nat) : List Nat → Nat → Nat → Nat → Nat
  | [], _, pos, _ => pos
  | l :: ls, j, pos, best =>
    if lev l ≤ best then findHighest lev stop ls (j + 1) pos best
    else if stop = some (lev l) then j
    else findHighest lev stop ls (j + 1) j (lev l)

/-- Swap two positions of a list. -/
def swapLits (lits : List Nat) (i j : Nat) : List Nat :=
  (lits.set j (lits.getD i 0)).set i (lits.getD j 0)

/-- One iteration of the loop moving the literals of highest level to the front
(analyze.c:73-102). -/
def moveHighest (conflictLevel ref i : Nat) (s : Solver) : Solver :=
  let c := s.clause ref
  let lit := c.lits.getD i 0
  let j := findHighest s.lev (some conflictLevel) (c.lits.drop (i + 1)) (i + 1) i (s.lev lit)
  if j = i then s
  else
    let other := c.lits.getD j 0
    let s := if 1 < j then s.unwatch lit ref else s
    let lits := swapLits c.lits i j
    let s := s.setClause ref { c with lits := lits }
    if 1 < j then s.pushWatch other (.large (lits.getD (1 - i) 0) ref) else s

/-- `kissat_determine_new_level` with `backjump_limit` (learn.c:8-42). -/
def Solver.determineNewLevel (s : Solver) (jump : Nat) : Nat :=
  let back := s.level - 1
  let delta := back - jump
  let limit := if s.options.chrono then s.options.chronolevels else 2 ^ 32 - 1
  if delta = 0 then jump else if limit < delta then back else jump

/-- Outcome of `one_literal_on_conflict_level`. -/
inductive OneLit
  /-- conflict level zero: inconsistent -/
  | root
  /-- the conflict drove an assignment -/
  | forced
  /-- continue with the given conflict level -/
  | many (level : Nat)
  deriving DecidableEq

/-- `one_literal_on_conflict_level` (analyze.c:16-128). -/
def oneLiteral (s : Solver) (conflict : Conflict) : Solver × OneLit :=
  let t := scanConflict s (s.conflictLits conflict) ⟨none, none, 0, 0⟩
  let conflictLevel := t.conflict.getD 0
  if conflictLevel = 0 then ({ s with inconsistent := true }.emit (.add []), .root)
  else
    let s := if conflictLevel < s.level then s.backtrackAfterConflict conflictLevel else s
    let s :=
      match conflict with
      | .large ref => moveHighest conflictLevel ref 1 (moveHighest conflictLevel ref 0 s)
      | .binary _ _ => s
    if 1 < t.count then (s, .many conflictLevel)
    else
      let s := s.backtrackAfterConflict (s.determineNewLevel (t.jump.getD 0))
      match conflict with
      | .binary a b => (s.assignBinary t.forced (a ^^^ b ^^^ t.forced), .forced)
      | .large ref => (s.assignReference t.forced ref, .forced)

/-! ## Failed literals -/

/-- State of `analyze_failed_literal`: `none` for `done` means the negation of the
failed literal was not seen yet. -/
structure Failed where
  analyzed : List Nat
  unresolved : Nat
  units : List Nat
  done : Bool

/-- The loops over the conflict and over reason literals
(analyze.c:410-426, 443-492): stops when the negated failed literal occurs. -/
def failedLits (s : Solver) (notFailed : Nat) : List Nat → Failed → Failed
  | [], t => t
  | lit :: rest, t =>
    if lit = notFailed then { t with done := true }
    else if s.lev lit = 0 ∨ lit / 2 ∈ t.analyzed then failedLits s notFailed rest t
    else failedLits s notFailed rest
      { t with analyzed := lit / 2 :: t.analyzed, unresolved := t.unresolved + 1 }

/-- Literals of the reason of the true literal `lit` other than `lit`. -/
def Solver.antecedents (s : Solver) (lit : Nat) : List Nat :=
  match (s.assigned (lit / 2)).reason with
  | .binary other => [other]
  | .large ref => (s.clause ref).lits.filter (· ≠ lit)
  | _ => []

/-- The main loop of `analyze_failed_literal` (analyze.c:428-497) over the reversed
trail.  The C code skips `unit`, the negation of an already resolved literal, which
the `analyzed` mark skips here as well. -/
def failedLoop (s : Solver) (notFailed : Nat) : List Nat → Failed → Failed
  | [], t => t
  | lit :: rest, t =>
    if t.done then t
    else if lit / 2 ∈ t.analyzed then
      let t := if t.unresolved = 1 then { t with units := t.units ++ [neg lit] } else t
      let t := failedLits s notFailed (s.antecedents lit) t
      if t.done then t
      else failedLoop s notFailed rest { t with unresolved := t.unresolved - 1 }
    else failedLoop s notFailed rest t

/-- `analyze_failed_literal` (analyze.c:390-517).  `probing` is false. -/
def analyzeFailed (s : Solver) (conflict : Conflict) : Solver :=
  let notFailed := neg ((s.frames[0]?.map Frame.decision).getD 0)
  let t := failedLits s notFailed (s.conflictLits conflict) ⟨[], 0, [], false⟩
  let t := failedLoop s notFailed s.trail.reverse t
  let units := t.units ++ [notFailed]
  let s := s.backtrack 0
  let s := units.foldl Solver.learnedUnit s
  { s with iterating := true }

/-! ## First UIP clause -/

/-- State of `kissat_deduce_first_uip_clause`.  `clause` leaves out its first
element, which is filled in last. -/
structure Analysis where
  analyzed : List Nat
  clause : List Nat
  levels : List Nat
  antecedentSize : Nat
  resolventSize : Nat
  unresolved : Nat

/-- `analyze_literal` (deduce.c:39-68) together with the increment of
`unresolved_on_current_level` by its callers.  `frame->used` is recovered as the
number of literals of the level in `clause`. -/
def analyzeLiteral (s : Solver) (t : Analysis) (lit : Nat) : Analysis :=
  let level := s.lev lit
  if level = 0 then t
  else
    let t := { t with antecedentSize := t.antecedentSize + 1 }
    if lit / 2 ∈ t.analyzed then t
    else
      let t := { t with
        analyzed := lit / 2 :: t.analyzed, resolventSize := t.resolventSize + 1 }
      if level = s.level then { t with unresolved := t.unresolved + 1 }
      else { t with
        clause := t.clause ++ [lit]
        levels := if level ∈ t.levels then t.levels else t.levels ++ [level] }

/-- Outcome of the resolution loop. -/
inductive Deduced
  /-- first UIP found -/
  | uip (lit : Nat) (t : Analysis)
  /-- reason of the literal can be strengthened; `n` resolutions were done -/
  | strengthen (lit : Nat) (t : Analysis) (n : Nat)
  /-- the trail is exhausted, never happens (`deduce_not_stuck`) -/
  | stuck

/-- The resolution loop of `kissat_deduce_first_uip_clause` (deduce.c:103-158)
over the reversed trail. -/
def deduceLoop (s : Solver) : List Nat → Analysis → Nat → Deduced
  | [], _, _ => .stuck
  | lit :: rest, t, n =>
    if lit / 2 ∈ t.analyzed ∧ s.lev lit = s.level then
      if t.unresolved = 1 then .uip lit t
      else
        let t := (s.antecedents lit).foldl (analyzeLiteral s) { t with antecedentSize := 1 }
        let t := { t with unresolved := t.unresolved - 1, resolventSize := t.resolventSize - 1 }
        if s.options.otfs ∧ 2 < t.antecedentSize ∧ t.resolventSize < t.antecedentSize then
          .strengthen lit t (n + 1)
        else deduceLoop s rest t (n + 1)
    else deduceLoop s rest t n

/-- `kissat_mark_clause_as_garbage` (clause.c:150-167). -/
def Solver.markGarbage (s : Solver) (ref : Nat) : Solver :=
  let c := s.clause ref
  (s.emit (.delete c.lits)).setClause ref { c with garbage := true }

/-- Literals kept by `kissat_shrink_clause_in_proof` (proof.c:361-368). -/
def Solver.shrunkenInProof (s : Solver) (lits : List Nat) (remove keep : Nat) : List Nat :=
  lits.filter fun l => l ≠ remove ∧ (l = keep ∨ ¬ (s.values l < 0 ∧ s.lev l = 0))

/-- `large_on_the_fly_strengthen` (strengthen.c:6-96). -/
def strengthenLarge (s : Solver) (ref lit : Nat) : Solver × Conflict :=
  let c := s.clause ref
  let lits := if c.lits.getD 0 0 = lit then swapLits c.lits 0 1 else c.lits
  let s := s.unwatch lit ref
  let s := (s.emit (.add (s.shrunkenInProof lits lit (lits.getD 0 0)))).emit (.delete lits)
  let first := lits.getD 0 0
  let rest := (lits.drop 2).filter fun l => s.lev l ≠ 0
  let lits := first :: rest
  let j := findHighest s.lev none (lits.drop 2) 2 1 (s.lev (lits.getD 1 0))
  let lits := swapLits lits 1 j
  let second := lits.getD 1 0
  let s := s.setClause ref { c with lits := lits, searched := 2 }
  let s := s.pushWatch second (.large first ref)
  let s := { s with
    watches := upd s.watches first ((s.watches first).map fun w =>
      if w.ref? = some ref then .large second ref else w) }
  (s, .large ref)

/-- `binary_on_the_fly_strengthen` (strengthen.c:98-140) with
`kissat_new_binary_clause` (clause.c:64-79, 120-123).  As in a build without
assertions the last literal found becomes `second`. -/
def strengthenBinary (s : Solver) (ref lit : Nat) : Solver × Conflict :=
  let c := s.clause ref
  let others := c.lits.filter fun l => l ≠ lit ∧ s.lev l ≠ 0
  let first := others.head?.getD 0
  let second := others.getLast?.getD 0
  let s := (s.watchBinary first second).emit (.add [first, second])
  let s := (s.unwatch (c.lits.getD 0 0) ref).unwatch (c.lits.getD 1 0) ref
  (s.markGarbage ref, .binary first second)

/-- `kissat_on_the_fly_strengthen` (strengthen.c:142-154). -/
def strengthen (s : Solver) (antecedentSize ref lit : Nat) : Solver × Conflict :=
  if antecedentSize = 3 then strengthenBinary s ref lit else strengthenLarge s ref lit

/-- `kissat_on_the_fly_subsume` (strengthen.c:156-187). -/
def subsume (s : Solver) (res : Conflict) (ref : Nat) : Solver :=
  let s := s.markGarbage ref
  match res with
  | .binary _ _ => s
  | .large r =>
    if (s.clause ref).redundant then s
    else s.setClause r { s.clause r with redundant := false }

/-! ## Learning -/

/-- `learn_unit` (learn.c:44-54). -/
def learnUnit (s : Solver) (notUip : Nat) : Solver :=
  let s := (s.backtrackAfterConflict (s.determineNewLevel 0)).learnedUnit notUip
  { s with iterating := true }

/-- `learn_binary` (learn.c:56-68) with `new_binary_clause` (clause.c:64-79). -/
def learnBinary (s : Solver) (notUip other : Nat) : Solver :=
  let s := s.backtrackAfterConflict (s.determineNewLevel (s.lev other))
  let s := (s.watchBinary notUip other).emit (.add [notUip, other])
  s.assignBinary notUip other

/-- `new_large_clause` (clause.c:81-107) for a learned clause in watching mode. -/
def newRedundant (s : Solver) (lits : List Nat) : Solver :=
  let ref := s.arena.length
  let s := { s with arena := s.arena ++ [({ lits := lits, garbage := false, redundant := true, searched := 2 } : Clause)] }
  (s.watchReference (lits.getD 0 0) (lits.getD 1 0) ref).emit (.add lits)

/-- `learn_reference` (learn.c:81-116).  `lits` is the learned clause. -/
def learnReference (s : Solver) (lits : List Nat) : Solver :=
  let notUip := lits.getD 0 0
  let j := findHighest s.lev (some (s.level - 1)) (lits.drop 2) 2 1 (s.lev (lits.getD 1 0))
  let jumpLevel := s.lev (lits.getD j 0)
  let lits := swapLits lits 1 j
  let ref := s.arena.length
  let s := newRedundant s lits
  let s := s.backtrackAfterConflict (s.determineNewLevel jumpLevel)
  s.assignReference notUip ref

/-- The literal loop of `eagerly_subsume_last_learned` (learn.c:168-175); returns
the final value of `needed`. -/
def subsumeLoop (clause : List Nat) : List Nat → Nat → Nat → Nat
  | [], needed, _ => needed
  | lit :: rest, needed, remain =>
    if lit ∈ clause then
      if needed - 1 = 0 then 0
      else if remain - 1 < needed - 1 then needed - 1
      else subsumeLoop clause rest (needed - 1) (remain - 1)
    else if remain - 1 < needed then needed
    else subsumeLoop clause rest needed (remain - 1)

/-- One iteration of the loop over the last learned clauses (learn.c:155-183). -/
def eagerlySubsumeOne (clause : List Nat) (s : Solver) (ref : Option Nat) :
    Solver × Option Nat :=
  match ref with
  | none => (s, none)
  | some r =>
    let c := s.clause r
    if c.garbage ∨ ¬ c.redundant ∨ c.lits.length ≤ clause.length ∨
        subsumeLoop clause c.lits clause.length c.lits.length ≠ 0 then (s, some r)
    else (s.markGarbage r, none)

/-- The loop over the last learned clauses. -/
def eagerlySubsumeLoop (clause : List Nat) :
    List (Option Nat) → Solver → Solver × List (Option Nat)
  | [], s => (s, [])
  | r :: rs, s =>
    match eagerlySubsumeOne clause s r with
    | (s, r) =>
      match eagerlySubsumeLoop clause rs s with
      | (s, rs) => (s, r :: rs)

/-- `eagerly_subsume_last_learned` with `flush_last_learned` (learn.c:133-188). -/
def eagerlySubsume (clause : List Nat) (s : Solver) : Solver :=
  match eagerlySubsumeLoop clause s.lastLearned s with
  | (s, rs) =>
    let valid := rs.filter Option.isSome
    { s with lastLearned := valid ++ List.replicate (rs.length - valid.length) none }

/-- `insert_last_learned` (learn.c:70-79). -/
def insertLastLearned (s : Solver) (ref : Nat) : Solver :=
  { s with lastLearned := (some ref :: s.lastLearned).take s.lastLearned.length }

/-- `kissat_learn_clause` (learn.c:190-210). -/
def learnClause (s : Solver) (clause : List Nat) : Solver :=
  match clause with
  | [] => s
  | [u] =>
    let s := learnUnit s u
    if s.options.eagersubsume ≠ 0 then eagerlySubsume clause s else s
  | [u, o] =>
    let s := learnBinary s u o
    if s.options.eagersubsume ≠ 0 then eagerlySubsume clause s else s
  | _ =>
    let ref := s.arena.length
    let s := learnReference s clause
    if s.options.eagersubsume ≠ 0 then insertLastLearned (eagerlySubsume clause s) ref else s

end Verif.Core
