import Verif.Model.Core.Analyze

/-!
# Clause minimization and shrinking: `minimize.c`, `shrink.c`, and the loop of
`kissat_analyze`
-/

namespace Verif.Core

open Verif.Spec (neg)

/-- The `removable` and `poisoned` marks, as lists of variables. -/
structure Marks where
  removable : List Nat
  poisoned : List Nat

/-- `minimized_index` (minimize.c:4-40): `some true` is 1, `some false` is -1,
`none` is 0.  `used` is `frame->used` by level, `top` is `!depth`. -/
def minimizedIndex (s : Solver) (used : Nat → Nat) (m : Marks) (minimizing top : Bool)
    (v : Nat) : Option Bool :=
  let a := s.assigned v
  if a.level = 0 then some true
  else if v ∈ m.removable ∧ ¬ top then some true
  else if a.reason = .decision then some false
  else if v ∈ m.poisoned then some false
  else if (minimizing ∨ top) ∧ used a.level ≤ 1 then some false
  else none

/-- The loop along binary reasons in `minimize_binary` (minimize.c:65-81).  The
first argument bounds the number of iterations.  Returns the variables pushed on
`solver->minimize` and either the result or the literal and reference whose reason
still has to be minimized. -/
def minimizeChain (s : Solver) (used : Nat → Nat) (m : Marks) (minimizing : Bool) :
    Nat → Nat → List Nat → List Nat × (Bool ⊕ Nat × Nat)
  | 0, _, acc => (acc, .inl false)
  | n + 1, next, acc =>
    match minimizedIndex s used m minimizing false (next / 2) with
    | some r => (acc, .inl r)
    | none =>
      match (s.assigned (next / 2)).reason with
      | .binary other => minimizeChain s used m minimizing n other (next / 2 :: acc)
      | .large ref => (next / 2 :: acc, .inr (next, ref))
      | _ => (acc, .inl false)

/-- The loop of `minimize_reference` (minimize.c:53-57). -/
def minimizeAll (f : Marks → Nat → Bool × Marks) : List Nat → Marks → Bool × Marks
  | [], m => (true, m)
  | l :: ls, m =>
    match f m l with
    | (true, m) => minimizeAll f ls m
    | (false, m) => (false, m)

/-- Marking at the end of `minimize_binary` (minimize.c:85-90) and
`minimize_literal` (minimize.c:127-132). -/
def Marks.push (m : Marks) (res : Bool) (vs : List Nat) : Marks :=
  if res then { m with removable := vs ++ m.removable } else { m with poisoned := vs ++ m.poisoned }

/-- `minimize_literal` with `minimize_reference` and `minimize_binary`
(minimize.c:45-134).  The first argument is `minimizedepth - depth`; `top` is
`!depth`. -/
def minimizeLiteral (s : Solver) (used : Nat → Nat) (minimizing : Bool) :
    Nat → Bool → Marks → Nat → Bool × Marks
  | 0, _, m, _ => (false, m)
  | d + 1, top, m, lit =>
    match minimizedIndex s used m minimizing top (lit / 2) with
    | some r => (r, m)
    | none =>
      let res : Bool × Marks :=
        match (s.assigned (lit / 2)).reason with
        | .binary other =>
          match minimizeChain s used m minimizing s.trail.length other [] with
          | (vs, .inl r) => (r, m.push r vs)
          | (vs, .inr (next, ref)) =>
            match d with
            | 0 => (false, m.push false vs)
            | d + 1 =>
              match minimizeAll (minimizeLiteral s used minimizing d false)
                ((s.clause ref).lits.filter (· ≠ neg next)) m with
              | (r, m) => (r, m.push r vs)
        | .large ref =>
          minimizeAll (minimizeLiteral s used minimizing d false)
            ((s.clause ref).lits.filter (· ≠ neg lit)) m
        | _ => (false, m)
      if top then res else (res.1, res.2.push res.1 [lit / 2])

/-- The literals of the clause removed one by one; the loop of
`kissat_minimize_clause` (minimize.c:182-191) runs from the end, the argument is the
reversed tail of the clause. -/
def minimizeLoop (s : Solver) (used : Nat → Nat) (minimizing : Bool) :
    List Nat → Marks → List Nat × Marks
  | [], m => ([], m)
  | l :: ls, m =>
    match minimizeLiteral s used minimizing s.options.minimizedepth true m l with
    | (r, m) =>
      match minimizeLoop s used minimizing ls m with
      | (ks, m) => (if r then ks else l :: ks, m)

/-- `kissat_minimize_clause` (minimize.c:155-211). -/
def minimizeClause (s : Solver) (used : Nat → Nat) (notUip : Nat) (clause : List Nat) :
    List Nat × Marks :=
  let m : Marks := ⟨notUip / 2 :: clause.map (· / 2), []⟩
  if 2 < s.options.shrink then (clause, m)
  else
    match minimizeLoop s used true clause.reverse m with
    | (ks, m) => (ks.reverse, { m with poisoned := [] })

/-! ## Shrinking -/

/-- State of `shrink_block`. -/
structure Shrink where
  marks : Marks
  shrinkable : List Nat
  unresolved : Nat
  failed : Bool

/-- `shrink_literal` (shrink.c:47-82): `none` is -1, `some false` is 0, `some true`
is 1. -/
def shrinkLiteral (s : Solver) (used : Nat → Nat) (level : Nat) (t : Shrink) (lit : Nat) :
    Shrink × Option Bool :=
  let a := s.assigned (lit / 2)
  if a.level = 0 then (t, some false)
  else if lit / 2 ∈ t.shrinkable then (t, some false)
  else if a.level < level then
    if lit / 2 ∈ t.marks.removable then (t, some false)
    else if 2 < s.options.shrink then
      -- `kissat_minimize_literal (solver, lit, false)` starts at depth one
      match minimizeLiteral s used false (s.options.minimizedepth - 1) false t.marks lit with
      | (true, m) => ({ t with marks := m }, some false)
      | (false, m) => ({ t with marks := m }, none)
    else (t, none)
  else ({ t with shrinkable := lit / 2 :: t.shrinkable }, some true)

/-- `shrink_along_large` (shrink.c:173-194). -/
def shrinkLarge (s : Solver) (used : Nat → Nat) (level : Nat) : List Nat → Shrink → Shrink
  | [], t => t
  | l :: ls, t =>
    match shrinkLiteral s used level t l with
    | (t, none) => { t with failed := true }
    | (t, some true) => shrinkLarge s used level ls { t with unresolved := t.unresolved + 1 }
    | (t, some false) => shrinkLarge s used level ls t

/-- `shrink_along_reason` with `shrink_along_binary` (shrink.c:160-221).  As in the
code a failing `shrink_literal` is not noticed for a binary reason. -/
def shrinkAlong (s : Solver) (used : Nat → Nat) (level uip : Nat) (t : Shrink) : Shrink :=
  match (s.assigned (uip / 2)).reason with
  | .binary other =>
    match shrinkLiteral s used level t other with
    | (t, some true) => { t with unresolved := t.unresolved + 1 }
    | (t, _) => t
  | .large ref =>
    if 1 < s.options.shrink then
      shrinkLarge s used level ((s.clause ref).lits.filter (· ≠ uip)) t
    else { t with failed := true }
  | _ => { t with failed := true }

/-- The loop of `shrink_block` (shrink.c:245-259) over the reversed trail prefix.
Returns the unique implication point unless it failed. -/
def shrinkLoop (s : Solver) (used : Nat → Nat) (level : Nat) :
    List Nat → Shrink → Shrink × Option Nat
  | [], t => (t, none)
  | uip :: rest, t =>
    if uip / 2 ∈ t.shrinkable then
      if t.unresolved = 1 then (t, some uip)
      else
        let t := shrinkAlong s used level uip t
        if t.failed then (t, none)
        else shrinkLoop s used level rest { t with unresolved := t.unresolved - 1 }
    else shrinkLoop s used level rest t

/-- `minimize_block` (shrink.c:307-322). -/
def minimizeBlock (s : Solver) (used : Nat → Nat) (block : List Nat) (m : Marks) :
    List Nat × Marks :=
  minimizeLoop s used false block m

/-- `shrink_block` and `minimize_and_shrink_block` without `next_block`
(shrink.c:84-139, 223-269, 324-358).  A single literal is kept. -/
def shrinkBlock (s : Solver) (used : Nat → Nat) (block : List Nat) (m : Marks) :
    List Nat × Marks :=
  if block.length < 2 then (block, m)
  else
    let level := s.lev (block.getLast?.getD 0)
    let maxTrail := block.foldl (fun r l => max r (s.assigned (l / 2)).trail) 0
    let t : Shrink := block.foldl (fun t l => (shrinkLiteral s used level t l).1)
      ⟨m, [], block.length, false⟩
    match shrinkLoop s used level (s.trail.take (maxTrail + 1)).reverse t with
    | (t, some uip) =>
      ([neg uip], { t.marks with removable := t.shrinkable ++ t.marks.removable })
    | (t, none) => minimizeBlock s used block t.marks

/-- The loop of `kissat_shrink_clause` (shrink.c:360-395) with `next_block`
(shrink.c:271-305), from the end of the clause: the second argument is the reversed
remaining clause, the last one the result collected so far.  The first argument
bounds the number of blocks. -/
def shrinkLoopBlocks (s : Solver) (used : Nat → Nat) :
    Nat → List Nat → Marks → List Nat → List Nat
  | 0, rev, _, acc => rev.reverse ++ acc
  | _ + 1, [], _, acc => acc
  | n + 1, l :: rev, m, acc =>
    let block := (l :: rev).takeWhile fun k => s.lev k ≤ s.lev l
    let rest := (l :: rev).dropWhile fun k => s.lev k ≤ s.lev l
    match shrinkBlock s used block.reverse m with
    | (ks, m) => shrinkLoopBlocks s used n rest m (ks ++ acc)

/-- `kissat_shrink_clause` (shrink.c:360-395). -/
def shrinkClause (s : Solver) (used : Nat → Nat) (notUip : Nat) (clause : List Nat)
    (m : Marks) : List Nat :=
  shrinkLoopBlocks s used (clause.length + 1) (notUip :: clause).reverse m []

/-! ## The analysis loop -/

/-- Insertion into a decreasing list. -/
def insertLevel (l : Nat) : List Nat → List Nat
  | [] => [l]
  | k :: ks => if k ≤ l then l :: k :: ks else k :: insertLevel l ks

/-- `sort_levels` (analyze.c:219-227), highest level first. -/
def sortLevels (ls : List Nat) : List Nat := ls.foldr insertLevel []

/-- `sort_deduced_clause` (analyze.c:229-309): stable bucket sort by decreasing
level of all but the first literal. -/
def sortDeduced (s : Solver) (t : Analysis) : List Nat :=
  (sortLevels t.levels).flatMap fun lv => t.clause.filter fun l => s.lev l = lv

/-- `frame->used` after deduction: number of deduced literals on a level
(deduce.c:62-63). -/
def usedOf (s : Solver) (clause : List Nat) (lv : Nat) : Nat :=
  (clause.filter fun l => s.lev l = lv).length

/-- The learned clause (analyze.c:560-565). -/
def learnedClause (s : Solver) (uip : Nat) (t : Analysis) : List Nat :=
  if s.options.minimize then
    let clause := sortDeduced s t
    let used := usedOf s clause
    match minimizeClause s used (neg uip) clause with
    | (clause, m) =>
      if s.options.shrink ≠ 0 then shrinkClause s used (neg uip) clause m
      else neg uip :: clause
  else neg uip :: t.clause

/-- Outcome of one iteration of the loop of `kissat_analyze`. -/
inductive Step
  /-- analysis finished; `true` means unsatisfiable -/
  | finished (s : Solver) (unsat : Bool)
  /-- on-the-fly strengthening produced a new conflict -/
  | again (s : Solver) (c : Conflict)
  /-- never happens (`deduce_not_stuck`) -/
  | stuck

/-- `kissat_deduce_first_uip_clause` and what follows it in `kissat_analyze`
(deduce.c:70-168, analyze.c:552-570). -/
def deduceStep (s : Solver) (conflict : Conflict) : Step :=
  let lits := s.conflictLits conflict
  let t := lits.foldl (analyzeLiteral s) ⟨[], [], [], 0, 0, 0⟩
  let conflictSize := (lits.filter fun l => s.lev l ≠ 0).length
  match deduceLoop s s.trail.reverse t 0 with
  | .stuck => .stuck
  | .uip u t => .finished (learnClause s (learnedClause s u t)) false
  | .strengthen u t n =>
    match (s.assigned (u / 2)).reason with
    | .large ref =>
      match strengthen s t.antecedentSize ref u with
      | (s, res) =>
        let s := if n = 1 ∧ t.resolventSize < conflictSize then
            match conflict with
            | .large r => subsume s res r
            | .binary _ _ => s
          else s
        .again { s with conflicts := s.conflicts + 1 } res
    | _ => .stuck

/-- One iteration of the loop of `kissat_analyze` (analyze.c:542-576).  Bumping is
left out. -/
def analyzeStep (s : Solver) (conflict : Conflict) : Step :=
  match oneLiteral s conflict with
  | (s, .forced) => .finished s false
  | (s, .root) => .finished s true
  | (s, .many lv) =>
    if lv = 1 then .finished (analyzeFailed s conflict) false else deduceStep s conflict

/-- The loop of `kissat_analyze` (analyze.c:542-576); `none` if more than `n`
iterations are needed. -/
def analyzeLoop : Nat → Solver → Conflict → Option (Solver × Nat)
  | 0, _, _ => none
  | n + 1, s, conflict =>
    match analyzeStep s conflict with
    | .finished s unsat => some (s, if unsat then 20 else 0)
    | .again s c => analyzeLoop n s c
    | .stuck => none

/-- Bound on the iterations of `kissat_analyze`: every further iteration removed a
literal from a clause. -/
def Solver.totalSize (s : Solver) : Nat :=
  (s.arena.map fun c => if c.garbage then 0 else c.lits.length).sum

/-- `kissat_analyze` (analyze.c:527-579): result 20 or 0. -/
def analyze (s : Solver) (conflict : Conflict) : Option (Solver × Nat) :=
  if s.inconsistent then some (s, 20) else analyzeLoop (s.totalSize + 1) s conflict

end Verif.Core
