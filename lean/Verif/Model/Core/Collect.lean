import Verif.Model.Core.Propagate
import Verif.Model.Core.Minimize

/-! # Garbage collection during search: `collect.c`, `sort.c`

`kissat_sparse_collect` without compaction, as called by `kissat_reduce` on any decision
level (compaction is modelled in `Model/Compact.lean`).

Simplifications: a clause reference is an index, so the arena is not shrunken; the marks
`reason` in clauses are lists of Boolean values which live as long as the function which
uses them; `first_reducible` and `last_irredundant`, which only select the next `start`,
are left out: `start` is an argument. -/

namespace Verif.Core

open Verif.Spec (neg)

/-- The test in `flush_watched_clauses_by_literal` (collect.c:22-25, 39-44): a binary
clause is satisfied by a root level unit. -/
def Solver.rootSatBinary (s : Solver) (l o : Nat) : Bool := Decidable.decide (0 < s.fixed l ∨ 0 < s.fixed o)

/-- The watches kept by `flush_watched_clauses_by_literal` (collect.c:16-76): binary
clauses which are not satisfied by units and watches of clauses which are not collected,
unless `l` is assigned by a unit. -/
def Solver.keepWatch (s : Solver) (start l : Nat) : Watch → Bool
  | .binary o => !s.rootSatBinary l o
  | .large _ r => Decidable.decide (s.fixed l = 0 ∧ r < start)

/-- Proof lines of `flush_watched_clauses_by_literal`: `kissat_delete_binary`
(clause.c, called in collect.c:45-46). -/
def Solver.flushLines (s : Solver) (l : Nat) : List Line :=
  (s.watches l).filterMap fun
    | .binary o => if s.rootSatBinary l o ∧ l < o then some (.delete [l, o]) else none
    | .large _ _ => none

/-- `flush_all_watched_clauses` (collect.c:104-114).  Units do not change in the loop. -/
def Solver.flushWatches (s : Solver) (start : Nat) : Solver :=
  { s with
    watches := fun l => (s.watches l).filter (s.keepWatch start l)
    proof := s.proof ++ (List.range (2 * s.vars)).flatMap s.flushLines }

/-- The mark set by `kissat_mark_reason_clauses` (trail.c:18-45): the clause is the
reason of a literal on the trail. -/
def Solver.isReason (s : Solver) (r : Nat) : Bool :=
  s.trail.any fun l => (s.assigned (l / 2)).reason == .large r

/-- Update of a reason (`update_large_reason`, collect.c:116-132, and collect.c:445-453). -/
def Solver.setReason (s : Solver) (l : Nat) (r : Reason) : Solver :=
  { s with assigned := upd s.assigned (l / 2) { s.assigned (l / 2) with reason := r } }

/-- The literal forced by a reason clause: `get_forced` (collect.c:134-146) and the
variable `forced` in `sparse_sweep_garbage_clauses` (collect.c:377-381).  The latter is
invalid if there are two true literals, which violates the assertion collect.c:441. -/
def Solver.forced (s : Solver) (c : List Nat) : Option Nat := c.find? fun l => Decidable.decide (0 < s.values l)

/-- The variable `other` in `sparse_sweep_garbage_clauses` (collect.c:380-381): the last
false literal. -/
def Solver.lastFalse (s : Solver) (c : List Nat) : Option Nat :=
  c.reverse.find? fun l => Decidable.decide (s.values l < 0)

/-- A clause turned into a binary one: the reason becomes binary (collect.c:437-454). -/
def Solver.binaryReason (s : Solver) (c : List Nat) (reason : Bool) : Solver :=
  if reason then
    match s.forced c, s.lastFalse c with
    | some l, some o => s.setReason l (.binary o)
    | _, _ => s
  else s

/-- A clause gets the next place in the arena: the reason is updated (collect.c:462-476,
`get_forced_and_update_large_reason`, collect.c:148-154). -/
def Solver.placeClause (s : Solver) (c : Clause) (reason : Bool) : Solver :=
  let t : Solver := { s with arena := s.arena ++ [c] }
  if reason then
    match s.forced c.lits with
    | some l => t.setReason l (.large s.arena.length)
    | none => t
  else t

/-- The loop body in `sparse_sweep_garbage_clauses` (collect.c:316-509): garbage clauses
and clauses satisfied by units are dropped, literals falsified by units are removed, and
clauses of size two become binary.  `s.arena` is the part of the arena up to `dst`. -/
def sweepClause (s : Solver) (c : Clause) (reason : Bool) : Solver :=
  if c.garbage then s
  else if c.lits.any (fun l => Decidable.decide (0 < s.fixed l)) then s.emit (.delete c.lits)
  else
    let lits := c.lits.filter fun l => Decidable.decide (¬ s.fixed l < 0)
    let t :=
      match lits with
      | [a, b] => (s.watchBinary a b).binaryReason lits reason
      | _ => s.placeClause { c with lits := lits, searched := 2 } reason
    if lits.length ≠ c.lits.length then (t.emit (.add lits)).emit (.delete c.lits) else t

/-- The clauses from `start` on with their marks. -/
def Solver.marked (s : Solver) (start : Nat) : List (Clause × Bool) :=
  (s.arena.drop start).mapIdx fun i c => (c, s.isReason (start + i))

/-- `sparse_sweep_garbage_clauses` (collect.c:277-566).  `kissat_reset_last_learned`
(internal.c) invalidates the references to the last learned clauses. -/
def Solver.sweepGarbage (s : Solver) (start : Nat) : Solver :=
  (s.marked start).foldl (fun t p => sweepClause t p.1 p.2)
    { s with arena := s.arena.take start, lastLearned := s.lastLearned.map fun _ => none }

/-- `move_redundant_clauses_to_the_end` (collect.c:219-275) from the first redundant
clause on; only if there is an irredundant clause behind it (collect.c:549-560). -/
def Solver.moveRedundant (s : Solver) (start : Nat) : Solver :=
  let first := start + (s.arena.drop start).findIdx (·.redundant)
  if (s.arena.drop first).any (!·.redundant) then
    let cs := s.marked first
    ((cs.filter (!·.1.redundant)) ++ (cs.filter (·.1.redundant))).foldl
      (fun t p => t.placeClause p.1 p.2) { s with arena := s.arena.take first }
  else s

/-- The test in `move_smallest_literal_to_front` (sort.c:36-57): is `b` better than `a`? -/
def Solver.better (s : Solver) (a b : Nat) : Bool :=
  if s.values a < 0 ∧ 0 < s.values b then true
  else if 0 < s.values a ∧ s.values b < 0 then false
  else if s.values a < 0 then Decidable.decide (s.lev a < s.lev b)
  else Decidable.decide (s.lev b < s.lev a)

/-- The loop in `move_smallest_literal_to_front` (sort.c:26-64): position of the best
literal so far and of the rest of the literals, from position `i` on. -/
def Solver.findBest (s : Solver) (enough : Bool) : List Nat → Nat → Nat → Nat → Nat
  | [], _, pos, _ => pos
  | b :: bs, i, pos, best =>
    if s.values b = 0 ∨ (0 < s.values b ∧ enough = true) then i
    else if s.better best b then s.findBest enough bs (i + 1) i b
    else s.findBest enough bs (i + 1) pos best

/-- `move_smallest_literal_to_front` (sort.c:4-77). -/
def Solver.moveSmallest (s : Solver) (enough : Bool) (start : Nat) (c : List Nat) : List Nat :=
  match c[start]? with
  | none => c
  | some a =>
    if s.values a = 0 ∨ (0 < s.values a ∧ enough = true) then c
    else
      let pos := s.findBest enough (c.drop (start + 1)) (start + 1) start a
      (c.set start (c.getD pos 0)).set pos a

/-- `kissat_sort_literals` (sort.c:79-100): the two best literals come first. -/
def Solver.sortLiterals (s : Solver) (c : List Nat) : List Nat :=
  let d := s.moveSmallest false 0 c
  if 2 < c.length then s.moveSmallest (Decidable.decide (0 ≤ s.values (d.getD 0 0))) 1 d else d

/-- The loop body in `rewatch_clauses` (collect.c:582-605). -/
def rewatchClause (s : Solver) (r : Nat) : Solver :=
  let c := s.clause r
  match s.sortLiterals c.lits with
  | a :: b :: rest =>
    (s.setClause r { c with lits := a :: b :: rest, searched := 2 }).watchReference a b r
  | _ => s

/-- `rewatch_clauses` (collect.c:568-606). -/
def Solver.rewatchClauses (s : Solver) (start : Nat) : Solver :=
  (List.range' start (s.arena.length - start)).foldl rewatchClause s

/-- The steps of `kissat_sparse_collect` (collect.c:608-632). -/
def Solver.collectClauses (s : Solver) (start : Nat) : Solver :=
  (((s.flushWatches start).sweepGarbage start).moveRedundant start).rewatchClauses start

/-- `kissat_sparse_collect` (collect.c:608-632) without compaction. -/
def Solver.sparseCollect (s : Solver) (start : Nat) : Solver :=
  { s.collectClauses start with loose := s.loose || s.level != 0 }

end Verif.Core
