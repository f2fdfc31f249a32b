import Verif.Model.Containers.Radix

/-!
# Which learned clauses are thrown away: `reduce.c`, `tiers.c`

Only the parts of clauses which matter for this choice; clauses are numbered by their position in the
arena.  `Model/Core/Reduce` takes the clauses chosen as an argument.
-/

namespace Verif.Model.Reduce

open Verif.Model

/-- The fields of `struct clause` (clause.h:18-38) used here. -/
structure Clause where
  redundant : Bool
  garbage : Bool
  /-- marked by `kissat_flush_and_mark_reason_clauses` -/
  reason : Bool
  /-- five bits -/
  used : Nat
  /-- nineteen bits -/
  glue : Nat
  /-- thirty-two bits -/
  size : Nat
  deriving DecidableEq

/-- `struct reducible` (reduce.c:27-30). -/
structure Reducible where
  rank : Nat
  ref : Nat
  deriving DecidableEq

/-- The rank of a clause (reduce.c:82-84).  The field `size` has type `unsigned`, its complement has 32 bits; the
bit-field `glue` is promoted to `int`, so that its complement is extended to 64 bits. -/
def Clause.rank (c : Clause) : Nat :=
  (2 ^ 32 - 1 - c.size) ||| (((2 ^ 64 - 1 - c.glue) <<< 32) % 2 ^ 64)

/-- One iteration of the loop in `collect_reducibles` (reduce.c:66-86): the clause after it and whether it is
pushed. -/
def Clause.collect (c : Clause) (tier1 tier2 : Nat) : Clause × Bool :=
  if c.redundant = false then (c, false)
  else if c.garbage then (c, false)
  else
    let used := c.used
    let c := if used ≠ 0 then { c with used := used - 1 } else c
    if c.reason then (c, false)
    else if c.glue ≤ tier1 ∧ used ≠ 0 then (c, false)
    else if c.glue ≤ tier2 ∧ used ≥ 31 - 1 then (c, false)
    else (c, true)

/-- The loop in `collect_reducibles` (reduce.c:65-87), from the clause with number `i`.  The loop before it
(reduce.c:44-50) only skips irredundant clauses. -/
def collect (tier1 tier2 : Nat) : List Clause → Nat → List Clause × List Reducible
  | [], _ => ([], [])
  | c :: cs, i =>
    let r := collect tier1 tier2 cs (i + 1)
    let x := c.collect tier1 tier2
    (x.1 :: r.1, if x.2 then ⟨x.1.rank, i⟩ :: r.2 else r.2)

/-- `kissat_mark_clause_as_garbage` (clause.c:160-176). -/
def markGarbage (cs : List Clause) (ref : Nat) : List Clause :=
  cs.modify ref fun c => { c with garbage := true }

/-- The loop in `mark_less_useful_clauses_as_garbage` (reduce.c:131-146). -/
def markLoop : List Clause → List Reducible → Nat → List Clause
  | cs, [], _ => cs
  | cs, _ :: _, 0 => cs
  | cs, p :: ps, target + 1 => markLoop (markGarbage cs p.ref) ps target

/-- `collect_reducibles`, `sort_reducibles` and `mark_less_useful_clauses_as_garbage` (reduce.c:38-151) as
called from `kissat_reduce` (reduce.c:177-182), before garbage is collected.  `tmp` and `junk` are
uninitialised memory used by sorting.  The number of clauses to throw away is computed with floating point
numbers from the number of candidates: any function. -/
def reduce (tier1 tier2 : Nat) (target : Nat → Nat) (tmp : Nat → List Reducible) (junk : Nat → Nat)
    (cs : List Clause) : Option (List Clause) :=
  let r := collect tier1 (max tier1 tier2) cs 0
  if r.2.isEmpty then some r.1
  else (Radix.radixSort Reducible.rank 8 (tmp r.2.length) junk r.2).map fun reds =>
    markLoop r.1 reds (target r.2.length)

/-- `mark_clause_as_used` (deduce.c:14-27): called for a redundant antecedent in conflict analysis.  The glue
computed again (`kissat_recompute_glue`) is taken if it is smaller and promotion is enabled. -/
def use (glue : Nat) (cs : List Clause) (ref : Nat) : List Clause :=
  cs.modify ref fun c =>
    if c.redundant then { c with used := 31, glue := if glue < c.glue then glue else c.glue } else c

/-- Learning a clause of three or more literals (`new_large_clause`, clause.c:79-110, `learn_reference`,
learn.c:81-117). -/
def learn (glue size : Nat) (cs : List Clause) : List Clause :=
  cs ++ [⟨true, false, false, 31, min (2 ^ 19 - 1) glue, size⟩]

/-- What happens to learned clauses during search.  Garbage clauses stay where they are. -/
inductive Event where
  | learn (glue size : Nat)
  | use (ref glue : Nat)
  /-- reason clauses are marked and unmarked (trail.c:18-94) -/
  | reasons (f : Nat → Bool)
  | reduce (tier1 tier2 : Nat) (target : Nat → Nat) (tmp : Nat → List Reducible) (junk : Nat → Nat)

/-- The event happens (search.c, analyze.c, reduce.c). -/
def Event.run (cs : List Clause) : Event → Option (List Clause)
  | .learn glue size => some (Reduce.learn glue size cs)
  | .use ref glue => some (Reduce.use glue cs ref)
  | .reasons f => some (cs.mapIdx fun k c => { c with reason := f k })
  | .reduce tier1 tier2 target tmp junk => Reduce.reduce tier1 tier2 target tmp junk cs

/-- Several events. -/
def runAll : List Event → List Clause → Option (List Clause)
  | [], cs => some cs
  | e :: es, cs => (e.run cs).bind (runAll es)

end Verif.Model.Reduce
