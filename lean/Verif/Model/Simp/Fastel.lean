import Verif.Model.Simp.Eliminate
import Verif.Model.Simp.Forward

/-!
# Fast variable elimination (fastel.c)

Sizes of watch lists (with the references to garbage clauses in them), which variables have the
`eliminate` flag and the order of the candidates are arguments.
-/

namespace Verif.Simp

open Verif.Spec Verif.Model

/-- Options `fasteloccs`, `fastelclslim`, `fastelim`, `fastelsub`, and the sizes of the watch lists. -/
structure FastOptions where
  occs : Nat
  clslim : Nat
  elim : Nat
  sub : Bool
  size : Nat → Nat

/-! ## Subsumption -/

/-- The first loop of `fast_forward_subsumed` (fastel.c:20-31): the marked literals and
`max_occurring`. -/
def State.fastMarks (s : State) (o : FastOptions) : List Nat → Nat → Option Nat → List Nat →
    List Nat × Option Nat
  | [], _, max, marks => (marks, max)
  | other :: rest, occurrence, max, marks =>
    if !s.activeLit other then s.fastMarks o rest occurrence max marks
    else if o.size other ≤ occurrence then s.fastMarks o rest occurrence max marks
    else s.fastMarks o rest (o.size other) (some other) (other :: marks)

/-- The loop over the watches of `lit` (fastel.c:44-73), with the variable `subsumed`. -/
def State.fastSubsumers (s : State) (marks : List Nat) (c lit : Nat) : List Nat → Bool → Bool
  | [], subsumed => subsumed
  | r :: rs, subsumed =>
    match s.binaryOther lit r with
    | some other => if marks.contains other then true else s.fastSubsumers marks c lit rs subsumed
    | none =>
      if r = c || (s.clause r).garbage || (s.clause r).lits.length > (s.clause c).lits.length then
        s.fastSubsumers marks c lit rs subsumed
      else
        s.fastSubsumers marks c lit rs
          ((s.clause r).lits.all fun other => s.values other < 0 || marks.contains other)

/-- The second loop (fastel.c:34-76). -/
def State.fastSubsumedBy (s : State) (o : FastOptions) (marks : List Nat) (max : Option Nat) (c : Nat) :
    List Nat → Bool
  | [] => false
  | other :: rest =>
    if some other = max || !s.activeLit other || o.size other > o.occs then
      s.fastSubsumedBy o marks max c rest
    else s.fastSubsumers marks c other (s.occurrences other) false || s.fastSubsumedBy o marks max c rest

/-- The decision of `fast_forward_subsumed` (fastel.c:12-87). -/
def State.fastSubsumed (s : State) (o : FastOptions) (c : Nat) : Bool :=
  match s.fastMarks o (s.clause c).lits 0 none [] with
  | (marks, max) => s.fastSubsumedBy o marks max c (s.clause c).lits

/-- `flush_occurrences` (fastel.c:89-145).  Argument: the watches.  The code marks a satisfied clause
once for every true literal and goes on with subsumption (the `continue` at line 130 belongs to the inner
loop); here it is marked once. -/
def State.flushOccurrences (s : State) (o : FastOptions) (lit : Nat) : List Nat → Nat → State × Nat
  | [], res => (s, res)
  | r :: rs, res =>
    match s.binaryOther lit r with
    | some other =>
      if s.values other > 0 then s.flushOccurrences o lit rs res
      else if res + 1 > o.occs then (s, res + 1) else s.flushOccurrences o lit rs (res + 1)
    | none =>
      if (s.clause r).garbage then s.flushOccurrences o lit rs res
      else if (s.clause r).lits.length > o.clslim then (s, o.occs + 1)
      else if (s.clause r).lits.any fun other => s.values other > 0 then
        let s := s.markGarbage r
        if res + 1 > o.occs then (s, res + 1) else s.flushOccurrences o lit rs (res + 1)
      else if o.sub && s.fastSubsumed o r then (s.markGarbage r).flushOccurrences o lit rs res
      else if res + 1 > o.occs then (s, res + 1) else s.flushOccurrences o lit rs (res + 1)

/-! ## Resolvents -/

/-- Adding a resolvent: the empty clause, a unit or `kissat_new_irredundant_clause`
(e.g. fastel.c:243-262). -/
def State.addResolvent (s : State) : List Nat → State
  | [] => s.learnedEmpty
  | [u] => s.learnedUnit u
  | c => s.newClause c false

/-- Resolving two binary clauses with the other literals `a` and `b`
(`do_fast_resolve_binary_binary`, fastel.c:147-204; the same in `can_fast_resolve_binary_binary`,
fastel.c:461-505). -/
def State.fastBinaries (s : State) (a b : Nat) : Walk :=
  if a = neg b then .tautological
  else if s.values a > 0 then .satisfied
  else if s.values b > 0 then .satisfied
  else if s.values a < 0 ∧ s.values b < 0 then .lits []
  else if s.values a < 0 then .lits [b]
  else if s.values b < 0 then .lits [a]
  else if a = b then .lits [a]
  else .lits [a, b]

/-- The loop over the literals of the large clause in `do_fast_resolve_binary_large`
(fastel.c:222-245). -/
def State.fastLarge (s : State) (pivot lit : Nat) : List Nat → List Nat → Walk
  | [], acc => .lits acc
  | other :: rest, acc =>
    if other / 2 = pivot then s.fastLarge pivot lit rest acc
    else if other = lit then s.fastLarge pivot lit rest acc
    else if other = neg lit then .tautological
    else if s.values other < 0 then s.fastLarge pivot lit rest acc
    else if s.values other > 0 then .satisfied
    else s.fastLarge pivot lit rest (acc ++ [other])

/-- `do_fast_resolve_binary_large` (fastel.c:206-271). -/
def State.doBinaryLarge (s : State) (pivot lit r : Nat) : State :=
  if (s.clause r).garbage then s
  else if s.values lit > 0 then s
  else match s.fastLarge pivot lit (s.clause r).lits (if s.values lit = 0 then [lit] else []) with
    | .satisfied => s.markGarbage r
    | .tautological => s
    | .lits R => s.addResolvent R

/-- The resolvent of two large clauses and what `do_fast_resolve_large_large` (fastel.c:273-361) does with
it.  The first loop marks the literals of the first clause which are not false. -/
def State.doLargeLarge (s : State) (pivot c d : Nat) : State :=
  if (s.clause c).garbage then s
  else if (s.clause d).garbage then s
  else if (s.clause c).lits.any fun other => other / 2 ≠ pivot && s.values other > 0 then s
  else match s.walk (2 * pivot) (s.clause c).lits (s.clause d).lits [] with
    | .satisfied => s
    | .tautological => s
    | .lits new =>
      s.addResolvent ((s.clause c).lits.filter (fun other => other / 2 ≠ pivot ∧ ¬ s.values other < 0) ++ new)

/-- `do_fast_resolve` (fastel.c:363-389). -/
def State.doResolve (s : State) (pivot c d : Nat) : State :=
  match s.binaryOther (2 * pivot) c, s.binaryOther (neg (2 * pivot)) d with
  | some a, some b =>
    match s.fastBinaries a b with
    | .lits R => s.addResolvent R
    | _ => s
  | some a, none => s.doBinaryLarge pivot a d
  | none, some b => s.doBinaryLarge pivot b c
  | none, none => s.doLargeLarge pivot c d

/-- The inner loop of `do_fast_eliminate` (fastel.c:435-451). -/
def State.doInner (s : State) (pivot c : Nat) : List Nat → State
  | [] => s
  | d :: ds =>
    let s := s.doResolve pivot c d
    if s.inconsistent then s else s.doInner pivot c ds

/-- The outer loop of `do_fast_eliminate` (fastel.c:434-451). -/
def State.doOuter (s : State) (pivot : Nat) (ds : List Nat) : List Nat → State
  | [] => s
  | c :: cs =>
    let s := s.doInner pivot c ds
    if s.inconsistent then s else s.doOuter pivot ds cs

/-- `do_fast_eliminate` (fastel.c:420-458), with `fast_delete_and_weaken_clauses` (fastel.c:391-418). -/
def State.fastEliminate (s : State) (pivot : Nat) : State :=
  let pos := s.occurrences (2 * pivot)
  let negs := s.occurrences (neg (2 * pivot))
  let s := s.doOuter pivot negs pos
  if s.inconsistent then s
  else
    let s := s.markEliminated pivot
    (s.weakenLoop (2 * pivot) true pos).weakenLoop (neg (2 * pivot)) true negs

/-! ## Counting resolvents -/

/-- `can_fast_resolve_binary_binary` (fastel.c:460-505). -/
def State.canBinaries (s : State) (a b : Nat) : State × Bool :=
  match s.fastBinaries a b with
  | .lits [_, _] => (s, true)
  | .lits R => (s.addResolvent R, false)
  | _ => (s, false)

/-- What the loop over the literals of the large clause finds (fastel.c:520-532). -/
inductive FastScan
  | tautological
  | satisfied
  | scanned (found : Bool)
  deriving DecidableEq, Repr

/-- The loop over the literals of the large clause in `can_fast_resolve_binary_large`
(fastel.c:520-532). -/
def State.findLit (s : State) (lit : Nat) : List Nat → Bool → FastScan
  | [], found => .scanned found
  | other :: rest, found =>
    if other = neg lit then .tautological
    else if s.values other > 0 then .satisfied
    else s.findLit lit rest (found || other = lit)

/-- `can_fast_resolve_binary_large` (fastel.c:507-573). -/
def State.canBinaryLarge (s : State) (pivot lit r : Nat) : State × Bool :=
  if (s.clause r).garbage then (s, false)
  else if s.values lit > 0 then (s, false)
  else match s.findLit lit (s.clause r).lits false with
    | .tautological => (s, false)
    | .satisfied => (s.markGarbage r, false)
    | .scanned false => (s, true)
    | .scanned true =>
      ((s.addResolvent ((s.clause r).lits.filter fun other => other / 2 ≠ pivot ∧ ¬ s.values other < 0)).markGarbage r,
        false)

/-- `c_subsumed` and `d_subsumed` (fastel.c:653-679): the resolvent `R` is smaller and all its literals are
in the clause. -/
def subsumedBy (R c : List Nat) : Bool :=
  decide (R.length < c.length) && decide ((c.filter fun other => R.contains other).length ≥ R.length)

/-- `can_fast_resolve_large_large` (fastel.c:575-711). -/
def State.canLargeLarge (s : State) (pivot c d : Nat) : State × Bool :=
  if (s.clause c).garbage then (s, false)
  else if (s.clause d).garbage then (s, false)
  else if (s.clause c).lits.any fun other => other / 2 ≠ pivot && s.values other > 0 then
    (s.markGarbage c, false)
  else match s.walk (2 * pivot) (s.clause c).lits (s.clause d).lits [] with
    | .satisfied => (s.markGarbage d, false)
    | .tautological => (s, false)
    | .lits new =>
      let R := (s.clause c).lits.filter (fun other => other / 2 ≠ pivot ∧ ¬ s.values other < 0) ++ new
      if R.length < 2 then (s.addResolvent R, false)
      else
        let cSubsumed := subsumedBy R (s.clause c).lits
        let dSubsumed := subsumedBy R (s.clause d).lits
        if cSubsumed || dSubsumed then
          let s := s.newClause R false
          let s := if cSubsumed then s.markGarbage c else s
          (if dSubsumed then s.markGarbage d else s, false)
        else (s, true)

/-- `can_fast_resolve` (fastel.c:713-735).  The check for garbage clauses is made by the functions for large
clauses in the code; binary clauses are not removed meanwhile. -/
def State.canResolve (s : State) (pivot c d : Nat) : State × Bool :=
  if (s.clause c).garbage || (s.clause d).garbage then (s, false)
  else match s.binaryOther (2 * pivot) c, s.binaryOther (neg (2 * pivot)) d with
  | some a, some b => s.canBinaries a b
  | some a, none => s.canBinaryLarge pivot a d
  | none, some b => s.canBinaryLarge pivot b c
  | none, none => s.canLargeLarge pivot c d

/-- The inner loop of `resolvents_limited` (fastel.c:750-766): the number of resolvents, none if it returns
false. -/
def State.limitedInner (s : State) (pivot limit c : Nat) : List Nat → Nat → State × Option Nat
  | [], resolved => (s, some resolved)
  | d :: ds, resolved =>
    match s.canResolve pivot c d with
    | (s, b) =>
      let resolved := if b then resolved + 1 else resolved
      if b && decide (resolved > limit) then (s, none)
      else if s.inconsistent then (s, none)
      else s.limitedInner pivot limit c ds resolved

/-- `resolvents_limited` (fastel.c:737-768). -/
def State.limitedOuter (s : State) (pivot limit : Nat) (ds : List Nat) : List Nat → Nat → State × Bool
  | [], _ => (s, true)
  | c :: cs, resolved =>
    match s.limitedInner pivot limit c ds resolved with
    | (s, none) => (s, false)
    | (s, some resolved) => s.limitedOuter pivot limit ds cs resolved

/-! ## Eliminating variables -/

/-- The decision of `try_to_fast_eliminate` (fastel.c:782-804), after flushing. -/
def State.fastDecide (s : State) (o : FastOptions) (pivot pos neg' : Nat) : State :=
  if pos + neg' > o.occs then s
  else if pos * neg' ≤ o.elim then s.fastEliminate pivot
  else match s.limitedOuter pivot o.elim (s.occurrences (neg (2 * pivot))) (s.occurrences (2 * pivot)) 0 with
    | (s, true) => s.fastEliminate pivot
    | (s, false) => s

/-- `try_to_fast_eliminate` (fastel.c:770-804). -/
def State.tryFast (s : State) (o : FastOptions) (pivot : Nat) : State :=
  if !s.active pivot then s
  else match s.flushOccurrences o (2 * pivot) (s.occurrences (2 * pivot)) 0 with
    | (s, pos) =>
      if pos > o.occs then s
      else match s.flushOccurrences o (neg (2 * pivot)) (s.occurrences (neg (2 * pivot))) 0 with
        | (s, neg') => if neg' > o.occs then s else s.fastDecide o pivot pos neg'

/-- Gathering the candidates (fastel.c:849-871).  The literal `not_lit` is the same literal there
(line 861); only scores depend on the second count. -/
def State.fastGather (s : State) : List (FastOptions × Nat) → State
  | [] => s
  | (o, pivot) :: rest =>
    if !s.active pivot then s.fastGather rest
    else match s.flushOccurrences o (2 * pivot) (s.occurrences (2 * pivot)) 0 with
      | (s, pos) =>
        if pos > o.occs then s.fastGather rest
        else (s.flushOccurrences o (2 * pivot) (s.occurrences (2 * pivot)) 0).1.fastGather rest

/-- The loop over the candidates (fastel.c:884-909). -/
def State.fastLoop (s : State) : List (FastOptions × Nat) → State
  | [] => s
  | (o, pivot) :: rest =>
    let s := s.tryFast o pivot
    if s.inconsistent then s
    else
      let s := s.flushUnitsWhileConnected
      if s.inconsistent then s else s.fastLoop rest

/-- The rounds (fastel.c:840-920). -/
def State.fastRounds (s : State) : List (List (FastOptions × Nat) × List (FastOptions × Nat)) → State
  | [] => s
  | (gathered, candidates) :: rounds =>
    let s := (s.fastGather gathered).fastLoop candidates
    if s.inconsistent then s else s.fastRounds rounds

/-- `kissat_fast_variable_elimination` (fastel.c:819-943), where
`kissat_connect_irredundant_large_clauses` (watch.c:169-203) removes satisfied clauses before and
`kissat_resume_sparse_mode` (dense.c:199-230) clauses with eliminated variables afterwards. -/
def State.fastElimination (s : State)
    (rounds : List (List (FastOptions × Nat) × List (FastOptions × Nat))) : State :=
  if s.inconsistent then s
  else
    let s := (s.flushCandidates (List.range s.arena.length)).fastRounds rounds
    if s.inconsistent then s else s.flushEliminated (List.range s.arena.length)

end Verif.Simp
