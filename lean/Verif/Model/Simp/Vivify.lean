import Verif.Model.Simp.Probe

/-!
# Vivification

`vivify.c`.  The part of the trail above the root level is a list of entries, newest first.  In which order clauses
are visited during propagation, the number of occurrences by which literals are sorted, the schedule, effort limits and
termination are arguments.  Glue, `searched`, statistics and marks for other techniques have no influence on what
is modelled here.  As in the rest of this model a clause changed in place is a new clause, and the old one garbage.
-/

namespace Verif.Simp

open Verif.Spec Verif.Model

/-- `a->reason` with `a->binary` of `struct assigned` (assign.h:15-26), for literals above the root level. -/
inductive VReason
  | decision
  | binary (other : Nat)
  | clause (ref : Nat)
  deriving DecidableEq, Repr

/-- An entry of the trail above the root level. -/
structure VEntry where
  lit : Nat
  level : Nat
  reason : VReason
  deriving DecidableEq, Repr

/-- A state with assumptions. -/
structure VState where
  s : State
  trail : List VEntry
  level : Nat

/-- `ASSIGNED (lit)` for a literal which is true. -/
def VState.entry (p : VState) (l : Nat) : Option VEntry := p.trail.find? fun e => e.lit = l

/-- `VALUE (lit)` -/
def VState.value (p : VState) (l : Nat) : Int :=
  if (p.entry l).isSome then 1 else if (p.entry (neg l)).isSome then -1 else p.s.values l

/-- `LEVEL (lit)` for a literal which is false. -/
def VState.levelOf (p : VState) (l : Nat) : Nat :=
  match p.entry (neg l) with
  | some e => e.level
  | none => 0

/-- `kissat_backtrack_without_updating_phases` (backtrack.c:70-145). -/
def VState.backtrack (p : VState) (k : Nat) : VState :=
  { p with trail := p.trail.filter fun e => e.level ≤ k, level := min p.level k }

/-- `kissat_internal_assume` (decide.c:235-244) -/
def VState.assume (p : VState) (l : Nat) : VState :=
  { p with trail := ⟨l, p.level + 1, .decision⟩ :: p.trail, level := p.level + 1 }

/-- Visiting a clause during propagation (proplit.h:74-170, proprobe.c:34-58): the clause is skipped, conflicting, or
forces a literal.  `jump` is option `jumpreasons` for big formulas (fastassign.h:9-25).  If all other literals are false
at the root level then the literal is assigned there (inlineassign.h:37-46). -/
def VState.visit (p : VState) (jump : Bool) (ignore r : Nat) : VState × Bool :=
  let c := p.s.clause r
  if c.garbage || r = ignore || c.lits.any (fun l => p.value l > 0) then (p, false)
  else match c.lits.filter (fun l => p.value l = 0) with
    | [] => (p, true)
    | [u] =>
      if p.s.removed (u / 2) then (p, false)
      else
        let level := (c.lits.map p.levelOf).foldl max 0
        if level = 0 then ({ p with s := p.s.learnedUnit u }, false)
        else
          let reason :=
            match c.redundant, p.s.binaryOther u r with
            | false, some other =>
              match jump, p.entry (neg other) with
              | true, some ⟨_, _, .binary other⟩ => VReason.binary other
              | _, _ => .binary other
            | _, _ => .clause r
          ({ p with trail := ⟨u, level, reason⟩ :: p.trail }, false)
    | _ => (p, false)

/-- `kissat_probing_propagate` with a clause to be ignored: the conflict. -/
def VState.propagate (p : VState) (jump : Bool) (ignore : Nat) : List Nat → VState × Option Nat
  | [] => (p, none)
  | r :: rs =>
    match p.visit jump ignore r with
    | (p, true) => (p, some r)
    | (p, false) => p.propagate jump ignore rs

/-! ## Analysis -/

/-- What `vivify_deduce` finds. -/
inductive Deduced
  /-- `*subsuming_ptr` is this clause, or a (jumped) binary clause -/
  | subsumed (r : Option Nat)
  /-- `solver->clause`, `solver->analyzed` and `*redundant_ptr` -/
  | learned (c analyzed : List Nat) (redundant : Bool)
  deriving DecidableEq, Repr

/-- The loop over the analyzed literals (vivify.c:517-580): those still to be visited, and all of them.  There are
at most as many as literals on the trail, thus `fuel` is not used up. -/
def VState.deduceLoop (p : VState) (sorted : List Nat) : Nat → List Nat → List Nat → List Nat → Bool → Option Deduced
  | _, [], analyzed, c, redundant => some (.learned c analyzed redundant)
  | 0, _ :: _, _, _, _ => none
  | fuel + 1, notLit :: todo, analyzed, c, redundant =>
    match p.entry (neg notLit) with
    | none => none
    | some ⟨lit, _, .decision⟩ => p.deduceLoop sorted fuel todo analyzed (c ++ [neg lit]) redundant
    | some ⟨lit, _, .binary other⟩ =>
      if sorted.contains lit && sorted.contains other then some (.subsumed none)
      else if analyzed.contains other then p.deduceLoop sorted fuel todo analyzed c redundant
      else p.deduceLoop sorted fuel (todo ++ [other]) (analyzed ++ [other]) c redundant
    | some ⟨lit, _, .clause r⟩ =>
      let reason := p.s.clause r
      if reason.lits.all (fun m => sorted.contains m) then some (.subsumed (some r))
      else
        let new := reason.lits.filter fun m => m ≠ lit && p.levelOf m ≠ 0 && !analyzed.contains m
        p.deduceLoop sorted fuel (todo ++ new) (analyzed ++ new) c (redundant || reason.redundant)

/-- `vivify_deduce` (vivify.c:466-586). -/
def VState.deduce (p : VState) (cand : Nat) (sorted : List Nat) (conflict implied : Option Nat) : Option Deduced :=
  match implied with
  | some i => p.deduceLoop sorted (p.trail.length + 1) [neg i] [neg i] [i] false
  | none =>
    let r := conflict.getD cand
    let reason := p.s.clause r
    let others := reason.lits.filter fun m => p.s.values m = 0
    if r ≠ cand && others.all (fun m => sorted.contains m) then some (.subsumed (some r))
    else p.deduceLoop sorted (p.trail.length + 1) others others [] reason.redundant

/-- The loop of `vivify_shrinkable` (vivify.c:609-640). -/
def VState.shrinkableLoop (p : VState) (analyzed : List Nat) (conflict : Bool) : Nat → List Nat → Bool
  | _, [] => false
  | implied, lit :: rest =>
    if p.value lit = 0 then true
    else if p.value lit > 0 then
      if conflict then true
      else if implied > 0 then true
      else p.shrinkableLoop analyzed conflict (implied + 1) rest
    else if !analyzed.contains lit then true
    else match p.entry (neg lit) with
      | some ⟨_, _, .decision⟩ => p.shrinkableLoop analyzed conflict implied rest
      | _ => true

/-- `vivify_shrinkable` (vivify.c:601-643). -/
def VState.shrinkable (p : VState) (sorted c analyzed : List Nat) (conflict : Bool) : Bool :=
  if c.length = sorted.length then false else p.shrinkableLoop analyzed conflict 0 sorted

/-! ## Clauses -/

/-- `MORE_OCCURRENCES` (vivify.c:24-30). -/
def moreOccurrences (counts : Nat → Nat) (a b : Nat) : Bool :=
  counts b < counts a || (counts a = counts b && a < b)

/-- Insertion for sorting. -/
def insertByCounts (counts : Nat → Nat) (a : Nat) : List Nat → List Nat
  | [] => [a]
  | b :: l => if moreOccurrences counts a b then a :: b :: l else b :: insertByCounts counts a l

/-- `vivify_sort_stack_by_counts` (vivify.c:37-42).  How `SORT` works is modelled in
`Model/Containers/Sort.lean`; the sorted permutation is unique for this strict order. -/
def sortByCounts (counts : Nat → Nat) (l : List Nat) : List Nat := l.foldr (insertByCounts counts) []

/-- `subsuming->redundant = false` (vivify.c:1155-1162). -/
def State.promote (s : State) (r : Nat) : State :=
  { s with arena := s.arena.set r { s.clause r with redundant := false } }

/-- `simplify_vivification_candidate` (vivify.c:58-126); none if an assertion is violated.
Clauses with removed variables have been flushed and are skipped here. -/
def State.vivifySimplify (s : State) (r : Nat) : Option State :=
  let c := s.clause r
  if c.garbage || c.lits.length ≤ 2 || c.lits.any (fun l => s.removed (l / 2)) then some s
  else if c.lits.any (fun l => s.values l > 0) then some (s.markGarbage r)
  else
    let c' := c.lits.filter fun l => s.values l = 0
    if c'.length = c.lits.length then some s
    else if 2 ≤ c'.length then some ((s.newClause c' c.redundant).markGarbage r)
    else none

/-- What heuristics decide for one candidate: numbers of occurrences of literals, the order in which clauses are
visited when propagating each of the assumptions, in the attempt at instantiation, and after learning a unit, and the
level to which the solver backtracks at the end. -/
structure VivifyOptions where
  jump : Bool
  counts : Nat → Nat
  orders : List (List Nat)
  instantiate : List Nat
  root : List Nat
  back : Nat

/-- Is the candidate the reason of an assignment (vivify.c:974-1001)?  Then the level of that literal. -/
def VState.reasonLevel (p : VState) (cand : Nat) : Option Nat :=
  match (p.s.clause cand).lits.filter (fun l => !(p.value l < 0)) with
  | [unit] =>
    match p.entry unit with
    | some ⟨_, level, .clause r⟩ => if r = cand then some level else none
    | _ => none
  | _ => none

/-- Backtracking if the candidate is the reason of an assignment (vivify.c:1002-1009). -/
def VState.unreason (p : VState) (cand : Nat) : VState :=
  match p.reasonLevel cand with
  | some level => p.backtrack (level - 1)
  | none => p

/-- How the loop over the sorted literals ends. -/
structure Assumed where
  p : VState
  conflict : Option Nat
  implied : Bool

/-- The loop over the sorted literals (vivify.c:1033-1091), with the variable `level`. -/
def VState.assumeLoop (p : VState) (jump : Bool) (cand : Nat) (sorted : List Nat) : Nat → List (List Nat) → List Nat → Assumed
  | _, _, [] => ⟨p, none, false⟩
  | level, orders, lit :: rest =>
    let reused :=
      level < p.level && p.trail.any fun e => e.level = level + 1 && e.reason = .decision && e.lit = neg lit
    if reused then p.assumeLoop jump cand sorted (level + 1) orders rest
    else
      let p := if level < p.level then p.backtrack level else p
      if p.value lit < 0 then p.assumeLoop jump cand sorted (level + 1) orders rest
      else if p.value lit > 0 then ⟨p, none, true⟩
      else
        match (p.assume (neg lit)).propagate jump cand (orders.headD []) with
        | (p', some r) => ⟨p', some r, false⟩
        | (p', none) =>
          if (p'.trail.take (p'.trail.length - p.trail.length)).any fun e => sorted.contains e.lit then ⟨p', none, true⟩
          else p'.assumeLoop jump cand sorted (level + 1) orders.tail rest

/-- Search for a literal of the clause which is satisfied first (vivify.c:1100-1117). -/
def VState.betterImplied (p : VState) (sorted : List Nat) : Option Nat :=
  (p.trail.reverse.find? fun e => sorted.contains e.lit).map VEntry.lit

/-- `vivify_learn` (vivify.c:769-777): none for the empty clause, which is not expected.  The solver backtracks further at the
end. -/
def VState.learn (p : VState) (cand : Nat) (c : List Nat) (root : List Nat) : Option VState :=
  match c with
  | [] => none
  | [u] => some ⟨((p.s.learnedUnit u).markGarbage cand).propagateRoot (fun _ => true) root, [], 0⟩
  | [a, b] => some ⟨(p.s.newClause [a, b] (p.s.clause cand).redundant).markGarbage cand, [], 0⟩
  | c => some { p with s := (p.s.newClause c (p.s.clause cand).redundant).markGarbage cand }

/-- Instantiation (vivify.c:1195-1221), none if one of the assertions is violated. -/
def VState.instantiate (p : VState) (jump : Bool) (cand : Nat) (sorted : List Nat) (order : List Nat) : Option VState :=
  if p.level ≠ sorted.length then none
  else match sorted.getLast? with
    | none => none
    | some lit =>
      let p := p.backtrack (p.level - 1)
      if p.value lit ≠ 0 then none
      else
        match (p.assume lit).propagate jump cand order with
        | (p, none) => some (p.backtrack (p.level - 2))
        | (p, some _) =>
          if sorted.any (fun l => p.s.values l ≠ 0) then none
          else
          let c := (p.s.clause cand).lits.filter fun m => m ≠ lit && p.s.values m = 0
          let p := { p with s := (p.s.newClause c (p.s.clause cand).redundant).markGarbage cand }
          if p.level = 3 then some (p.backtrack 0) else some (p.backtrack (p.level - 2))

/-- The decisions after the assumptions (vivify.c:1119-1222). -/
def VState.decide (p : VState) (o : VivifyOptions) (cand : Nat) (sorted : List Nat) (conflict implied : Option Nat) :
    Option VState :=
  match p.deduce cand sorted conflict implied with
  | none => none
  | some (.subsumed none) => some { p with s := p.s.markGarbage cand }
  | some (.subsumed (some r)) =>
    if (p.s.clause cand).redundant || !(p.s.clause r).redundant then some { p with s := p.s.markGarbage cand }
    else some { p with s := (p.s.promote r).markGarbage cand }
  | some (.learned c analyzed redundant) =>
    if p.shrinkable sorted c analyzed conflict.isSome then p.learn cand c o.root
    else if implied.isSome && (p.s.clause cand).redundant then some { p with s := p.s.markGarbage cand }
    else if (conflict.isSome || implied.isSome) && !(p.s.clause cand).redundant && !redundant then
      some { p with s := p.s.markGarbage cand }
    else if implied.isSome then some p
    else p.instantiate o.jump cand sorted o.instantiate

/-- `vivify_clause` (vivify.c:924-1252), none if an assertion is violated: that root level propagation was complete, and all
literals are decisions in case of instantiation.  The level to which the solver backtracks at the end
(vivify.c:1224-1230) is an argument.  Candidates which are garbage are not expected, nor redundant ones with removed
variables, since these are flushed when variables are removed. -/
def VState.vivifyClause (p : VState) (o : VivifyOptions) (cand : Nat) : Option VState :=
  let c := p.s.clause cand
  if c.garbage || c.lits.any (fun l => p.s.removed (l / 2)) then some p
  else if c.lits.any (fun l => p.s.values l > 0) then some { p with s := p.s.markGarbage cand }
  else
    let unsorted := c.lits.filter fun l => p.s.values l = 0
    if unsorted.length ≤ 2 then some p
    else
      let p := p.unreason cand
      let sorted := sortByCounts o.counts unsorted
      let a := p.assumeLoop o.jump cand sorted 0 o.orders sorted
      if sorted.any (fun l => a.p.s.values l ≠ 0) then none
      else
        (a.p.decide o cand sorted a.conflict (if a.implied then a.p.betterImplied sorted else none)).map
          fun p => p.backtrack o.back

/-- The loop of `vivify_round` (vivify.c:1292-1312) over the schedule. -/
def VState.vivifyLoop (p : VState) : List (Nat × VivifyOptions) → Option VState
  | [] => some p
  | (cand, o) :: rest =>
    if p.s.inconsistent then some p
    else if (p.s.clause cand).lits.length ≤ 2 then p.vivifyLoop rest
    else match p.vivifyClause o cand with
      | none => none
      | some p => p.vivifyLoop rest

/-- `schedule_vivification_candidates` (vivify.c:231-305) as far as it changes clauses. -/
def State.vivifySimplifyAll (s : State) : List Nat → Option State
  | [] => some s
  | r :: rs => match s.vivifySimplify r with
    | none => none
    | some s => s.vivifySimplifyAll rs

/-- `vivify_round` (vivify.c:1254-1350) for one of the tiers. -/
def State.vivifyRound (s : State) (simplified : List Nat) (sched : List (Nat × VivifyOptions)) : Option State :=
  match s.vivifySimplifyAll simplified with
  | none => none
  | some s => (VState.vivifyLoop ⟨s, [], 0⟩ sched).map VState.s

end Verif.Simp
