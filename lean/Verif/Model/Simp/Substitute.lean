import Verif.Model.Simp.Scc
import Verif.Model.Simp.Eliminate

/-!
# Equivalent literal substitution

`substitute.c`.  The binary clauses which `add_representative_equivalences` adds to the proof only are
clauses of the arena in the model, until `remove_representative_equivalences` deletes them; no loop and
no propagation visits them.  Changing a large clause in place is adding a clause and deleting the old one.  Binary clauses
are visited in the order of the arena and not literal by literal.  Once the empty clause is found the model stops,
while the code still writes pending deletions.
-/

namespace Verif.Simp

open Verif.Spec Verif.Model

/-! ## Propagation at the root level -/

/-- One clause is visited by propagation at the root level (proplit.h:53-187).  Redundant clauses with
eliminated variables were deleted before (dense.c:141-197). -/
def State.visit (s : State) (r : Nat) : State :=
  if (s.clause r).garbage || (s.clause r).lits.any (fun l => s.values l > 0) then s
  else match (s.clause r).lits.filter fun l => s.values l = 0 with
    | [] => s.learnedEmpty
    | [u] => if s.removed (u / 2) then s else s.learnedUnit u
    | _ => s

/-- Clauses visited in some order. -/
def State.visits (s : State) (watched : Nat → Bool) : List Nat → State
  | [] => s
  | r :: rs =>
    if s.inconsistent then s
    else if watched r then (s.visit r).visits watched rs else s.visits watched rs

/-- A binary clause which has no true literal and at most one unassigned. -/
def State.unitBinary (s : State) (watched : Nat → Bool) : Option Nat :=
  (List.range s.arena.length).find? fun r =>
    watched r && !(s.clause r).garbage && !(s.clause r).redundant && (s.clause r).lits.length = 2 &&
      (s.clause r).lits.all (fun l => s.values l ≤ 0) &&
      decide (((s.clause r).lits.filter fun l => s.values l = 0).length ≤ 1)

/-- No binary clause is left out. -/
def State.complete (s : State) (watched : Nat → Bool) : Nat → State
  | 0 => s
  | fuel + 1 =>
    if s.inconsistent then s
    else match s.unitBinary watched with
      | none => s
      | some r => (s.visit r).complete watched fuel

/-- `kissat_probing_propagate` at the root level (proprobe.c:37-62).  The clauses are visited in any order, and no binary
clause is missed (`complete`: at most as many iterations as there are variables). -/
def State.propagateRoot (s : State) (watched : Nat → Bool) (order : List Nat) : State :=
  (s.visits watched order).complete watched (s.exports.length + 1)

/-- `assign_and_propagate_units` (substitute.c:14-36). -/
def State.assignUnits (s : State) (watched : Nat → Bool) (order : State → List Nat) : List Nat → State
  | [] => s
  | unit :: units =>
    if s.inconsistent then s
    else if s.values unit > 0 then s.assignUnits watched order units
    else if s.values unit < 0 then s.learnedEmpty
    else ((s.learnedUnit unit).propagateRoot watched (order (s.learnedUnit unit))).assignUnits watched order units

/-! ## Representatives -/

/-- The active literals `other` with a binary clause `¬lit ∨ other`
(`all_binary_blocking_watches` of `NOT (lit)`, substitute.c:82-89 and 169-175). -/
def State.implied (s : State) (lit : Nat) : List Nat :=
  (List.range s.arena.length).filterMap fun r =>
    if !(s.clause r).garbage && !(s.clause r).redundant && (s.clause r).lits.contains (neg lit) then
      (s.binaryOther (neg lit) r).filter fun other => s.active (other / 2)
    else none

/-- `add_representative_equivalences` (substitute.c:205-231), with the variables to eliminate and the first of
the two clauses of each. -/
def State.addEquivalences (repr : Nat → Nat) : State → List Nat → State × List (Nat × Nat)
  | s, [] => (s, [])
  | s, idx :: rest =>
    if !s.active idx || repr (2 * idx) = 2 * idx then s.addEquivalences repr rest
    else
      let lit := 2 * idx
      let other := repr lit
      match ((s.newClause [neg lit, other] false).newClause [lit, neg other] false).addEquivalences repr rest with
      | (s', eqs) => (s', (idx, s.arena.length) :: eqs)

/-! ## Substitution -/

/-- The binary clauses with their literals in order (`lit < other`): units, clauses deleted later as they became
tautological or units, clauses deleted later which were replaced (substitute.c:276-363). -/
def State.substituteBinaries (repr : Nat → Nat) : State → List Nat → State × List Nat × List Nat × List Nat
  | s, [] => (s, [], [], [])
  | s, r :: rs =>
    match (s.clause r).garbage || (s.clause r).redundant, (s.clause r).lits with
    | false, [a, b] =>
      let lit := if a < b then a else b
      let other := if a < b then b else a
      if repr other = neg (repr lit) then
        match s.substituteBinaries repr rs with
        | (s, units, deleted, removed) => (s, units, r :: deleted, removed)
      else if repr other = repr lit then
        match s.substituteBinaries repr rs with
        | (s, units, deleted, removed) => (s, units ++ [repr lit], r :: deleted, removed)
      else if lit = repr lit && other = repr other then s.substituteBinaries repr rs
      else
        match (s.newClause [repr lit, repr other] false).substituteBinaries repr rs with
        | (s, units, deleted, removed) => (s, units, deleted, r :: removed)
    | _, _ => s.substituteBinaries repr rs

/-- `kissat_delete_binary`, `kissat_mark_clause_as_garbage` for delayed clauses. -/
def State.deleteAll (s : State) : List Nat → State
  | [] => s
  | r :: rs => (s.markGarbage r).deleteAll rs

/-- The literals of a clause substituted (substitute.c:411-461): `none` if it is satisfied or tautological, otherwise the
new literals and whether `substitute` or `shrink` holds.  `marks` are the literals already pushed. -/
def State.substituted (s : State) (repr : Nat → Nat) : List Nat → List Nat → Bool → Option (List Nat × Bool)
  | [], marks, changed => some (marks.reverse, changed)
  | lit :: rest, marks, changed =>
    if s.values lit < 0 then s.substituted repr rest marks true
    else if s.values lit > 0 then none
    else if s.values (repr lit) < 0 then s.substituted repr rest marks true
    else if s.values (repr lit) > 0 then none
    else if marks.contains (repr lit) then s.substituted repr rest marks true
    else if marks.contains (neg (repr lit)) then none
    else s.substituted repr rest (repr lit :: marks) (changed || lit ≠ repr lit)

/-- The large clauses (substitute.c:401-533): units, and clauses deleted later.  Clauses with eliminated
variables were deleted before (dense.c:141-197). -/
def State.substituteClauses (repr : Nat → Nat) : State → List Nat → State × List Nat × List Nat
  | s, [] => (s, [], [])
  | s, r :: rs =>
    if (s.clause r).garbage || (s.clause r).lits.length = 2 || (s.clause r).lits.any (fun l => s.removed (l / 2)) then
      s.substituteClauses repr rs
    else match s.substituted repr (s.clause r).lits [] false with
      | none => (s.markGarbage r).substituteClauses repr rs
      | some (_, false) => s.substituteClauses repr rs
      | some ([], true) => (s.learnedEmpty, [], [])
      | some ([u], true) =>
        match s.substituteClauses repr rs with
        | (s, units, delayed) => (s, units ++ [u], r :: delayed)
      | some (c, true) => ((s.newClause c (s.clause r).redundant).markGarbage r).substituteClauses repr rs

/-- One variable in `remove_representative_equivalences` (substitute.c:239-270). -/
def State.removeEquivalence (s : State) (repr : Nat → Nat) (incremental : Bool) (idx e : Nat) : State :=
  let lit := 2 * idx
  let other := repr lit
  let s := ((s.markGarbage e).markGarbage (e + 1)).markEliminated idx
  if incremental || s.values other ≠ 0 then
    let s := if s.values other ≤ 0 then s.weaken (neg lit) [neg lit, other] else s
    if s.values other ≥ 0 then s.weaken lit [lit, neg other] else s
  else (s.weaken (neg lit) [neg lit, other]).weaken lit [lit]

/-- `remove_representative_equivalences` (substitute.c:233-274). -/
def State.removeEquivalences (repr : Nat → Nat) (incremental : Bool) : State → List (Nat × Nat) → State
  | s, [] => s
  | s, (idx, e) :: eqs => (s.removeEquivalence repr incremental idx e).removeEquivalences repr incremental eqs

/-- Options, and the orders in which clauses are propagated.  `fuel` bounds the iterations of a loop which
terminates. -/
structure SubstituteOptions where
  fuel : Nat
  incremental : Bool
  order : State → List Nat

/-- The second half of `substitute_round` (substitute.c:551-554), with the representatives. -/
def State.substituteWith (s : State) (o : SubstituteOptions) (repr : Nat → Nat) : State :=
  match s.addEquivalences repr (List.range s.exports.length) with
  | (s1, eqs) =>
    match s1.substituteBinaries repr (List.range s.arena.length) with
    | (s2, units, deleted, removed) =>
      let watched := fun (s : State) r => (s.clause r).lits.all fun l => repr l = l
      let s3 := s2.assignUnits (watched s2) o.order units
      if s3.inconsistent then s3
      else
        let s4 := s3.deleteAll (deleted ++ removed)
        match s4.substituteClauses repr (List.range s4.arena.length) with
        | (s5, units, delayed) =>
          if s5.inconsistent then s5
          else
            let s6 := s5.assignUnits (watched s5) o.order units
            if s6.inconsistent then s6
            else (s6.deleteAll delayed).removeEquivalences repr o.incremental eqs

/-- `substitute_round` (substitute.c:544-566). -/
def State.substituteRound (s : State) (o : SubstituteOptions) : State :=
  match Scc.determine s.implied (fun a => s.active (a / 2)) (2 * s.exports.length) o.fuel with
  | none => s
  | some t =>
    let s := s.assignUnits (fun _ => true) o.order t.units
    if s.inconsistent then s else s.substituteWith o fun a => (t.repr a).getD a

end Verif.Simp
