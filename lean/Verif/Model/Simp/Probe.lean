import Verif.Model.Simp.Substitute

/-!
# Probing on binary clauses: transitive reduction and backbone extraction

`transitive.c`, `backbone.c`.  Temporary assignments are lists of literals (the part of the trail
after the root level units, oldest literal first).  Effort limits, termination, the schedule and in
which order `kissat_probing_propagate` visits clauses are arguments.
-/

namespace Verif.Simp

open Verif.Spec Verif.Model

/-- `VALUE (lit)` with the temporary assignment `trail`. -/
def State.probeValue (s : State) (trail : List Nat) (l : Nat) : Int :=
  if trail.contains l then 1 else if trail.contains (neg l) then -1 else s.values l

/-! ## Transitive reduction -/

/-- Variables `transitive` and `failed` of `transitive_reduce`, and the trail if both are false. -/
inductive Reached
  | transitive
  | failed
  | more (trail : List Nat)
  deriving DecidableEq, Repr

/-- The loop over the watches of `not_lit` (transitive.c:125-147).  The watch `p` of `src` is skipped
there, but not the watch of `dst` for the same clause. -/
def State.transitiveWatches (s : State) (src p dst notLit : Nat) : List Nat → List Nat → Reached
  | [], trail => .more trail
  | q :: qs, trail =>
    if notLit = src ∧ q = p then s.transitiveWatches src p dst notLit qs trail
    else match s.binaryOther notLit q with
      | none => s.transitiveWatches src p dst notLit qs trail
      | some other =>
        if other = dst then .transitive
        else if s.probeValue trail other < 0 then .failed
        else if s.probeValue trail other = 0 then s.transitiveWatches src p dst notLit qs (trail ++ [other])
        else s.transitiveWatches src p dst notLit qs trail

/-- The loop over the trail (transitive.c:113-148), with the position `propagate`.  There are at most as many literals on the
trail as there are variables, thus `fuel` is not used up. -/
def State.transitiveLoop (s : State) (src p dst : Nat) : Nat → List Nat → Nat → Reached
  | 0, trail, _ => .more trail
  | fuel + 1, trail, propagate =>
    match trail[propagate]? with
    | none => .more trail
    | some lit =>
      match s.transitiveWatches src p dst (neg lit) (s.occurrences (neg lit)) trail with
      | .more trail => s.transitiveLoop src p dst fuel trail (propagate + 1)
      | r => r

/-- The loop over the watches of `src` (transitive.c:96-185), which gives `failed`.  After `limit` tests the
effort limit is hit. -/
def State.transitiveTry (s : State) (src : Nat) : Nat → List Nat → State × Bool
  | _, [] => (s, false)
  | limit, p :: ps =>
    match s.binaryOther src p with
    | none => s.transitiveTry src limit ps
    | some dst =>
      if dst < src then s.transitiveTry src limit ps
      else if s.values dst ≠ 0 then s.transitiveTry src limit ps
      else
        match s.transitiveLoop src p dst (s.exports.length + 1) [neg src] 0, limit with
        | .failed, _ => (s, true)
        | .transitive, 0 => (s.markGarbage p, false)
        | .transitive, limit + 1 => (s.markGarbage p).transitiveTry src limit ps
        | .more _, 0 => (s, false)
        | .more _, limit + 1 => s.transitiveTry src limit ps

/-- `transitive_reduce` (transitive.c:77-218). -/
def State.transitiveReduce (s : State) (src limit : Nat) (order : List Nat) : State :=
  match s.transitiveTry src limit (s.occurrences src) with
  | (s, true) => (s.learnedUnit src).propagateRoot (fun _ => true) order
  | (s, false) => s

/-- The loop of `kissat_transitive_reduction` (transitive.c:333-357). -/
def State.transitiveReduction (s : State) : List (Nat × Nat × List Nat) → State
  | [] => s
  | (lit, limit, order) :: rest =>
    if s.inconsistent then s
    else if !s.active (lit / 2) then s.transitiveReduction rest
    else (s.transitiveReduce lit limit order).transitiveReduction rest

/-! ## Backbone -/

/-- An assigned literal and its reason, which is none for a decision (`DECISION_REASON`) and for a
unit (`UNIT_REASON`). -/
abbrev Assigned := Nat × Option Nat

/-- `backbone_propagate_literal` (backbone.c:151-203) without the beginning: the trail and the conflict. -/
def State.backboneWatches (s : State) (lit : Nat) : List Nat → List Assigned → List Assigned × Option (Nat × Nat)
  | [], trail => (trail, none)
  | q :: qs, trail =>
    match s.binaryOther (neg lit) q with
    | none => s.backboneWatches lit qs trail
    | some other =>
      if s.probeValue (trail.map Prod.fst) other > 0 then s.backboneWatches lit qs trail
      else if s.probeValue (trail.map Prod.fst) other < 0 then (trail, some (neg lit, other))
      else s.backboneWatches lit qs (trail ++ [(other, some lit)])

/-- `backbone_propagate` (backbone.c:205-237) starting at position `propagate`. -/
def State.backbonePropagate (s : State) : Nat → List Assigned → Nat → List Assigned × Option (Nat × Nat)
  | 0, trail, _ => (trail, none)
  | fuel + 1, trail, propagate =>
    match trail[propagate]? with
    | none => (trail, none)
    | some (lit, _) =>
      match s.backboneWatches lit (s.occurrences (neg lit)) trail with
      | (trail, some conflict) => (trail, some conflict)
      | (trail, none) => s.backbonePropagate fuel trail (propagate + 1)

/-- The loop of `backbone_analyze` (backbone.c:273-298) over the trail, last literal first.  `none` means
accessing memory before the trail, or using one of the reasons which are no literals as an index. -/
def backboneAnalyze : List Assigned → List Nat → Option Nat
  | [], _ => none
  | (lit, reason) :: rest, analyzed =>
    if !analyzed.contains (lit / 2) then backboneAnalyze rest analyzed
    else match reason with
      | none => none
      | some reason =>
        if !analyzed.contains (reason / 2) then backboneAnalyze rest (reason / 2 :: analyzed) else some reason

/-- The loop over the candidates in one round (backbone.c:385-457): the unit for which propagation failed
(variable `inconsistent`), and the units found.  The first candidates which fit in the effort limit are
given; which ones are removed for the next round is left open. -/
def State.backboneRound (s : State) : List Nat → List Assigned → List Nat → Option (Option Nat × List Nat)
  | [], _, units => some (none, units)
  | probe :: rest, trail, units =>
    if s.probeValue (trail.map Prod.fst) probe ≠ 0 then s.backboneRound rest trail units
    else match s.backbonePropagate (s.exports.length + 1) (trail ++ [(probe, none)]) trail.length with
      | (trail', none) => s.backboneRound rest trail' units
      | (trail', some (a, b)) =>
        match backboneAnalyze trail'.reverse [b / 2, a / 2] with
        | none => none
        | some uip =>
          match s.backbonePropagate (s.exports.length + 1) (trail ++ [(neg uip, none)]) trail.length with
          | (_, some _) => some (some (neg uip), units ++ [neg uip])
          | (trail', none) => s.backboneRound rest trail' (units ++ [neg uip])

/-- `compute_backbone` (backbone.c:317-570) with the candidates of each round.  Only active literals are
scheduled (backbone.c:16-68). -/
def State.backbone (s : State) : List (List Nat × List Nat) → Option State
  | [] => some s
  | (candidates, order) :: rounds =>
    if s.inconsistent then some s
    else match s.backboneRound (candidates.filter fun l => s.active (l / 2)) [] [] with
      | none => none
      | some (some unit, _) => some ((s.learnedUnit unit).propagateRoot (fun _ => true) order)
      | some (none, []) => s.backbone rounds
      | some (none, units) =>
        ((units.foldl State.learnedUnit s).propagateRoot (fun _ => true) order).backbone rounds

end Verif.Simp
