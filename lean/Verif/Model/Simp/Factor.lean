import Verif.Model.Simp.Eliminate

/-!
# Bounded variable addition (factor.c)

Simplifications: which clauses are connected (factor.c:956-1065), the schedule, which literal is tried as next factor
(factor.c:324-497: one which replaces the last factor in most clauses, ties broken by scores), limits and termination are
arguments of the model.  The scores, phases and queue positions of the new variables (factor.c:841-894) are not part of
this state.
-/

namespace Verif.Simp

open Verif.Spec Verif.Model

/-- `struct quotient` (factor.c:26-33) -/
structure Quotient where
  factor : Nat
  /-- `clauses` -/
  clauses : List Nat
  /-- `matches`: positions in the clauses of the previous quotient -/
  positions : List Nat
  deriving DecidableEq, Repr

/-- `WATCHES (lit)`: all binary clauses, and the large ones which are connected. -/
def State.factorWatches (s : State) (conn : Nat → Bool) (l : Nat) : List Nat :=
  (s.occurrences l).filter fun r => (s.clause r).lits.length = 2 || conn r

/-- `first_factor` (factor.c:210-234) -/
def State.firstFactor (s : State) (conn : Nat → Bool) (factor : Nat) : Quotient :=
  ⟨factor, s.factorWatches conn factor, []⟩

/-- The first literal with the smallest number of watches (factor.c:536-551). -/
def State.minLit (s : State) (conn : Nat → Bool) : List Nat → Option Nat → Option Nat
  | [], best => best
  | l :: ls, none => s.minLit conn ls (some l)
  | l :: ls, some b =>
    if (s.factorWatches conn b).length ≤ (s.factorWatches conn l).length then s.minLit conn ls (some b)
    else s.minLit conn ls (some l)

/-- The clause which matches the clause `c` with the last factor replaced by `next` (factor.c:522-594).  `used` are
the clauses found before, with flag `quotient` in the code if they are large.  There are no two copies of a binary
clause, after `kissat_enter_dense_mode` (dense.c:13-97), thus a binary clause is never found twice. -/
def State.matchClause (s : State) (conn : Nat → Bool) (factors : List Nat) (factor next : Nat) (used : List Nat)
    (c : Nat) : Option Nat :=
  match s.binaryOther factor c with
  | some q => (s.factorWatches conn q).find? fun d => s.binaryOther q d = some next && !used.contains d
  | none =>
    let quotient := (s.clause c).lits.filter fun l => !factors.contains l
    if (s.clause c).lits.countP factors.contains ≠ 1 then none
    else match s.minLit conn quotient none with
      | none => none
      | some m => (s.factorWatches conn m).find? fun d =>
        (s.clause d).lits.length ≠ 2 && d ≠ c && !used.contains d &&
          (s.clause d).lits.length = (s.clause c).lits.length &&
          (s.clause d).lits.all fun l => quotient.contains l || l = next

/-- The loop over the clauses of the last quotient (factor.c:520-597), at position `i`. -/
def State.factorizeLoop (s : State) (conn : Nat → Bool) (factors : List Nat) (factor next : Nat) :
    Nat → List Nat → List Nat → List Nat → List Nat × List Nat
  | _, [], cs, ps => (cs, ps)
  | i, c :: rest, cs, ps =>
    match s.matchClause conn factors factor next cs c with
    | some d => s.factorizeLoop conn factors factor next (i + 1) rest (cs ++ [d]) (ps ++ [i])
    | none => s.factorizeLoop conn factors factor next (i + 1) rest cs ps

/-- `factorize_next` (factor.c:499-604), where `factors` are the literals marked as factors, `next` among them. -/
def State.factorizeNext (s : State) (conn : Nat → Bool) (factors : List Nat) (last : Quotient) (next : Nat) : Quotient :=
  let r := s.factorizeLoop conn factors last.factor next 0 last.clauses [] []
  ⟨next, r.1, r.2⟩

/-- The loop which adds quotients (factor.c:926-935), the last one first.  `next_factor` returns only active
literals, which are not factors yet, and not new ones (factor.c:352-358). -/
def State.quotientLoop (s : State) (conn : Nat → Bool) (initial : Nat) : List Nat → List Quotient → List Quotient
  | [], qs => qs
  | _, [] => []
  | next :: rest, q :: qs =>
    let factors := (q :: qs).map Quotient.factor
    if factors.contains next || !s.active (next / 2) || next > initial then q :: qs
    else s.quotientLoop conn initial rest (s.factorizeNext conn (next :: factors) q next :: q :: qs)

/-- `best_quotient` (factor.c:606-642): the position of the best quotient and the reduction. -/
def bestQuotient : Nat → List Quotient → Option (Nat × Nat) → Option (Nat × Nat)
  | _, [], best => best
  | factors, q :: qs, best =>
    let before := q.clauses.length * factors
    let after := q.clauses.length + factors
    if before ≤ after then bestQuotient (factors + 1) qs best
    else match best with
      | none => bestQuotient (factors + 1) qs (some (factors - 1, before - after))
      | some (k, b) =>
        if b < before - after then bestQuotient (factors + 1) qs (some (factors - 1, before - after))
        else bestQuotient (factors + 1) qs (some (k, b))

/-- `flush_unmatched_clauses` (factor.c:680-705) for the quotients before one with these `positions`. -/
def flushInto (ps : List Nat) : List Quotient → List Quotient
  | [] => []
  | q :: qs =>
    let positions := ps.map fun j => q.positions.getD j 0
    { q with clauses := ps.map (fun j => q.clauses.getD j 0), positions } :: flushInto positions qs

/-- Flushing all quotients, starting at the best one (factor.c:824-825). -/
def flushUnmatched : List Quotient → List Quotient
  | [] => []
  | q :: qs => q :: flushInto q.positions qs

/-- `kissat_fresh_literal` (import.c:82-100, with adjust_exports_for_external_literal, import.c:17-39): none if there is no
further external variable. -/
def State.freshLiteral (s : State) : Option State :=
  if s.imports.length = 2 ^ 30 - 1 then none
  else some { s with
    exports := s.exports ++ [(s.imports.length : Int)]
    imports := s.imports ++ [⟨2 * s.exports.length, true, false⟩]
    removed := fun v => if v = s.exports.length then false else s.removed v }

/-- `add_factored_divider` (factor.c:707-715) -/
def State.addDivider (s : State) (fresh : Nat) (q : Quotient) : State := s.newClause [fresh, q.factor] false

/-- One clause in `add_factored_quotient` (factor.c:717-753) -/
def State.addQuotient (s : State) (fresh factor r : Nat) : State :=
  s.newClause (neg fresh :: (s.clause r).lits.filter (· ≠ factor)) false

/-- `delete_unfactored` (factor.c:774-797) -/
def State.deleteUnfactored (s : State) (q : Quotient) : State := q.clauses.foldl State.markGarbage s

/-- `apply_factoring` (factor.c:819-839) for the best quotient and its predecessors, and whether it was successful. -/
def State.applyFactoring (s : State) (qs : List Quotient) : State × Bool :=
  match s.freshLiteral, flushUnmatched qs with
  | some s', q :: rest =>
    let fresh := 2 * s.exports.length
    let s' := (q :: rest).foldl (fun s q => s.addDivider fresh q) s'
    let s' := q.clauses.foldl (fun s r => s.addQuotient fresh q.factor r) s'
    ((q :: rest).foldl State.deleteUnfactored s', true)
  | _, _ => (s, false)

/-- One literal of the schedule (factor.c:908-947), and whether the loop goes on.  `initial` is the number of
literals at the beginning and `bound` the number of clauses which have to be saved at least. -/
def State.factorOne (s : State) (initial bound : Nat) (conn : Nat → Bool) (first : Nat) (nexts : List Nat) :
    State × Bool :=
  if !s.active (first / 2) then (s, true)
  else
    let q := s.firstFactor conn first
    if q.clauses.length ≤ 1 then (s, true)
    else
      let qs := s.quotientLoop conn initial nexts [q]
      match bestQuotient 1 qs.reverse none with
      | none => (s, true)
      | some (k, reduction) =>
        if reduction ≤ bound then (s, true) else s.applyFactoring (qs.drop (qs.length - (k + 1)))

/-- The loop of `run_factorization` (factor.c:907-948). -/
def State.factorLoop (s : State) (initial bound : Nat) : List (Nat × (Nat → Bool) × List Nat) → State
  | [] => s
  | (first, conn, nexts) :: rest =>
    match s.factorOne initial bound conn first nexts with
    | (s, true) => s.factorLoop initial bound rest
    | (s, false) => s

/-- `kissat_factor` (factor.c:1067-1136) -/
def State.factorize (s : State) (bound : Nat) (sched : List (Nat × (Nat → Bool) × List Nat)) : State :=
  if s.inconsistent then s else s.factorLoop (2 * s.exports.length) bound sched

end Verif.Simp
