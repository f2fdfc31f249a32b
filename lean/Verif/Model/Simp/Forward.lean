import Verif.Model.Simp.Dense

/-!
# Forward subsumption and strengthening (forward.c)

Which clauses are connected in the (partial) occurrence lists, which candidates are tried in which
order, occurrence limits and effort limits are arguments.
-/

namespace Verif.Simp

open Verif.Spec Verif.Model

/-- The variable of the literal is active (flags.h): neither fixed nor eliminated. -/
def State.activeLit (s : State) (l : Nat) : Bool := s.values l = 0 && !s.removed (l / 2)

/-! ## Duplicated binary clauses -/

/-- `remove_duplicated_binaries_with_literal` (forward.c:13-66).  `elig` says which variables have the
`subsume` flag, `marks` are the marked literals, `delayed` the units found.  A binary clause is in two
watch lists in the code: the second occurrence is removed when the larger literal is visited. -/
def State.duplicatesOf (s : State) (elig : Nat → Bool) (lit : Nat) :
    List Nat → List Nat → List Nat → State × List Nat
  | [], _, delayed => (s, delayed)
  | r :: rs, marks, delayed =>
    match s.binaryOther lit r with
    | none => s.duplicatesOf elig lit rs marks delayed
    | some other =>
      if !(s.activeLit other && elig (other / 2)) then s.duplicatesOf elig lit rs marks delayed
      else if marks.contains other then
        if lit < other then (s.markGarbage r).duplicatesOf elig lit rs marks delayed
        else s.duplicatesOf elig lit rs marks delayed
      else if marks.contains (neg other) then
        s.duplicatesOf elig lit rs (other :: marks) (delayed ++ [lit])
      else s.duplicatesOf elig lit rs (other :: marks) delayed

/-- The loop over the variables (forward.c:77-93). -/
def State.duplicatesAll (s : State) (elig : Nat → Bool) : List Nat → List Nat → State × List Nat
  | [], delayed => (s, delayed)
  | lit :: lits, delayed =>
    if s.activeLit lit && elig (lit / 2) then
      let (s, delayed) := s.duplicatesOf elig lit (s.occurrences lit) [] delayed
      s.duplicatesAll elig lits delayed
    else s.duplicatesAll elig lits delayed

/-- The loop over the delayed units (forward.c:96-117). -/
def State.delayedUnits (s : State) : List Nat → State
  | [] => s
  | u :: us =>
    if s.values u > 0 then s.delayedUnits us
    else if s.values u < 0 then s.learnedEmpty
    else (s.learnedUnit u).delayedUnits us

/-- `remove_all_duplicated_binary_clauses` (forward.c:68-124). -/
def State.removeDuplicates (s : State) (elig : Nat → Bool) (conn : Nat → Nat → Bool) : State :=
  match s.duplicatesAll elig (List.range (2 * s.exports.length)) [] with
  | (s, []) => s
  | (s, units) =>
    let s := s.delayedUnits units
    if s.inconsistent then s else s.flushUnitsWhileConnected conn

/-! ## Subsumption -/

/-- What the loop over the literals of a large clause finds (forward.c:233-264). -/
inductive Subsume
  | satisfied
  | subsuming
  | strengthener (remove : Nat)
  | nothing
  deriving DecidableEq, Repr

/-- The loop over the literals of a large clause (forward.c:229-264).  `candidate` is none as long
as `subsume` is true. -/
def State.match (s : State) (marks : List Nat) : List Nat → Option Nat → Subsume
  | [], none => .subsuming
  | [], some x => .strengthener x
  | other :: rest, candidate =>
    if marks.contains other then s.match marks rest candidate
    else if s.values other < 0 then s.match marks rest candidate
    else if s.values other > 0 then .satisfied
    else match candidate with
      | some _ => .nothing
      | none => if marks.contains (neg other) then s.match marks rest (some (neg other)) else .nothing

/-- `forward_literal` (forward.c:186-306): whether the marked clause is subsumed, and the variable
`remove`. -/
def State.forwardLiteral (s : State) (marks : List Nat) (lit : Nat) (binaries : Bool) :
    List Nat → Option Nat → State × Bool × Option Nat
  | [], remove => (s, false, remove)
  | r :: rs, remove =>
    match s.binaryOther lit r with
    | some other =>
      if !binaries then s.forwardLiteral marks lit binaries rs remove
      else if marks.contains other then (s, true, remove)
      else if marks.contains (neg other) then (s, false, some (neg other))
      else s.forwardLiteral marks lit binaries rs remove
    | none =>
      match s.match marks (s.clause r).lits none with
      | .satisfied => (s.markGarbage r, false, remove)
      | .subsuming => (s, true, remove)
      | .strengthener x => s.forwardLiteral marks lit binaries rs (some x)
      | .nothing => s.forwardLiteral marks lit binaries rs remove

/-- The watches of a literal, in any order: clauses other than the candidate which are connected; none if
there are more than `subsumeocclim` (forward.c:195-196). -/
def State.connectedTo (s : State) (watches : Nat → List Nat) (c lit : Nat) : List Nat :=
  (watches lit).filter fun r => (s.occurrences lit).contains r && r ≠ c

/-- `forward_marked_clause` (forward.c:308-328). -/
def State.forwardMarked (s : State) (watches : Nat → List Nat) (c : Nat) (marks : List Nat) :
    List Nat → Option Nat → State × Bool × Option Nat
  | [], remove => (s, false, remove)
  | lit :: lits, remove =>
    if !s.activeLit lit then s.forwardMarked watches c marks lits remove
    else
      match s.forwardLiteral marks lit true (s.connectedTo watches c lit) remove with
      | (s, true, remove) => (s, true, remove)
      | (s, false, remove) =>
        match s.forwardLiteral marks (neg lit) false (s.connectedTo watches c (neg lit)) remove with
        | (s, true, remove) => (s, true, remove)
        | (s, false, remove) => s.forwardMarked watches c marks lits remove

/-- `forward_subsumed_clause` (forward.c:330-473).  A strengthened clause gets a new reference; the code
shrinks it in place, or makes it a binary clause. -/
def State.forwardSubsumed (s : State) (watches : Nat → List Nat) (conn : Nat → Nat → Bool) (c : Nat) :
    State :=
  let lits := (s.clause c).lits
  if lits.any fun l => s.values l > 0 then s.markGarbage c
  else match lits.filter fun l => ¬ s.values l < 0 with
    | [] => s.learnedEmpty
    | [u] => ((s.learnedUnit u).markGarbage c).flushUnitsWhileConnected conn
    | marks =>
      match s.forwardMarked watches c marks lits none with
      | (s, true, _) => s.markGarbage c
      | (s, false, none) => s
      | (s, false, some remove) =>
        match marks.filter (· ≠ remove) with
        | [u] => ((s.learnedUnit u).markGarbage c).flushUnitsWhileConnected conn
        | d => (s.newClause d false).markGarbage c

/-- `find_forward_subsumption_candidates` (forward.c:126-165) marks satisfied clauses as garbage. -/
def State.flushCandidates (s : State) : List Nat → State
  | [] => s
  | r :: rs =>
    if (s.clause r).garbage || (s.clause r).redundant || (s.clause r).lits.length = 2 then s.flushCandidates rs
    else if (s.clause r).lits.any fun l => s.values l > 0 then (s.markGarbage r).flushCandidates rs
    else s.flushCandidates rs

/-- The loop over the candidates (forward.c:541-566), with what is connected at that time. -/
def State.forwardLoop (s : State) : List (Nat × (Nat → List Nat) × (Nat → Nat → Bool)) → State
  | [] => s
  | (c, watches, conn) :: rest =>
    if (s.clause c).garbage || (s.clause c).redundant || (s.clause c).lits.length = 2 then s.forwardLoop rest
    else
      let s := s.forwardSubsumed watches conn c
      if s.inconsistent then s else s.forwardLoop rest

/-- `kissat_forward_subsume_during_elimination` (forward.c:686-699). -/
def State.forwardSubsume (s : State) (elig : Nat → Bool) (conn : Nat → Nat → Bool) (flushed : List Nat)
    (candidates : List (Nat × (Nat → List Nat) × (Nat → Nat → Bool))) : State :=
  let s := s.removeDuplicates elig conn
  if s.inconsistent then s else (s.flushCandidates flushed).forwardLoop candidates

end Verif.Simp
