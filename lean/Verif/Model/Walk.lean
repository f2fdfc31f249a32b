import Verif.Spec.Cnf

/-!
# Local search (walk.c)

Simplifications: arrays are functions and do not run out of memory; `refs` has the
literals of a clause instead of a tagged reference into arena or the stack of binary
clauses; statistics, effort limits and messages are left out.  The floating point scores
and the random number generator are abstracted: which literal of the clause is picked is a
parameter of every step.  Entering and leaving dense mode is in `Model/Simp/Dense`.
-/

namespace Verif.Walk

open Verif.Spec

/-- Update of an array. -/
def set {α : Type} (f : Nat → α) (i : Nat) (a : α) : Nat → α := fun j => if j = i then a else f j

/-- A clause in the arena (clause.h:11-38). -/
structure Clause where
  redundant : Bool
  garbage : Bool
  lits : List Nat
  deriving DecidableEq

/-- The part of the solver `kissat_walk` reads: number of variables, active flags, root
assignment, saved phases, result of `kissat_decide_phase`, irredundant binary clauses
collected by `kissat_enter_dense_mode` and the clauses in the arena. -/
structure Input where
  vars : Nat
  active : Nat → Bool
  root : Nat → Int
  saved : Nat → Int
  phase : Nat → Int
  binaries : List (Nat × Nat)
  clauses : List Clause

/-- `struct walker` (walk.c:44-81) with `solver->values` and `solver->watches` as local
search uses them.  `bestTrail = none` is `INVALID_BEST_TRAIL_POS`. -/
structure Walker where
  vars : Nat
  values : Nat → Int
  watches : Nat → List Nat
  refs : List (List Nat)
  count : Nat → Nat
  pos : Nat → Nat
  unsat : List Nat
  trail : List Nat
  bestTrail : Option Nat
  best : Nat → Int
  current : Nat
  initial : Nat
  minimum : Nat
  flipped : Nat

/-- `push_unsat` (walk.c:102-115). -/
def pushUnsat (w : Walker) (r : Nat) : Walker :=
  { w with pos := set w.pos r w.unsat.length, unsat := w.unsat ++ [r] }

/-- `pop_unsat` (walk.c:117-144). -/
def popUnsat (w : Walker) (r pos : Nat) : Walker :=
  let other := w.unsat.getLastD 0
  let unsat := w.unsat.dropLast
  let w := { w with unsat := unsat, current := w.current - 1 }
  if r ≠ other then { w with pos := set w.pos other pos, unsat := unsat.set pos other }
  else w

/-- The values `import_decision_phases` (walk.c:196-224) assigns. -/
def importedValues (i : Input) : Nat → Int := fun l =>
  if l / 2 < i.vars ∧ i.active (l / 2) = true then
    if l % 2 = 0 then i.phase (l / 2) else - i.phase (l / 2)
  else 0

/-- Start of `init_walker` (walk.c:370-384) up to the end of `import_decision_phases`
(walk.c:196-224). -/
def start (i : Input) : Walker where
  vars := i.vars
  values := importedValues i
  watches := fun _ => []
  refs := []
  count := fun _ => 0
  pos := fun _ => 0
  unsat := []
  trail := []
  bestTrail := some 0
  best := fun v => if v < i.vars ∧ i.active v = true then i.phase v else 0
  current := 0
  initial := 0
  minimum := 0
  flipped := 0

/-- Watching all literals of a new clause which have a value (walk.c:248-251, 313-323). -/
def watchLiterals (values : Nat → Int) (r : Nat) : List Nat → (Nat → List Nat) → Nat → List Nat
  | [], W => W
  | l :: ls, W =>
    watchLiterals values r ls (if values l = 0 then W else set W l (W l ++ [r]))

/-- Connecting one clause (walk.c:246-259, 307-334). -/
def connect (w : Walker) (lits : List Nat) : Walker :=
  let r := w.refs.length
  let n := lits.countP fun l => 0 < w.values l
  let w := { w with
    refs := w.refs ++ [lits]
    watches := watchLiterals w.values r lits w.watches
    count := set w.count r n }
  if n = 0 then pushUnsat w r else w

/-- `connect_binary_counters` (walk.c:226-270): binary clauses with a literal without value
are skipped. -/
def connectBinary : List (Nat × Nat) → Walker → Walker
  | [], w => w
  | (a, b) :: bs, w =>
    connectBinary bs (if w.values a = 0 ∨ w.values b = 0 then w else connect w [a, b])

/-- `connect_large_counters` (walk.c:272-342): clauses satisfied by the root assignment
become garbage.  The cut at the last irredundant clause is left out since there is no
irredundant clause after it. -/
def connectLarge (root : Nat → Int) : List Clause → Walker → Walker × List Clause
  | [], w => (w, [])
  | c :: cs, w =>
    if c.garbage || c.redundant then
      let (w, cs) := connectLarge root cs w
      (w, c :: cs)
    else if c.lits.any fun l => 0 < root l then
      let (w, cs) := connectLarge root cs w
      (w, { c with garbage := true } :: cs)
    else
      let (w, cs) := connectLarge root cs (connect w c.lits)
      (w, c :: cs)

/-- `init_walker` (walk.c:370-410). -/
def init (i : Input) : Walker × List Clause :=
  let (w, cs) := connectLarge i.root i.clauses (connectBinary i.binaries (start i))
  let n := w.unsat.length
  ({ w with current := n, initial := n, minimum := n }, cs)

/-- `pick_literal` (walk.c:468-536).  `choice` is the position of the picked literal among
the literals with a value; the last one if there are fewer.  `none`: the clause or the
literal does not exist (division by zero or `INVALID_LIT`). -/
def pickLiteral (w : Walker) (choice : Nat) : Option (Walker × Nat) :=
  if w.current = 0 then none
  else
    let pos := w.flipped % w.current
    let w := { w with flipped := w.flipped + 1 }
    match w.unsat[pos]? with
    | none => none
    | some r =>
      let lits := (w.refs.getD r []).filter fun l => w.values l ≠ 0
      match lits[choice]?.or lits.getLast? with
      | none => none
      | some lit => some (w, lit)

/-- Loop body of `make_clauses` (walk.c:585-599). -/
def makeClause (w : Walker) (r : Nat) : Walker :=
  let n := w.count r
  let w := { w with count := set w.count r (n + 1) }
  if n ≠ 0 then w else popUnsat w r (w.pos r)

/-- Loop body of `break_clauses` (walk.c:551-563). -/
def breakClause (w : Walker) (r : Nat) : Walker :=
  let n := w.count r - 1
  let w := { w with count := set w.count r n }
  if n ≠ 0 then w else pushUnsat w r

/-- `flip_literal` (walk.c:698-708) with `make_clauses` (walk.c:574-606) and
`break_clauses` (walk.c:538-572). -/
def flipLiteral (w : Walker) (lit : Nat) : Walker :=
  let value := w.values lit
  let w := { w with values := set (set w.values lit (- value)) (neg lit) value }
  let w := (w.watches lit).foldl makeClause w
  let w := (w.watches (neg lit)).foldl breakClause w
  { w with current := w.unsat.length }

/-- `save_all_values` (walk.c:608-622). -/
def saveAllValues (w : Walker) : Walker :=
  { w with
    best := fun v => if v < w.vars ∧ w.values (2 * v) ≠ 0 then w.values (2 * v) else w.best v
    bestTrail := some 0 }

/-- Storing one literal of the trail (walk.c:639-644). -/
def store (best : Nat → Int) (lit : Nat) : Nat → Int :=
  set best (lit / 2) (if lit % 2 = 0 then 1 else -1)

/-- `save_walker_trail` (walk.c:624-662); `p` is the best position. -/
def saveTrail (w : Walker) (p : Nat) (keep : Bool) : Walker :=
  let w := { w with best := (w.trail.take p).foldl store w.best }
  if keep then { w with trail := w.trail.drop p, bestTrail := some 0 } else w

/-- `push_flipped` (walk.c:664-696). -/
def pushFlipped (w : Walker) (lit : Nat) : Walker :=
  match w.bestTrail with
  | none => w
  | some p =>
    if w.trail.length < w.vars / 4 + 1 then { w with trail := w.trail ++ [lit] }
    else if p ≠ 0 then
      let w := saveTrail w p true
      { w with trail := w.trail ++ [lit] }
    else { w with trail := [], bestTrail := none }

/-- `update_best` (walk.c:710-737). -/
def updateBest (w : Walker) : Walker :=
  let w := { w with minimum := w.current }
  match w.bestTrail with
  | none => saveAllValues w
  | some _ => { w with bestTrail := some w.trail.length }

/-- `local_search_step` (walk.c:739-753). -/
def localSearchStep (w : Walker) (choice : Nat) : Option Walker :=
  match pickLiteral { w with flipped := w.flipped + 1 } choice with
  | none => none
  | some (w, lit) =>
    let w := pushFlipped (flipLiteral w lit) lit
    some (if w.current < w.minimum then updateBest w else w)

/-- `local_search_round` (walk.c:755-782).  The list ends when the limit is reached or
termination is requested. -/
def localSearchRound : List Nat → Walker → Option Walker
  | [], w => some w
  | choice :: choices, w =>
    if w.minimum = 0 then some w
    else
      match localSearchStep w choice with
      | none => none
      | some w => localSearchRound choices w

/-- `save_final_minimum` (walk.c:793-817) with `export_best_values` (walk.c:784-791):
the saved phases afterwards and whether they changed. -/
def saveFinalMinimum (saved : Nat → Int) (w : Walker) : (Nat → Int) × Bool :=
  if w.minimum = w.initial then (saved, false)
  else
    let w :=
      match w.bestTrail with
      | none => w
      | some p => if p = 0 then w else saveTrail w p false
    (fun v => if v < w.vars then w.best v else saved v, true)

/-- What local search leaves behind: `release_walker` (walk.c:423-437) restores the root
assignment; `initial` and `minimum` are the numbers reported. -/
structure Output where
  values : Nat → Int
  saved : Nat → Int
  clauses : List Clause
  initial : Nat
  minimum : Nat
  improved : Bool

/-- `walking_phase` (walk.c:886-909). -/
def walk (i : Input) (choices : List Nat) : Option Output :=
  let (w, cs) := init i
  match localSearchRound choices w with
  | none => none
  | some w =>
    let (saved, improved) := saveFinalMinimum i.saved w
    some ⟨i.root, saved, cs, w.initial, w.minimum, improved⟩

end Verif.Walk
