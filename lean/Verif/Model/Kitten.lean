import Verif.Spec.Cnf
import Verif.Model.Core.State

/-!
# The embedded solver kitten

Model of `kitten.c` as compiled into the library (without `STAND_ALONE_KITTEN`).

Simplifications:
* a reference is the index of the clause, not its offset in the stack of words `klauses`
  (kitten.c:155-160), so the limits on references (kitten.c:148, 851-861) are left out;
* arrays indexed by literals or variables are functions and grow by themselves
  (kitten.c:546-597, 897-921);
* the stacks `analyzed`, `klause` and `resolved` and the array `marks` are empty respectively
  zero between functions and are local here;
* the decision queue, phases and ticks only influence which literal is decided and when the
  search is interrupted: both are arguments (`Choice`).  Hence `enqueue`, `dequeue`, `bump`,
  `kitten_shuffle_clauses`, `kitten_randomize_phases`, `kitten_flip_phases` and the limits on
  ticks do not occur;
* `none` is an invalid access, a failing assertion or a call of `abort` through
  `INVALID_API_USAGE`.
-/

namespace Verif.Kitten

open Verif.Spec (neg)
open Verif.Core (upd)

/-- `struct klause` (kitten.c:155-160): for original clauses `aux` is the identifier, for learned
clauses it is the number of antecedents which follow the literals (kitten.c:843-846). -/
structure Klause where
  learned : Bool
  core : Bool
  id : Nat
  lits : List Nat
  ants : List Nat
  deriving DecidableEq, Repr

/-- `struct katch` (kitten.c:143-147). -/
structure Katch where
  blit : Nat
  ref : Nat
  binary : Bool
  deriving DecidableEq, Repr

/-- `struct kar` (kitten.c:128-131), `none` is `INVALID`. -/
structure Kar where
  level : Nat
  reason : Option Nat
  deriving DecidableEq, Repr

/-- `struct kitten` (kitten.c:188-254). -/
structure Kitten where
  status : Nat
  antecedents : Bool
  learned : Bool
  level : Nat
  propagated : Nat
  unassigned : Nat
  inconsistent : Option Nat
  failing : Option Nat
  /-- internal variable plus one, zero if the external variable is unknown -/
  imports : Nat → Nat
  exports : List Nat
  vars : Nat → Kar
  values : Nat → Int
  failed : Nat → Bool
  watches : Nat → List Katch
  assumptions : List Nat
  core : List Nat
  klauses : List Klause
  trail : List Nat
  units : List Nat

/-- `kitten_embedded` (kitten.c:661-673) with `initialize_kitten` (kitten.c:523-531). -/
def Kitten.init : Kitten :=
  { status := 0, antecedents := false, learned := false, level := 0, propagated := 0,
    unassigned := 0, inconsistent := none, failing := none, imports := fun _ => 0, exports := [],
    vars := fun _ => ⟨0, none⟩, values := fun _ => 0, failed := fun _ => false,
    watches := fun _ => [], assumptions := [], core := [], klauses := [], trail := [], units := [] }

/-- `kitten_clear` (kitten.c:974-1013) with `clear_kitten` (kitten.c:533-540). -/
def Kitten.clear (_ : Kitten) : Kitten := Kitten.init

/-- `kitten_track_antecedents` (kitten.c:677-685). -/
def Kitten.track (k : Kitten) : Option Kitten :=
  if k.status ≠ 0 ∨ k.learned = true then none else some { k with antecedents := true }

/-- Level of the variable of a literal. -/
def Kitten.lev (k : Kitten) (l : Nat) : Nat := (k.vars (l / 2)).level

/-- Reason of the variable of a literal. -/
def Kitten.why (k : Kitten) (l : Nat) : Option Nat := (k.vars (l / 2)).reason

/-- `watch_klause` (kitten.c:806-829). -/
def Kitten.watch (k : Kitten) (lit blit ref : Nat) (binary : Bool) : Kitten :=
  { k with watches := upd k.watches lit (k.watches lit ++ [⟨blit, ref, binary⟩]) }

/-- `connect_new_klause` (kitten.c:831-849). -/
def Kitten.connect (k : Kitten) (ref : Nat) : List Nat → Kitten
  | [] => if k.inconsistent = none then { k with inconsistent := some ref } else k
  | [_] => { k with units := k.units ++ [ref] }
  | a :: b :: rest => (k.watch a b ref rest.isEmpty).watch b a ref rest.isEmpty

/-- `new_original_klause` (kitten.c:864-880). -/
def Kitten.newOriginal (k : Kitten) (id : Nat) (lits : List Nat) : Kitten :=
  Kitten.connect { k with klauses := k.klauses ++ [⟨false, false, id, lits, []⟩] } k.klauses.length lits

/-- `new_learned_klause` (kitten.c:949-972); the reference is `k.klauses.length`. -/
def Kitten.newLearned (k : Kitten) (lits resolved : List Nat) : Kitten :=
  Kitten.connect
    { k with
      klauses := k.klauses ++ [⟨true, false, 0, lits, if k.antecedents then resolved else []⟩]
      learned := true } k.klauses.length lits

/-- `import_literal` (kitten.c:907-931): the new variable has no value and is added to the
unassigned ones by `init_queue` (kitten.c:511-521). -/
def Kitten.importLit (k : Kitten) (elit : Nat) : Kitten × Nat :=
  let i := k.imports (elit / 2)
  if i = 0 then
    ({ k with
      exports := k.exports ++ [elit / 2]
      imports := upd k.imports (elit / 2) (k.exports.length + 1)
      unassigned := k.unassigned + 1 }, 2 * k.exports.length + elit % 2)
  else (k, 2 * (i - 1) + elit % 2)

/-- `export_literal` (kitten.c:933-939). -/
def Kitten.exportLit (k : Kitten) (ilit : Nat) : Option Nat :=
  k.exports[ilit / 2]?.map fun e => 2 * e + ilit % 2

/-- References resolved with the reason of a root-level literal (kitten.c:1083-1092). -/
def Kitten.rootReasons (k : Kitten) (lit : Nat) (c : Klause) : Option (List Nat) :=
  if k.antecedents then (c.lits.filter (· ≠ lit)).mapM k.why else some []

/-- The part of `assign` before the reason is set (kitten.c:1066-1079, 1100-1102). -/
def Kitten.setTrue (k : Kitten) (lit : Nat) : Kitten :=
  { k with
    values := upd (upd k.values lit 1) (neg lit) (-1)
    trail := k.trail ++ [lit]
    unassigned := k.unassigned - 1 }

/-- Level and reason of a variable. -/
def Kitten.setVar (k : Kitten) (lit : Nat) (reason : Option Nat) : Kitten :=
  { k with vars := upd k.vars (lit / 2) ⟨k.level, reason⟩ }

/-- `assign` (kitten.c:1057-1103): on root level a unit clause is learned. -/
def Kitten.assign (k : Kitten) (lit : Nat) (reason : Option Nat) : Option Kitten :=
  if k.unassigned = 0 then none
  else if k.level = 0 then
    match reason with
    | none => none
    | some ref =>
      match k.klauses[ref]? with
      | none => none
      | some c =>
        if 1 < c.lits.length then
          match k.rootReasons lit c with
          | none => none
          | some others =>
            some (((k.setTrue lit).newLearned [lit] (ref :: others)).setVar lit (some k.klauses.length))
        else some ((k.setTrue lit).setVar lit (some ref))
  else some ((k.setTrue lit).setVar lit reason)

/-- The literals of a clause are replaced. -/
def Kitten.setLits (k : Kitten) (ref : Nat) (lits : List Nat) : Kitten :=
  { k with klauses := k.klauses.modify ref fun c => { c with lits := lits } }

/-- The loop of `propagate_literal` over the watches of `notLit` (kitten.c:1115-1178): watches
still to be visited, watches kept; the result has the conflict. -/
def Kitten.visit (notLit : Nat) : List Katch → List Katch → Kitten → Option (Kitten × List Katch × Option Nat)
  | [], kept, k => some (k, kept, none)
  | w :: rest, kept, k =>
    if 0 < k.values w.blit then Kitten.visit notLit rest (kept ++ [w]) k
    else if w.binary then
      if k.values w.blit < 0 then some (k, kept ++ w :: rest, some w.ref)
      else
        match k.assign w.blit (some w.ref) with
        | none => none
        | some k' => Kitten.visit notLit rest (kept ++ [w]) k'
    else
      match k.klauses[w.ref]? with
      | some ⟨_, _, _, a :: b :: others, _⟩ =>
        let other := a ^^^ b ^^^ notLit
        if 0 < k.values other then Kitten.visit notLit rest (kept ++ [{ w with blit := other }]) k
        else
          match others.findIdx? fun m => 0 ≤ k.values m with
          | some i =>
            let replacement := others.getD i 0
            Kitten.visit notLit rest kept
              ((k.setLits w.ref (other :: replacement :: others.set i notLit)).watch replacement other w.ref false)
          | none =>
            if k.values other < 0 then some (k, kept ++ w :: rest, some w.ref)
            else
              match k.assign other (some w.ref) with
              | none => none
              | some k' => Kitten.visit notLit rest (kept ++ [w]) k'
      | _ => none

/-- `propagate_literal` (kitten.c:1105-1182). -/
def Kitten.propagateLit (k : Kitten) (lit : Nat) : Option (Kitten × Option Nat) :=
  match Kitten.visit (neg lit) (k.watches (neg lit)) [] k with
  | none => none
  | some (k', kept, conflict) => some ({ k' with watches := upd k'.watches (neg lit) kept }, conflict)

/-- The loop of `propagate` (kitten.c:1188-1194). -/
def Kitten.propagateLoop : Nat → Kitten → Option (Kitten × Option Nat)
  | 0, _ => none
  | n + 1, k =>
    match k.trail[k.propagated]? with
    | none => some (k, none)
    | some lit =>
      match k.propagateLit lit with
      | none => none
      | some (k', conflict) =>
        let k' := { k' with propagated := k'.propagated + 1 }
        match conflict with
        | some c => some (k', some c)
        | none => Kitten.propagateLoop n k'

/-- `propagate` (kitten.c:1184-1197): there are at most as many rounds as variables. -/
def Kitten.propagate (k : Kitten) : Option (Kitten × Option Nat) :=
  Kitten.propagateLoop (k.exports.length + 1) k

/-- `unassign` for a list of literals (kitten.c:1208-1227). -/
def clearValues (values : Nat → Int) (lits : List Nat) : Nat → Int :=
  lits.foldl (fun v l => upd (upd v l 0) (neg l) 0) values

/-- `backtrack` (kitten.c:1229-1250). -/
def Kitten.backtrack (k : Kitten) (jump : Nat) : Option Kitten :=
  if k.level ≤ jump then none
  else
    let p := fun l => decide (k.lev l ≠ jump)
    let trail := (k.trail.reverse.dropWhile p).reverse
    let popped := k.trail.reverse.takeWhile p
    some { k with
      values := clearValues k.values popped
      unassigned := k.unassigned + popped.length
      trail := trail
      propagated := trail.length
      level := jump }

/-- `completely_backtrack_to_root_level` (kitten.c:1252-1269). -/
def Kitten.restart (k : Kitten) : Kitten :=
  { k with
    values := clearValues k.values k.trail
    unassigned := k.unassigned + k.trail.length
    trail := []
    propagated := 0
    level := 0 }

/-- Local variables of `analyze` (kitten.c:1277-1283): `rest` is the stack `klause` without its
first element. -/
structure Analysis where
  marks : List Nat
  rest : List Nat
  jump : Nat
  opened : Nat
  resolved : List Nat

/-- The new literal of highest level is swapped to the second position (kitten.c:1303-1311). -/
def Analysis.push (s : Analysis) (level lit : Nat) : Analysis :=
  if s.jump < level then
    match s.rest with
    | [] => { s with jump := level, rest := [lit] }
    | first :: others => { s with jump := level, rest := lit :: others ++ [first] }
  else { s with rest := s.rest ++ [lit] }

/-- Analysis of a literal (kitten.c:1292-1315). -/
def Analysis.lit (k : Kitten) (s : Analysis) (lit : Nat) : Analysis :=
  if lit / 2 ∈ s.marks then s
  else
    let s := { s with marks := s.marks ++ [lit / 2] }
    if k.lev lit < k.level then s.push (k.lev lit) lit
    else { s with opened := s.opened + 1 }

/-- The last marked literal and the literals before it (kitten.c:1316-1320). -/
def nextMarked (marks : List Nat) : List Nat → Option (Nat × List Nat)
  | [] => none
  | l :: ls => if l / 2 ∈ marks then some (l, ls) else nextMarked marks ls

/-- The loop of `analyze` (kitten.c:1284-1325); the trail is reversed. -/
def Kitten.analyzeLoop (k : Kitten) : Nat → Nat → List Nat → Analysis → Option (Nat × Analysis)
  | 0, _, _, _ => none
  | n + 1, ref, rev, s =>
    match k.klauses[ref]? with
    | none => none
    | some c =>
      let s := c.lits.foldl (Analysis.lit k) { s with resolved := s.resolved ++ [ref] }
      match nextMarked s.marks rev with
      | none => none
      | some (uip, rev) =>
        if s.opened = 0 then none
        else if s.opened = 1 then some (uip, s)
        else
          match k.why uip with
          | none => none
          | some ref => Kitten.analyzeLoop k n ref rev { s with opened := s.opened - 1 }

/-- `analyze` (kitten.c:1271-1337). -/
def Kitten.analyze (k : Kitten) (conflict : Nat) : Option Kitten :=
  match k.analyzeLoop (k.trail.length + 1) conflict k.trail.reverse ⟨[], [], 0, 0, []⟩ with
  | none => none
  | some (uip, s) =>
    match (k.newLearned (neg uip :: s.rest) s.resolved).backtrack s.jump with
    | none => none
    | some k' => k'.assign (neg uip) (some k.klauses.length)

/-- The falsified assumption to start with: falsified on root level, the negation of another
assumption, or the first (kitten.c:1350-1374). -/
inductive Failed
  | unit (lit : Nat)
  | clashing (lit : Nat)
  | implied (lit : Nat)
  deriving DecidableEq, Repr

/-- The falsified assumptions (kitten.c:1350-1365). -/
def Kitten.falsified (k : Kitten) : List Nat := k.assumptions.filter fun a => k.values a < 0

/-- The choice among them (kitten.c:1350-1374). -/
def Kitten.failedLit (k : Kitten) : Option Failed :=
  match k.falsified.find? fun a => k.lev a = 0 with
  | some a => some (.unit a)
  | none =>
    match k.falsified.find? fun a => k.why a = none with
    | some a => some (.clashing a)
    | none => k.falsified.head?.map .implied

/-- Local variables of the final analysis in `failing`. -/
structure Final where
  marks : List Nat
  clause : List Nat
  resolved : List Nat
  failed : Nat → Bool

/-- Marks the variables of a reason (kitten.c:1421-1430); the new variables are also returned. -/
def markOthers (idx : Nat) : List Nat → List Nat → List Nat → List Nat × List Nat
  | [], marks, new => (marks, new)
  | o :: os, marks, new =>
    if o / 2 = idx ∨ o / 2 ∈ marks then markOthers idx os marks new
    else markOthers idx os (marks ++ [o / 2]) (new ++ [o / 2])

/-- The loop over the analyzed variables in `failing` (kitten.c:1405-1432). -/
def Kitten.finalLoop (k : Kitten) : Nat → List Nat → Final → Option Final
  | _, [], s => some s
  | 0, _ :: _, _ => none
  | n + 1, idx :: todo, s =>
    match (k.vars idx).reason with
    | none =>
      let lit := if k.values (2 * idx) < 0 then 2 * idx + 1 else 2 * idx
      Kitten.finalLoop k n todo { s with clause := s.clause ++ [neg lit], failed := upd s.failed lit true }
    | some ref =>
      match k.klauses[ref]? with
      | none => none
      | some c =>
        let (marks, new) := markOthers idx c.lits s.marks []
        Kitten.finalLoop k n (todo ++ new) { s with marks := marks, resolved := s.resolved ++ [ref] }

/-- `failing` (kitten.c:1339-1454). -/
def Kitten.fail (k : Kitten) : Option Kitten :=
  match k.failedLit with
  | none => none
  | some (.unit a) => some { k with failed := upd k.failed a true, failing := k.why a }
  | some (.clashing a) => some { k with failed := upd (upd k.failed a true) (neg a) true }
  | some (.implied a) =>
    match k.finalLoop (k.exports.length + 1) [a / 2]
        ⟨[a / 2], [neg a], [], upd k.failed a true⟩ with
    | none => none
    | some s =>
      match s.resolved with
      | [] => none
      | [ref] => some { k with failed := s.failed, failing := some ref }
      | _ :: _ :: _ =>
        some { k.newLearned s.clause s.resolved with failed := s.failed, failing := some k.klauses.length }

/-- What is left to heuristics and limits: interruption and the next decision. -/
structure Choice where
  stop : Bool
  lit : Nat

/-- The decided literal: the choice if it has no value, else the first variable without value.
The code searches the queue (kitten.c:1506-1519). -/
def Kitten.pick (k : Kitten) (lit : Nat) : Option Nat :=
  if lit / 2 < k.exports.length ∧ k.values lit = 0 then some lit
  else ((List.range k.exports.length).find? fun v => k.values (2 * v) = 0).map (2 * ·)

/-- The loop over satisfied assumptions in `decide` (kitten.c:1472-1490): failing assumption or
the next decision. -/
inductive Assume
  | failing
  | decision (lit : Nat)
  | all

/-- Increments the level for satisfied assumptions (kitten.c:1472-1490). -/
def Kitten.assumeLoop (values : Nat → Int) : List Nat → Nat → Nat × Assume
  | [], level => (level, .all)
  | a :: as, level =>
    if values a < 0 then (level, .failing)
    else if 0 < values a then Kitten.assumeLoop values as (level + 1)
    else (level, .decision a)

/-- Outcome of `decide`. -/
inductive Decide
  | go (k : Kitten)
  | result (res : Nat) (k : Kitten)
  | stopped (k : Kitten)

/-- The new decision (kitten.c:1521-1524). -/
def Kitten.decideLit (k : Kitten) (lit : Nat) : Option Decide :=
  ({ k with level := k.level + 1 }.assign lit none).map .go

/-- `flush_trail` in `decide` (kitten.c:1456-1466). -/
def Kitten.flush (k : Kitten) : Kitten :=
  if k.level = 0 then { k with propagated := 0, trail := [] } else k

/-- The second part of `decide` (kitten.c:1492-1524): `decision` is the next assumption. -/
def Kitten.decideNext (k : Kitten) (c : Choice) (decision : Option Nat) : Option Decide :=
  if k.unassigned = 0 then some (.result 10 k)
  else if c.stop then some (.stopped k)
  else
    match decision with
    | some lit => k.decideLit lit
    | none =>
      match k.pick c.lit with
      | none => none
      | some lit => k.decideLit lit

/-- `decide` (kitten.c:1464-1525). -/
def Kitten.decide (k : Kitten) (c : Choice) : Option Decide :=
  let k := k.flush
  match Kitten.assumeLoop k.values (k.assumptions.drop k.level) k.level with
  | (level, .failing) => { k with level := level }.fail.map (.result 20)
  | (level, .decision lit) => { k with level := level }.decideNext c (some lit)
  | (level, .all) => { k with level := level }.decideNext c none

/-- Marks the variables of a clause (kitten.c:1555-1563). -/
def markAll : List Nat → List Nat → List Nat → List Nat × List Nat
  | [], marks, new => (marks, new)
  | o :: os, marks, new =>
    if o / 2 ∈ marks then markAll os marks new
    else markAll os (marks ++ [o / 2]) (new ++ [o / 2])

/-- The loop of `inconsistent` (kitten.c:1549-1571): analyzed variables not yet resolved, marks
and resolved references. -/
def Kitten.emptyLoop (k : Kitten) : Nat → Nat → List Nat → List Nat → List Nat → Option (List Nat)
  | 0, _, _, _, _ => none
  | n + 1, ref, todo, marks, resolved =>
    match k.klauses[ref]? with
    | none => none
    | some c =>
      let (marks, new) := markAll c.lits marks []
      match todo ++ new with
      | [] => some (resolved ++ [ref])
      | idx :: todo =>
        match (k.vars idx).reason with
        | none => none
        | some r => Kitten.emptyLoop k n r todo marks (resolved ++ [ref])

/-- `inconsistent` (kitten.c:1527-1583). -/
def Kitten.falsify (k : Kitten) (ref : Nat) : Option Kitten :=
  if k.antecedents then
    match k.emptyLoop (k.exports.length + 2) ref [] [] [] with
    | none => none
    | some resolved => some { k.newLearned [] resolved with inconsistent := some k.klauses.length }
  else some { k with inconsistent := some ref }

/-- The loop of `propagate_units` (kitten.c:1599-1617): `next` is the position in the stack of
units, which may grow. -/
def Kitten.unitLoop : Nat → Nat → Kitten → Option (Kitten × Bool)
  | 0, _, _ => none
  | n + 1, next, k =>
    match k.units[next]? with
    | none => some (k, false)
    | some ref =>
      match k.klauses[ref]? with
      | some ⟨_, _, _, [unit], _⟩ =>
        if 0 < k.values unit then Kitten.unitLoop n (next + 1) k
        else if k.values unit < 0 then (k.falsify ref).map (·, true)
        else
          match k.assign unit (some ref) with
          | none => none
          | some k' =>
            match k'.propagate with
            | none => none
            | some (k', none) => Kitten.unitLoop n (next + 1) k'
            | some (k', some c) => (k'.falsify c).map (·, true)
      | _ => none

/-- `propagate_units` (kitten.c:1585-1619): `true` is the result 20.  Every variable adds at most
one unit. -/
def Kitten.propagateUnits (k : Kitten) : Option (Kitten × Bool) :=
  if k.inconsistent ≠ none then some (k, true)
  else Kitten.unitLoop (k.units.length + k.exports.length + 1) 0 k

/-- Outcome of `kitten_solve`. -/
inductive Result
  | undefined
  | unfinished
  | done (res : Nat) (k : Kitten)

/-- `reset_assumptions` (kitten.c:1664-1680). -/
def Kitten.resetAssumptions (k : Kitten) : Kitten :=
  { k with
    failed := k.assumptions.foldl (fun f a => upd f a false) k.failed
    assumptions := []
    failing := none }

/-- `reset_core` (kitten.c:1654-1662). -/
def Kitten.resetCore (k : Kitten) : Kitten :=
  { k with klauses := k.klauses.map (fun c => { c with core := false }), core := [] }

/-- `reset_incremental` (kitten.c:1682-1692). -/
def Kitten.reset (k : Kitten) : Kitten :=
  let k := if k.level ≠ 0 then k.restart else k
  let k := if k.assumptions ≠ [] then k.resetAssumptions else k
  let k := if k.status = 21 then k.resetCore else k
  { k with status := 0 }

/-- The end of `kitten_solve` (kitten.c:1857-1873). -/
def Kitten.finish (res : Nat) (k : Kitten) : Result :=
  let k := if res = 0 ∧ k.assumptions ≠ [] then k.resetAssumptions else k
  .done res { k with status := res }

/-- The loop of `kitten_solve` (kitten.c:1838-1856) after `n` rounds. -/
def Kitten.solveLoop (choice : Nat → Choice) : Nat → Kitten → Result
  | 0, _ => .unfinished
  | n + 1, k =>
    match k.propagate with
    | none => .undefined
    | some (k, some conflict) =>
      if k.level ≠ 0 then
        match k.analyze conflict with
        | none => .undefined
        | some k => Kitten.solveLoop choice n k
      else
        match k.falsify conflict with
        | none => .undefined
        | some k => k.finish 20
    | some (k, none) =>
      match k.decide (choice n) with
      | none => .undefined
      | some (.go k) => Kitten.solveLoop choice n k
      | some (.result res k) => k.finish res
      | some (.stopped k) => k.finish 0

/-- The beginning of `kitten_solve` (kitten.c:1826-1830). -/
def Kitten.prepare (k : Kitten) : Kitten :=
  if k.status ≠ 0 then k.reset else if k.level ≠ 0 then k.restart else k

/-- `kitten_solve` (kitten.c:1824-1876), observed for `rounds` rounds of its loop. -/
def Kitten.solve (k : Kitten) (choice : Nat → Choice) (rounds : Nat) : Result :=
  match k.prepare.propagateUnits with
  | none => .undefined
  | some (k, true) => k.finish 20
  | some (k, false) => Kitten.solveLoop choice rounds k

/-- `reset_incremental` if necessary (kitten.c:1785-1786, 1798-1799). -/
def Kitten.ready (k : Kitten) : Kitten := if k.status ≠ 0 then k.reset else k

/-- `kitten_assume` (kitten.c:1783-1790). -/
def Kitten.assume (k : Kitten) (elit : Nat) : Kitten :=
  let (k, ilit) := k.ready.importLit elit
  { k with assumptions := k.assumptions ++ [ilit] }

/-- Import of the literals of a clause (kitten.c:1802-1813): a variable occurring twice is an
error. -/
def Kitten.importAll : List Nat → List Nat → Kitten → Option (Kitten × List Nat)
  | [], lits, k => some (k, lits)
  | e :: es, lits, k =>
    let (k, i) := k.importLit e
    if i / 2 ∈ lits.map (· / 2) then none
    else Kitten.importAll es (lits ++ [i]) k

/-- `kitten_clause_with_id_and_exception` (kitten.c:1792-1818); `none` is the exception
`INVALID`. -/
def Kitten.clause (k : Kitten) (id : Nat) (elits : List Nat) (except : Option Nat) : Option Kitten :=
  match Kitten.importAll (elits.filter fun e => some e ≠ except) [] k.ready with
  | none => none
  | some (k, lits) => some (k.newOriginal id lits)

/-- An entry of the stack in `kitten_compute_clausal_core`: a clause to be visited, or a clause
below the marker `INVALID`, which is finished when the marker is popped. -/
inductive Task
  | visit (ref : Nat)
  | finish (ref : Nat)
  deriving DecidableEq, Repr

/-- The flag of a core clause. -/
def Kitten.isCore (k : Kitten) (ref : Nat) : Bool := (k.klauses[ref]?.map Klause.core).getD false

/-- The loop of `kitten_compute_clausal_core` (kitten.c:1910-1937); the top of the stack is the
head of the list. -/
def Kitten.coreLoop : Nat → List Task → Kitten → Option Kitten
  | _, [], k => some k
  | 0, _ :: _, _ => none
  | n + 1, .finish d :: stack, k =>
    if d < k.klauses.length then
      Kitten.coreLoop n stack
        { k with core := k.core ++ [d], klauses := k.klauses.modify d fun c => { c with core := true } }
    else none
  | n + 1, .visit c :: stack, k =>
    match k.klauses[c]? with
    | none => none
    | some kl =>
      if kl.core then Kitten.coreLoop n stack k
      else if kl.learned then
        Kitten.coreLoop n
          (((kl.ants.filter fun d => !k.isCore d).map Task.visit).reverse ++ .finish c :: stack) k
      else Kitten.coreLoop n (.finish c :: stack) k

/-- Bound on the number of rounds: two for every clause and one for every antecedent. -/
def Kitten.coreFuel (k : Kitten) : Nat := (k.klauses.map fun c => c.ants.length + 2).sum + 1

/-- `kitten_compute_clausal_core` (kitten.c:1880-1953). -/
def Kitten.computeCore (k : Kitten) : Option Kitten :=
  if k.status ≠ 20 ∨ k.antecedents = false then none
  else
    match (k.inconsistent <|> k.failing) with
    | none => some { k with status := 21 }
    | some ref => (Kitten.coreLoop k.coreFuel [.visit ref] k).map fun k => { k with status := 21 }

/-- `kitten_traverse_core_ids` (kitten.c:1955-1979): the traversed identifiers. -/
def Kitten.coreIds (k : Kitten) : Option (List Nat) :=
  if k.status ≠ 21 then none
  else some ((k.klauses.filter fun c => !c.learned && c.core).map Klause.id)

/-- `kitten_traverse_core_clauses` (kitten.c:1981-2012): learned flag and external literals. -/
def Kitten.coreClauses (k : Kitten) : Option (List (Bool × List Nat)) :=
  if k.status ≠ 21 then none
  else k.core.mapM fun ref =>
    match k.klauses[ref]? with
    | none => none
    | some c => (c.lits.mapM k.exportLit).map (c.learned, ·)

/-- The loop of `kitten_shrink_to_clausal_core` (kitten.c:2042-2073): the remaining clauses are
connected again. -/
def Kitten.reconnect : List Klause → Kitten → Kitten
  | [], k => k
  | c :: cs, k =>
    let dst := k.klauses.length
    let k := { k with klauses := k.klauses ++ [{ c with core := false }] }
    let k :=
      match c.lits with
      | [] => if k.inconsistent = some 0 then { k with inconsistent := some dst } else k
      | [_] => { k with units := k.units ++ [dst] }
      | a :: b :: rest => (k.watch a b dst rest.isEmpty).watch b a dst rest.isEmpty
    Kitten.reconnect cs k

/-- `kitten_shrink_to_clausal_core` (kitten.c:2014-2083). -/
def Kitten.shrink (k : Kitten) : Option Kitten :=
  if k.status ≠ 21 then none
  else
    match k.inconsistent with
    | none => none
    | some ref =>
      match k.klauses[ref]? with
      | none => none
      | some c =>
        let k' := Kitten.reconnect (k.klauses.filter fun c => !c.learned && c.core)
          { k with
            trail := [], unassigned := k.exports.length, propagated := 0, level := 0
            values := fun _ => 0, watches := fun _ => [], units := [], klauses := []
            inconsistent := if c.learned || !c.lits.isEmpty then none else some ref }
        some { k' with core := [], status := 0 }

/-- Exchanging two elements. -/
def swapAt {α : Type} (a : List α) (i j : Nat) : List α :=
  match a[i]?, a[j]? with
  | some x, some y => (a.set i y).set j x
  | _, _ => a

/-- `shuffle_unsigned_array` and `shuffle_katches_array` (kitten.c:762-797); the random numbers are
an argument. -/
def shuffleList {α : Type} (pick : Nat → Nat) (a : List α) : List α :=
  (List.range a.length).foldl (fun a i => swapAt a i (pick i % (i + 1))) a

/-- `kitten_shuffle_clauses` (kitten.c:799-828).  The decision queue is not modelled: decisions are
arguments of the search. -/
def Kitten.shuffle (k : Kitten) (pick : Nat → Nat → Nat) (pickUnit : Nat → Nat) : Option Kitten :=
  if k.status ≠ 0 then none
  else some { k with watches := fun l => shuffleList (pick l) (k.watches l), units := shuffleList pickUnit k.units }

/-- The internal literal, `none` if the variable is unknown (kitten.c:2087-2092). -/
def Kitten.internal (k : Kitten) (elit : Nat) : Option Nat :=
  let i := k.imports (elit / 2)
  if i = 0 then none else some (2 * (i - 1) + elit % 2)

/-- `kitten_value` (kitten.c:2085-2094). -/
def Kitten.value (k : Kitten) (elit : Nat) : Option Int :=
  if k.status ≠ 10 then none
  else
    match k.internal elit with
    | none => some 0
    | some l => some (k.values l)

/-- `kitten_fixed` (kitten.c:2096-2112). -/
def Kitten.fixed (k : Kitten) (elit : Nat) : Int :=
  match k.internal elit with
  | none => 0
  | some l => if k.lev l = 0 then k.values l else 0

/-- `kitten_failed` (kitten.c:2126-2136). -/
def Kitten.isFailed (k : Kitten) (elit : Nat) : Option Bool :=
  if k.status ≠ 20 then none
  else
    match k.internal elit with
    | none => some false
    | some l => some (k.failed l)

/-- The loop of `flip_literal` (kitten.c:1712-1749): the result says whether all clauses watched
by `lit` have another true literal. -/
def Kitten.flipVisit (lit : Nat) : List Katch → List Katch → Kitten → Option (Kitten × List Katch × Bool)
  | [], kept, k => some (k, kept, true)
  | w :: rest, kept, k =>
    if 0 < k.values w.blit then Kitten.flipVisit lit rest (kept ++ [w]) k
    else
      match k.klauses[w.ref]? with
      | some ⟨_, _, _, a :: b :: others, _⟩ =>
        let other := a ^^^ b ^^^ lit
        if 0 < k.values other then Kitten.flipVisit lit rest (kept ++ [w]) k
        else
          match others.findIdx? fun m => 0 < k.values m with
          | some i =>
            let replacement := others.getD i 0
            Kitten.flipVisit lit rest kept
              ((k.setLits w.ref (other :: replacement :: others.set i lit)).watch replacement other w.ref false)
          | none => some (k, kept ++ w :: rest, false)
      | _ => none

/-- `flip_literal` (kitten.c:1682-1743), with its assertion that the literal has a value. -/
def Kitten.flipInternal (k : Kitten) (lit : Nat) : Option (Kitten × Bool) :=
  if k.values lit = 0 then none
  else if k.lev lit = 0 then some (k, false)
  else
    let lit := if k.values lit < 0 then neg lit else lit
    match Kitten.flipVisit lit (k.watches lit) [] k with
    | none => none
    | some (k', kept, res) =>
      let k' := { k' with watches := upd k'.watches lit kept }
      some (if res then { k' with values := upd (upd k'.values lit (-1)) (neg lit) 1 } else k', res)

/-- `kitten_flip_literal` (kitten.c:2114-2124). -/
def Kitten.flip (k : Kitten) (elit : Nat) : Option (Kitten × Bool) :=
  if k.status ≠ 10 then none
  else
    match k.internal elit with
    | none => some (k, false)
    | some l => k.flipInternal l

end Verif.Kitten
