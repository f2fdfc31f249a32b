import Verif.Model.Lucky
import Verif.Model.Simp.Run
import Verif.Model.ExtendHistory

/-!
# The whole solver: search, lucky phases, preprocessing and inprocessing

`Model/Core` has the search loop and `Model/Simp` the simplification techniques, each with the part of `struct kissat` it
needs.  Here they are put together: `kissat_solve` first calls `kissat_lucky` and `kissat_preprocess`, then the
search loop, which every now and then goes to the root level and simplifies (`kissat_probe`, `kissat_eliminate`).

Simplifications, besides those of the parts:
* going from the search to the simplification techniques and back all clauses are copied.  Flushed are
  garbage clauses (`kissat_sparse_collect`, `kissat_dense_collect`, collect.c) and further copies of the same binary clause,
  for which no deletion is written to the proof;
* watches are built from scratch after simplification (`kissat_resume_sparse_mode` does so for large clauses), the
  literals of a clause are not sorted (`kissat_sort_literals` only chooses which literals are watched), and all
  root level units are propagated again, also those already flushed from the trail;
* which techniques are tried, in which order and how often (probe.c:36-61, preprocess.c:54-150,
  eliminate.c:420-560) is left open;
* compacting the internal variables (compact.c, which has a model of its own) is left out.
-/

namespace Verif.Whole

open Verif.Spec Verif.Model Verif.Core

/-- The solver.  `tables` has the import and export tables and the extension stack (its field `values` is
not used, the values are those of `t.s`).  `lines` are the proof lines written before the last simplification, in
external literals; `t.s.proof` has those written since then. -/
structure State where
  t : Search
  tables : Extend.State
  lines : List Spec.Line

/-- A proof line with renamed literals (`kissat_export_literal` in proof.c:137-147). -/
def renameLine (f : Nat → Nat) : Spec.Line → Spec.Line
  | .add c => .add (c.map f)
  | .delete c => .delete (c.map f)

/-- All lines written to the proof, in external literals. -/
def State.proof (w : State) : List Spec.Line := w.lines ++ w.t.s.proof.map (renameLine w.tables.ext)

/-- The literals of the variables of the solver which have value one, in the order of literals. -/
def trueLits (n : Nat) (values : Nat → Int) : List Nat := (List.range (2 * n)).filter fun l => values l == 1

/-- The binary clauses in the watch lists, each of them once. -/
def binaries (s : Core.Solver) : List (List Nat) :=
  (List.range (2 * s.vars)).flatMap fun a =>
    ((List.range (2 * s.vars)).filter fun b => decide (a < b) && (s.watches a).contains (.binary b)).map fun b => [a, b]

/-- Handing over a solver at the root level to simplification (`kissat_enter_dense_mode`, dense.c:120-139,
`kissat_flush_large_watches`, watch.c:169-203). -/
def State.toSimp (w : State) : Simp.State where
  toState := { w.tables with values := w.t.s.values }
  trail := trueLits w.t.s.vars w.t.s.values
  propagate := (trueLits w.t.s.vars w.t.s.values).length
  arena := ((w.t.s.arena.filter fun c => !c.garbage).map fun c => ⟨c.lits, false, c.redundant⟩) ++
    (binaries w.t.s).map fun c => ⟨c, false, false⟩
  inconsistent := w.t.s.inconsistent
  removed := w.t.s.removed
  proof := w.proof

/-- The clauses which are watched after simplification.  (That no literal is eliminated is always the case
after `flushEliminated`.) -/
def kept (y : Simp.State) : List Simp.Clause :=
  y.arena.filter fun c => !c.garbage && c.lits.all fun l => !y.removed (l / 2)

/-- The large ones among them. -/
def largeOf (cls : List Simp.Clause) : List Core.Clause :=
  (cls.filter fun c => c.lits.length != 2).map fun c => ⟨c.lits, false, c.redundant, 2⟩

/-- The watch for a binary clause in the list of `l`. -/
def binaryWatch (l : Nat) : List Nat → Option Watch
  | [a, b] => if l = a then some (.binary b) else if l = b then some (.binary a) else none
  | _ => none

/-- The watch for the large clause `r` in the list of `l`: the first two literals are watched. -/
def largeWatch (l r : Nat) : List Nat → Option Watch
  | a :: b :: _ => if l = a then some (.large b r) else if l = b then some (.large a r) else none
  | _ => none

/-- The watch lists (`resume_watching_irredundant_binaries`, dense.c:100-118,
`resume_watching_large_clauses_after_elimination`, dense.c:141-197, `kissat_watch_large_clauses`, watch.c:205-232). -/
def watchesOf (cls : List Simp.Clause) (l : Nat) : List Watch :=
  cls.filterMap (fun c => binaryWatch l c.lits) ++
    (List.range (largeOf cls).length).filterMap fun r => largeWatch l r ((largeOf cls).getD r ⟨[], true, false, 2⟩).lits

/-- The solver after simplification, before propagation.  `bigbig` is what `kissat_classify` (classify.c) found. -/
def fromSimp (s : Core.Solver) (bigbig : Bool) (y : Simp.State) : Core.Solver where
  vars := y.exports.length
  removed := y.removed
  values := y.values
  assigned := fun v => ⟨0, ((trueLits y.exports.length y.values).map (· / 2)).idxOf v, .unit⟩
  trail := trueLits y.exports.length y.values
  propagate := 0
  frames := []
  level := 0
  unassigned := ((List.range y.exports.length).filter fun v => !y.removed v && y.values (2 * v) == 0).length
  unflushed := (trueLits y.exports.length y.values).length
  watches := watchesOf (kept y)
  arena := largeOf (kept y)
  inconsistent := y.inconsistent
  iterating := s.iterating
  lastLearned := List.replicate 4 none
  conflicts := s.conflicts
  decisions := s.decisions
  proof := []
  options := { s.options with bigbig := bigbig }

/-- `kissat_resume_sparse_mode` (dense.c:200-236). -/
def State.resume (w : State) (bigbig : Bool) (x : Simp.State) : State × Option Conflict :=
  let y := x.flushEliminated (List.range x.arena.length)
  match searchPropagate (fromSimp w.t.s bigbig y) with
  | (s, c) => (⟨{ w.t with s := s }, y.toState, y.proof⟩, c)

/-- The state if simplification derived the empty clause. -/
def State.refuted (w : State) (x : Simp.State) : State :=
  ⟨{ w.t with s := { w.t.s with inconsistent := true, proof := [] } }, x.toState, x.proof⟩

/-- Simplification at the root level, with any sequence of techniques.  The number is the result: 20 if the
clauses are unsatisfiable, 0 otherwise (probe.c:76, eliminate.c:576, preprocess.c:150). -/
inductive Simplify (w : State) : State → Nat → Prop
  | unsat {x : Simp.State} : Simp.Reach (· = w.toSimp) x → x.inconsistent = true → Simplify w (w.refuted x) 20
  | conflict {x : Simp.State} {bigbig : Bool} {w' : State} {c : Conflict} : Simp.Reach (· = w.toSimp) x →
      x.inconsistent = false → w.resume bigbig x = (w', some c) → Simplify w w' 20
  | done {x : Simp.State} {bigbig : Bool} {w' : State} : Simp.Reach (· = w.toSimp) x →
      x.inconsistent = false → w.resume bigbig x = (w', none) → Simplify w w' 0

/-- One iteration of the loop in `kissat_search` (search.c:194-224).  The `Bool` tells whether `kissat_terminate` is
called meanwhile.  `some res`: the loop ends with this result. -/
inductive Step (w : State) : Bool → State → Option Nat → Prop
  /-- everything but inprocessing -/
  | next {o : Oracle} {t : Search} : (∀ v, v ∈ o.order ↔ v < w.t.s.vars ∧ w.t.s.removed v = false) →
      iteration o w.t = .next t → Step w o.request { w with t := t } none
  | done {o : Oracle} {t : Search} {res : Nat} : (∀ v, v ∈ o.order ↔ v < w.t.s.vars ∧ w.t.s.removed v = false) →
      iteration o w.t = .done t res → Step w o.request { w with t := t } (some res)
  /-- `kissat_probe` or `kissat_eliminate` (search.c:214-217).  Both go to the root level first (probe.c:27,
  eliminate.c:580). -/
  | inprocess {s : Core.Solver} {w' : State} {res : Nat} : searchPropagate w.t.s = (s, none) → s.iterating = false →
      s.unassigned ≠ 0 → w.t.flagged = false → s.rootConflict = false →
      Simplify { w with t := { w.t with s := s.flushToRoot } } w' res → Step w false w' (if res = 0 then none else some res)
  /-- The same if going to the root level finds a conflict, which the code ignores (backtrack.c:169-172, an assertion if
  compiled with these).  Both return 20 since the solver is inconsistent (probe.c:89, eliminate.c:602).  Simplification: what
  they do before that is left out. -/
  | conflict {s : Core.Solver} : searchPropagate w.t.s = (s, none) → s.iterating = false →
      s.unassigned ≠ 0 → w.t.flagged = false → s.rootConflict = true →
      Step w false { w with t := { w.t with s := s.flushToRoot } } (some 20)

/-- The loop in `kissat_search` (search.c:194-224). -/
inductive Loop : State → List Bool → State → Nat → Prop
  | done {w w' : State} {r : Bool} {res : Nat} : Step w r w' (some res) → Loop w [r] w' res
  | next {w w' w'' : State} {r : Bool} {rs : List Bool} {res : Nat} : Step w r w' none → Loop w' rs w'' res →
      Loop w (r :: rs) w'' res

/-- The solver when `kissat_solve` is called. -/
def State.ofApi (a : Api) : State where
  t := ⟨{ a.s with proof := [] }, a.conflictLimit, a.decisionLimit, a.flagged⟩
  tables :=
    { exports := a.exports.map fun (e : Nat) => (e : Int)
      imports := a.imports.map fun i => ⟨i.lit, i.imported, false⟩
      values := a.s.values, extend := [], eliminated := [], etrail := [], extended := false }
  lines := a.s.proof.map (renameLine fun l => code (a.exportLiteral l))

/-- `kissat_lucky` (lucky.c:307-393), if it is called (`on`). -/
def State.lucky (w : State) (on enabled : Bool) : Option (State × Nat) :=
  match if on then Core.lucky enabled (w.tables.imports.map fun i => ⟨i.lit, i.imported && !i.eliminated⟩) w.t.s
    else some (w.t.s, 0) with
  | none => none
  | some (s, res) => some ({ w with t := { w.t with s := s } }, res)

/-- `stop_search` (search.c:102-127). -/
def State.stop (w : State) : State := { w with t := stopSearch w.t }

/-- What `kissat_search` does before the search loop (search.c:179-192): the state after the first lucky phase, after
preprocessing and after the second lucky phase, if none of them has found an answer; or the state with the answer. -/
inductive Before (o : LuckyOptions) (preprocess : Bool) (a : Api) : State → Nat → Prop
  | inconsistent : a.s.inconsistent = true → Before o preprocess a (.ofApi a) 20
  | early {w : State} {res : Nat} : a.s.inconsistent = false → (State.ofApi a).lucky o.luckyearly o.lucky = some (w, res) →
      res ≠ 0 → Before o preprocess a w res
  | preprocess {w w' : State} {res : Nat} : a.s.inconsistent = false →
      (State.ofApi a).lucky o.luckyearly o.lucky = some (w, 0) → preprocess = true → Simplify w w' res → res ≠ 0 →
      Before o preprocess a w' res
  | late {w w' w'' : State} {res : Nat} : a.s.inconsistent = false →
      (State.ofApi a).lucky o.luckyearly o.lucky = some (w, 0) →
      (if preprocess then Simplify w w' 0 else w' = w) → w'.lucky o.luckylate o.lucky = some (w'', res) →
      Before o preprocess a w'' res

/-- `kissat_solve` (internal.c:467-473) and `kissat_search` (search.c:179-229): a call with answer `res` which leaves the
solver in the given state.  The list has an entry for each iteration of the search loop. -/
inductive Solve (o : LuckyOptions) (preprocess : Bool) (a : Api) : List Bool → State → Nat → Prop
  /-- an answer before the search -/
  | before {w : State} {res : Nat} : a.clause = [] → a.searches = 0 → Before o preprocess a w res → res ≠ 0 →
      Solve o preprocess a [] w res
  /-- no search (search.c:167-177) -/
  | limit {w : State} : a.clause = [] → a.searches = 0 → Before o preprocess a w 0 →
      Api.searching { a with s := w.t.s } = false → Solve o preprocess a [] w 0
  | search {w w' : State} {rs : List Bool} {res : Nat} : a.clause = [] → a.searches = 0 → Before o preprocess a w 0 →
      Api.searching { a with s := w.t.s } = true → Loop w rs w' res → Solve o preprocess a rs w'.stop res

/-- The answers of `kissat_value` (internal.c:488-512) to a sequence of queries. -/
def State.answers (w : State) (queries : List Int) : Option (List Int) :=
  Extend.State.answers { w.tables with values := w.t.s.values } queries

/-- States at the beginning of an iteration of the search loop. -/
inductive Searching (o : LuckyOptions) (preprocess : Bool) (a : Api) : State → Prop
  | start {w : State} : a.clause = [] → a.searches = 0 → Before o preprocess a w 0 → Searching o preprocess a w
  | next {w w' : State} {r : Bool} : Searching o preprocess a w → Step w r w' none → Searching o preprocess a w'

end Verif.Whole
