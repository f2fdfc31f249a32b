import Verif.Model.Api

/-! # Lucky phases: `lucky.c`

`kissat_lucky` tries six simple assignments before the search.  Eliminated variables do
not occur in this model (no preprocessing), everything else is as in the code. -/

namespace Verif.Core

open Verif.Spec (neg)

/-- `kissat_probing_propagate` (proprobe.c:33-59) without ignored clause and with
flushing.  It shares `proplit.h` with search propagation; the only difference is that
conflicts are not counted (proplit.h:193-195). -/
def probingPropagate (s : Solver) : Solver × Option Conflict :=
  match searchPropagate s with
  | (t, c) => ({ t with conflicts := s.conflicts }, c)

/-- `ACTIVE` (flags.h): in use and not fixed (`kissat_mark_fixed_literal`,
flags.c:60-76, is called for every assignment on level zero). -/
def Solver.isActive (s : Solver) (v : Nat) : Bool :=
  !s.removed v && !(s.values (2 * v) != 0 && s.lev (2 * v) == 0)

/-- The literal of a variable with the given phase. -/
def phaseLit (phase : Bool) (v : Nat) : Nat := if phase then 2 * v else 2 * v + 1

/-- `no_all_negative_clauses` (lucky.c:11-45) for `phase` true and
`no_all_positive_clauses` (lucky.c:47-80) for `phase` false, which differ only in
signs: all irredundant clauses have a literal with the phase which is not false. -/
def noAllOpposite (phase : Bool) (s : Solver) : Bool :=
  (s.arena.all fun c => c.redundant || c.garbage ||
    c.lits.any fun l => l == phaseLit phase (l / 2) && decide (0 ≤ s.values l)) &&
  ((List.range s.vars).all fun v => !s.isActive v ||
    (s.watches (phaseLit (!phase) v)).all fun
      | .binary o => !(o == phaseLit (!phase) (o / 2) && s.isActive (o / 2))
      | .large _ _ => true)

/-- The loops over all variables in `kissat_lucky` (lucky.c:324-337, 344-358).  In a
build without assertions the result of propagation is ignored. -/
def assumeAll (phase : Bool) : List Nat → Solver → Solver
  | [], s => s
  | v :: vs, s =>
    if !s.isActive v then assumeAll phase vs s
    else if s.values (2 * v) ≠ 0 then assumeAll phase vs s
    else assumeAll phase vs (probingPropagate (s.assume (phaseLit phase v))).1

/-- Outcome of one iteration of the loops below. -/
inductive LuckyStep
  | next (s : Solver)
  | done (s : Solver) (res : Nat)
  | stuck

/-- Body of the loops for an unassigned variable; `lit` is the literal assumed first
(lucky.c:98-130, 153-185, 209-242, 266-300). -/
def luckyStep (s : Solver) (lit : Nat) : LuckyStep :=
  match probingPropagate (s.assume lit) with
  | (s, none) => .next s
  | (s, some c) =>
    if 1 < s.level then
      match probingPropagate ((s.backtrack (s.level - 1)).assume (neg lit)) with
      | (s, none) => .next s
      | (s, some _) => .done (s.backtrack 0) 0
    else
      match analyze s c with
      | none => .stuck
      | some (s, _) =>
        match probingPropagate s with
        | (s, none) => .next s
        | (s, some d) =>
          match analyze s d with
          | none => .stuck
          | some (s, _) => .done s 20

/-- The loops over the imported variables: `forward_false_satisfiable`,
`forward_true_satisfiable`, `backward_false_satisfiable`,
`backward_true_satisfiable` (lucky.c:82-305).  The first argument is the order of the
variables, `phase` the value tried first. -/
def luckyLoop (phase : Bool) : List Import → Solver → Option (Solver × Nat)
  | [], s => some (s, 10)
  | i :: is, s =>
    if !i.imported then luckyLoop phase is s
    else if !s.isActive (i.lit / 2) then luckyLoop phase is s
    else if s.values i.lit ≠ 0 then luckyLoop phase is s
    else
      match luckyStep s (if phase then i.lit else neg i.lit) with
      | .next s => luckyLoop phase is s
      | .done s res => some (s, res)
      | .stuck => none

/-- `if (!res) res = loop` (lucky.c:362-372). -/
def orElse (r : Option (Solver × Nat)) (f : Solver → Option (Solver × Nat)) :
    Option (Solver × Nat) :=
  match r with
  | none => none
  | some (s, res) => if res = 0 then f s else some (s, res)

/-- `kissat_lucky` (lucky.c:307-393); `enabled` is the option `lucky`.  `none` is
undefined behaviour or non termination. -/
def lucky (enabled : Bool) (imports : List Import) (s : Solver) : Option (Solver × Nat) :=
  if s.inconsistent then some (s, 0)
  else if !enabled then some (s, 0)
  else if noAllOpposite true s then some (assumeAll true (List.range s.vars) s, 10)
  else if noAllOpposite false s then some (assumeAll false (List.range s.vars) s, 10)
  else
    orElse (orElse (orElse (luckyLoop false imports s)
      (luckyLoop true imports)) (luckyLoop false imports.reverse))
      (luckyLoop true imports.reverse)

/-- Options read by `kissat_search` (search.c:184-190) and `kissat_lucky`. -/
structure LuckyOptions where
  lucky : Bool
  luckyearly : Bool
  luckylate : Bool

/-- `kissat_solve` (internal.c:467-473) with `kissat_search` (search.c:179-229),
including both lucky phases, without preprocessing.  The number of searches is only
incremented in `start_search` (search.c:47), hence not if one of the lucky phases gives
the answer. -/
def Api.solveLucky (a : Api) (o : LuckyOptions) (oracles : List Oracle) : Solved :=
  if a.clause ≠ [] then .rejected
  else if a.searches ≠ 0 then .rejected
  else if a.s.inconsistent then .done a 20
  else
    match if o.luckyearly then lucky o.lucky a.imports a.s else some (a.s, 0) with
    | none => .stuck
    | some (s, res) =>
      if res ≠ 0 then .done { a with s := s } res
      else
        match if o.luckylate then lucky o.lucky a.imports s else some (s, 0) with
        | none => .stuck
        | some (s, res) =>
          if res ≠ 0 then .done { a with s := s } res
          else { a with s := s : Api }.solve oracles

end Verif.Core
