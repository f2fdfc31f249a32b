import Verif.Spec.Cnf

/-!
# Strongly connected components of the binary implication graph

`determine_representatives` (substitute.c:38-203): Tarjan's algorithm with explicit stacks.

`succ lit` is the list of the active literals `other` such that there is a binary clause
`¬lit ∨ other`.  Arrays are functions, the unsigned number `UINT_MAX` in `reach` is `none`, greater than all
others, as well as `INVALID_LIT` in `repr` and on the stack `work`.  Stacks are lists with the top first.
-/

namespace Verif.Simp

open Verif.Spec

/-- Local variables of `determine_representatives` (substitute.c:39-55, 68).  `clash` is the variable `inconsistent`. -/
structure Scc where
  mark : Nat → Nat
  reach : Nat → Option Nat
  repr : Nat → Option Nat
  scc : List Nat
  work : List (Option Nat)
  reached : Nat
  units : List Nat
  failed : Bool
  clash : Bool

/-- Initially (substitute.c:39-55, 549). -/
def Scc.init : Scc where
  mark := fun _ => 0
  reach := fun _ => none
  repr := fun _ => none
  scc := []
  work := []
  reached := 0
  units := []
  failed := false
  clash := false

/-- An array with one element changed. -/
def upd {α : Type} (f : Nat → α) (i : Nat) (a : α) : Nat → α := fun k => if k = i then a else f k

/-- `if (reach_other < reach_lit)`, where `UINT_MAX` is the largest number. -/
def minReach (other lit : Option Nat) : Option Nat :=
  match other, lit with
  | some o, some l => if o < l then some o else some l
  | some o, none => some o
  | none, l => l

/-- The representative of a component (substitute.c:107-125): the smallest literal. -/
def minLit (lit : Nat) (seg : List Nat) : Nat := seg.foldl (fun m other => if other < m then other else m) lit

/-- The loop over the literals of a component (substitute.c:126-157).  `mark_root` is `mark[root]`
(assertion in line 149). -/
def Scc.assign (root min : Nat) : Scc → List Nat → Scc
  | t, [] => t
  | t, other :: rest =>
    let t := { t with repr := upd t.repr other (some min), reach := upd t.reach other none }
    match t.repr (neg other) with
    | none => t.assign root min rest
    | some reprNotOther =>
      if min = reprNotOther then { t with units := min :: t.units, clash := true }
      else if t.failed then t.assign root min rest
      else if t.mark root > t.mark (neg other) then t.assign root min rest
      else { t with units := neg root :: t.units, failed := true }.assign root min rest

/-- A literal whose successors are all visited (substitute.c:75-159). -/
def Scc.finish (succ : Nat → List Nat) (root : Nat) (t : Scc) (lit : Nat) : Scc :=
  let reachLit := (succ lit).foldl (fun r other => minReach (t.reach other) r) (t.reach lit)
  if reachLit ≠ some (t.mark lit) then { t with reach := upd t.reach lit reachLit }
  else
    let seg := lit :: (t.scc.takeWhile (· ≠ lit)).reverse
    { t with scc := (t.scc.dropWhile (· ≠ lit)).tail }.assign root (minLit lit seg) seg

/-- A literal visited first (substitute.c:160-178). -/
def Scc.expand (succ : Nat → List Nat) (t : Scc) (lit : Nat) : Scc :=
  let mark := upd t.mark lit (t.reached + 1)
  { t with
    scc := lit :: t.scc
    mark := mark
    reach := upd t.reach lit (some (t.reached + 1))
    reached := t.reached + 1
    work := ((succ lit).filter fun other => mark other = 0).reverse.map some ++ none :: t.work }

/-- The body of the inner loop (substitute.c:71-180).  Below every `INVALID_LIT` on the stack there is a
literal. -/
def Scc.step (succ : Nat → List Nat) (root : Nat) (t : Scc) : Scc :=
  match t.work with
  | none :: some lit :: work => { t with work := work }.finish succ root lit
  | none :: work => { t with work := work }
  | some lit :: work => if t.mark lit = 0 then t.expand succ lit else { t with work := work }
  | [] => t

/-- The inner loop (substitute.c:70-181), at most `fuel` iterations. -/
def Scc.loop (succ : Nat → List Nat) (root : Nat) : Nat → Scc → Option Scc
  | 0, t => if t.clash || t.work.isEmpty then some t else none
  | fuel + 1, t => if t.clash || t.work.isEmpty then some t else (t.step succ root).loop succ root fuel

/-- The outer loop (substitute.c:57-182). -/
def Scc.roots (succ : Nat → List Nat) (active : Nat → Bool) (fuel : Nat) : Scc → List Nat → Option Scc
  | t, [] => some t
  | t, root :: rest =>
    if t.clash then some t
    else if t.mark root ≠ 0 then t.roots succ active fuel rest
    else if !active root then t.roots succ active fuel rest
    else match { t with work := [some root], failed := false }.loop succ root fuel with
      | none => none
      | some t => t.roots succ active fuel rest

/-- `determine_representatives` up to line 194, for literals below `lits`. -/
def Scc.determine (succ : Nat → List Nat) (active : Nat → Bool) (lits fuel : Nat) : Option Scc :=
  Scc.init.roots succ active fuel (List.range lits)

end Verif.Simp
