import Verif.Model.Simp.Dense

/-!
# Generating resolvents (resolve.c)
-/

namespace Verif.Simp

open Verif.Spec Verif.Model

/-- `occurrences_literal` (resolve.c:10-66): the number of occurrences, `UINT_MAX` if there is a
too long clause.  Argument: the watches of `lit`. -/
def State.countOccurrences (s : State) (clslim lit : Nat) : List Nat → Nat → State × Nat
  | [], res => (s, res)
  | r :: rs, res =>
    match s.binaryOther lit r with
    | some other =>
      if s.values other > 0 then (s.markGarbage r).countOccurrences clslim lit rs res
      else s.countOccurrences clslim lit rs (res + 1)
    | none =>
      if (s.clause r).garbage then s.countOccurrences clslim lit rs res
      else if (s.clause r).lits.length > clslim then (s, 4294967295)
      else s.countOccurrences clslim lit rs (res + 1)

/-- What the loop over the literals of the second antecedent finds. -/
inductive Walk
  | satisfied
  | tautological
  | lits (ls : List Nat)
  deriving DecidableEq, Repr

/-- The loop over the literals of the second antecedent (resolve.c:159-187).  The first
antecedent `c` without `lit` is marked. -/
def State.walk (s : State) (lit : Nat) (c : List Nat) : List Nat → List Nat → Walk
  | [], acc => .lits acc
  | other :: rest, acc =>
    if other = neg lit then s.walk lit c rest acc
    else if s.values other < 0 then s.walk lit c rest acc
    else if s.values other > 0 then .satisfied
    else if other ≠ lit ∧ other ∈ c then s.walk lit c rest acc
    else if neg other ≠ lit ∧ neg other ∈ c then .tautological
    else s.walk lit c rest (acc ++ [other])

/-- The local state of `generate_resolvents`: the solver, the stack of resolvents and the
counter. -/
structure Gen where
  s : State
  res : List (List Nat)
  resolved : Nat

/-- The loop over the second antecedents (resolve.c:142-246) for the first antecedent `c`, and
whether it did not fail. -/
def Gen.inner (g : Gen) (clslim limit lit : Nat) (c : List Nat) : List Nat → Gen × Bool
  | [] => (g, true)
  | d :: ds =>
    if (g.s.clause d).garbage then g.inner clslim limit lit c ds
    else match g.s.walk lit c (g.s.clause d).lits [] with
      | .satisfied =>
        if (g.s.clause d).lits.length = 2 then g.inner clslim limit lit c ds
        else { g with s := g.s.markGarbage d }.inner clslim limit lit c ds
      | .tautological => g.inner clslim limit lit c ds
      | .lits acc =>
        if g.resolved + 1 > limit then ({ g with resolved := g.resolved + 1 }, false)
        else
          let r := acc ++ c.filter fun other => other ≠ lit ∧ ¬ g.s.values other < 0
          match r with
          | [] => ({ g with s := g.s.learnedEmpty, resolved := g.resolved + 1 }, false)
          | [u] =>
            let g := { g with s := g.s.learnedUnit u, resolved := g.resolved + 1 }
            if u ∈ c then (g, true) else g.inner clslim limit lit c ds
          | _ =>
            if r.length > clslim then ({ g with resolved := g.resolved + 1 }, false)
            else { g with res := g.res ++ [r], resolved := g.resolved + 1 }.inner clslim limit lit c ds

/-- `generate_resolvents` (resolve.c:88-262). -/
def Gen.outer (g : Gen) (clslim limit lit : Nat) : List Nat → List Nat → Gen × Bool
  | [], _ => (g, true)
  | c :: cs, ds =>
    if (g.s.clause c).garbage then g.outer clslim limit lit cs ds
    else if (g.s.clause c).lits.any fun other => other ≠ lit && g.s.values other > 0 then
      if (g.s.clause c).lits.length = 2 then g.outer clslim limit lit cs ds
      else { g with s := g.s.markGarbage c }.outer clslim limit lit cs ds
    else match g.inner clslim limit lit (g.s.clause c).lits ds with
      | (g, true) => g.outer clslim limit lit cs ds
      | (g, false) => (g, false)

end Verif.Simp
