import Verif.Model.Core.State
import Mathlib.Order.Defs.LinearOrder

/-!
# Weights of literals used for reordering variables

The share of a literal is the list of numbers to add up, one for each clause it occurs in.
-/

namespace Verif.Spec.Reorder

open Verif.Core (Solver Clause Watch)

/-- Operations on floating point numbers.  Nothing is assumed about them. -/
structure Ops (α : Type) where
  zero : α
  one : α
  add : α → α → α
  half : α → α
  twice : α → α

/-- Number of unassigned literals. -/
def unassigned (values : Nat → Int) (lits : List Nat) : Nat := lits.countP fun l => values l = 0

/-- A clause counts unless it has a true literal.  A true literal which comes after `maxSize` unassigned ones is
overlooked. -/
def Counts (values : Nat → Int) (maxSize : Nat) (lits : List Nat) : Prop :=
  ∀ before l rest, lits = before ++ l :: rest → 0 < values l → maxSize ≤ unassigned values before

open Classical in
/-- The irredundant large clauses a literal gets a share of, in the order in which they are stored. -/
noncomputable def large (s : Solver) (maxSize l : Nat) : List Clause :=
  s.arena.filter fun c =>
    c.garbage = false ∧ c.redundant = false ∧ Counts s.values maxSize c.lits ∧ l ∈ c.lits

/-- The pairs of literals which form a binary clause of active variables, each clause with its smaller literal first. -/
def binary (s : Solver) (active : Nat → Bool) : List (Nat × Nat) :=
  (List.range (2 * s.vars)).flatMap fun a =>
    (s.watches a).filterMap fun
      | .binary b => if a ≤ b ∧ active (a / 2) ∧ active (b / 2) then some (a, b) else none
      | .large _ _ => none

/-- Number of binary clauses of active variables the literal occurs in. -/
def binaries (s : Solver) (active : Nat → Bool) (l : Nat) : Nat :=
  (binary s active).countP (fun p => p.1 = l) + (binary s active).countP (fun p => p.2 = l)

variable {α : Type} [LinearOrder α]

/-- The number a clause contributes: one for two unassigned literals, half of it for each further one, where at most
`maxSize` are taken into account. -/
def share (o : Ops α) (s : Solver) (maxSize : Nat) (c : Clause) : α :=
  Nat.repeat o.half (min maxSize (unassigned s.values c.lits) - 2) o.one

/-- The weight of a literal: the sum over its large clauses and then its binary clauses. -/
noncomputable def litWeight (o : Ops α) (s : Solver) (maxSize : Nat) (active : Nat → Bool) (l : Nat) : α :=
  ((large s maxSize l).map (share o s maxSize) ++ List.replicate (binaries s active l) o.one).foldl o.add o.zero

/-- The weight of a variable: the larger weight of its two literals and twice the smaller one. -/
noncomputable def weight (o : Ops α) (s : Solver) (maxSize : Nat) (active : Nat → Bool) (v : Nat) : α :=
  let pos := litWeight o s maxSize active (2 * v)
  let neg := litWeight o s maxSize active (2 * v + 1)
  o.add (max pos neg) (o.twice (min pos neg))

end Verif.Spec.Reorder
