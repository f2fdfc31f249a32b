import Verif.Model.Printf

/-!
# Specification: glue limits and the table of usage

`used` has one counter for each glue.
-/

namespace Verif.Spec.Tiers

open Verif.Model

/-- Number of uses of clauses with glue at most `g`. -/
def upTo (used : List Nat) (g : Nat) : Nat := (used.take (g + 1)).sum

/-- Number of uses of clauses with glue from `a` to `b`. -/
def between (used : List Nat) (a b : Nat) : Nat := ((used.drop a).take (b + 1 - a)).sum

/-- `g` is the smallest glue up to which the uses reach the limit. -/
def Smallest (used : List Nat) (limit g : Nat) : Prop :=
  g < used.length ∧ limit ≤ upTo used g ∧ ∀ j, j < g → upTo used j < limit

/-- The rows of the table: a row for every glue from `t1` to `t2` if these are at most five, and otherwise two rows for
the first two, a row for all between, and two rows for the last two. -/
def rows (t1 t2 : Nat) : List (Nat × Nat) :=
  if t2 < t1 + 5 then (List.range' t1 (t2 + 1 - t1)).map fun g => (g, g)
  else [(t1, t1), (t1 + 1, t1 + 1), (t1 + 2, t2 - 2), (t2 - 1, t2 - 1), (t2, t2)]

/-- Text in the first column: a number, or two numbers separated by a dash. -/
def label (r : Nat × Nat) : List Nat :=
  if r.1 = r.2 then printNat r.1 else printNat r.1 ++ 45 :: printNat r.2

end Verif.Spec.Tiers
