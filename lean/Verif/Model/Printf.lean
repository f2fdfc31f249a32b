/-!
# Printing decimal numbers

What the C library prints for `%d`, `%zu` and `%llu`.
-/

namespace Verif.Model

/-- Decimal digits of a number in front of `acc`; twenty digits suffice for 64 bits. -/
def decimalDigits : Nat → Nat → List Nat → List Nat
  | 0, _, acc => acc
  | fuel + 1, n, acc =>
    let acc := (48 + n % 10) :: acc
    if n / 10 = 0 then acc else decimalDigits fuel (n / 10) acc

/-- `%zu` and `%llu`. -/
def printNat (n : Nat) : List Nat := decimalDigits 20 n []

/-- `%d`. -/
def printInt (i : Int) : List Nat := (if i < 0 then [45] else []) ++ printNat i.natAbs

end Verif.Model
