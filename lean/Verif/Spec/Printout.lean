import Verif.Spec.Dimacs

/-!
# The printout of a model

`v` lines as described by the output format of the SAT competition.
-/

namespace Verif.Spec

/-- A line: the letter `v`, then every number with a space in front, then a new-line. -/
def valueLine (numerals : List (List Nat)) : List Nat := 118 :: (numerals.map fun w => 32 :: w).flatten ++ [10]

/-- A text consists of value lines of at most `width` characters (without new-line), each of
them with at least one number, and the numbers in it are `ls`. -/
def ValueLines (width : Nat) (text : List Nat) (ls : List Int) : Prop :=
  ∃ lines : List (List (List Nat × Int)),
    text = (lines.map fun line => valueLine (line.map Prod.fst)).flatten ∧ ls = lines.flatten.map Prod.snd ∧
    ∀ line ∈ lines, line ≠ [] ∧ (∀ x ∈ line, Dimacs.Numeral x.1 x.2) ∧
      (valueLine (line.map Prod.fst)).length ≤ width + 1

/-- The numbers of a printout for the variables `1, …, n`: one literal for each variable, in
this order; a variable without value is left out of a partial printout and positive otherwise. -/
def printedModel (value : Nat → Int) (partially : Bool) (n : Nat) : List Int :=
  (List.range n).filterMap fun i =>
    if value (i + 1) = 0 then if partially then none else some (i + 1 : Int) else some (value (i + 1))

end Verif.Spec
