/-
Specification of the values which can be written on the command line after `--name=`.
Strings are lists of bytes.  Nothing here refers to the solver.
-/
namespace Verif.Spec.OptionValue

/-- A non-empty string of decimal digits. -/
def Digits (s : List Nat) : Prop := s ≠ [] ∧ ∀ c ∈ s, 48 ≤ c ∧ c ≤ 57

/-- The number a string of decimal digits denotes. -/
def num (s : List Nat) : Nat := s.foldl (fun n c => 10 * n + (c - 48)) 0

/-- Numbers: digits which do not start with two zeros and fit. -/
def Number (s : List Nat) : Prop := Digits s ∧ (¬ ∃ t, s = 48 :: 48 :: t) ∧ num s ≤ 2 ^ 31

/-- Unsigned values: `M`, `MeD` with a one-digit exponent (any digits if `M` is zero) and `B^E`
with an exponent of one or two digits, not `00`, (any digits if `B` is zero or one), where the
exponent of base zero does not start with zero. -/
inductive Magnitude : List Nat → Nat → Prop
  | plain {m} : Number m → Magnitude m (num m)
  | scientific {m d} : Number m → Digits d → (num m ≠ 0 → d.length = 1) →
      Magnitude (m ++ 101 :: d) (num m * 10 ^ num d)
  | power {b e} : Number b → Digits e → (2 ≤ num b → e.length ≤ 2 ∧ e ≠ [48, 48]) →
      (num b = 0 → ¬ ∃ t, e = 48 :: t) → Magnitude (b ++ 94 :: e) (num b ^ num e)

/-- The integer a value string stands for (`int` range). -/
inductive Denotes : List Nat → Int → Prop
  | true : Denotes [116, 114, 117, 101] 1
  | false : Denotes [102, 97, 108, 115, 101] 0
  | positive {s n} : Magnitude s n → n < 2 ^ 31 → Denotes s n
  | negative {s n} : Magnitude s n → n ≤ 2 ^ 31 → Denotes (45 :: s) (- (n : Int))

end Verif.Spec.OptionValue
