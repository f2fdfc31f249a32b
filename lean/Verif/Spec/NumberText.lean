import Verif.Spec.OptionValue

/-!
# Texts for numbers in messages

Texts are lists of bytes.
-/

namespace Verif.Spec.NumberText

open Verif.Spec.OptionValue (Digits num)

/-- Numbers: decimal digits, `MeE` for `M * 10^E` and `B^E` for powers. -/
inductive Denotes : List Nat → Nat → Prop
  | plain {m} : Digits m → Denotes m (num m)
  | scientific {m e} : Digits m → Digits e → Denotes (m ++ 101 :: e) (num m * 10 ^ num e)
  | power {b e} : Digits b → Digits e → Denotes (b ++ 94 :: e) (num b ^ num e)

/-- Ending of English ordinal numbers: 1st, 2nd, 3rd, 4th, but 11th, 12th, 13th. -/
def ordinalEnding (n : Nat) : List Nat :=
  if n % 100 = 11 ∨ n % 100 = 12 ∨ n % 100 = 13 then [116, 104]
  else if n % 10 = 1 then [115, 116]
  else if n % 10 = 2 then [110, 100]
  else if n % 10 = 3 then [114, 100]
  else [116, 104]

/-- A duration: parts consisting of digits and a unit (days `d`, hours `h`, minutes `m`, seconds `s`)
with a blank between two parts.  The empty text is the duration zero. -/
inductive Duration : List Nat → Nat → Prop
  | zero : Duration [] 0
  | one {w n u k} : Digits w → n = num w → (u, k) ∈ [(100, 86400), (104, 3600), (109, 60), (115, 1)] →
      Duration (w ++ [u]) (n * k)
  | more {t a w n u k} : Duration t a → t ≠ [] → Digits w → n = num w →
      (u, k) ∈ [(100, 86400), (104, 3600), (109, 60), (115, 1)] →
      Duration (t ++ 32 :: w ++ [u]) (a + n * k)

end Verif.Spec.NumberText
