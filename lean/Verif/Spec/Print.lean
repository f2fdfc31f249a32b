import Verif.Model.Print

/-! # Comment lines -/

namespace Verif.Spec.Print

open Verif.Model.Print

/-- The output consists of complete lines which are comments: a `c` alone or followed by a space. -/
def Comments (out : Text) : Prop :=
  ∃ lines : List Text, out = lines.flatMap (· ++ [10]) ∧
    ∀ l ∈ lines, 10 ∉ l ∧ (l = [99] ∨ ∃ r, l = 99 :: 32 :: r)

/-- The texts of a call have no end of line. -/
def OneLine : Call → Prop
  | .warning t => 10 ∉ t
  | .signal t => 10 ∉ t
  | .message t => 10 ∉ t
  | .line => True
  | .verbose t => 10 ∉ t
  | .veryVerbose t => 10 ∉ t
  | .extremelyVerbose t => 10 ∉ t
  | .section n => 10 ∉ n
  | .phase n _ t => 10 ∉ n ∧ 10 ∉ t
  | .report _ type values => type ≠ 10 ∧ ∀ v ∈ values, 10 ∉ v

/-- Number of characters of the values in a report. -/
def size : List Text → Nat
  | [] => 0
  | v :: vs => v.length + size vs

/-- Values which fit. -/
def Fits : Call → Prop
  | .report _ _ values => values.length = 19 ∧ (∀ v ∈ values, v ≠ []) ∧ size values ≤ 91
  | _ => True

end Verif.Spec.Print
