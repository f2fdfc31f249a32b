import Verif.Spec.Cnf

/-!
# Refutations by learned clauses
-/

namespace Verif.Spec

/-- `Refutation F lemmas`: every clause of `lemmas` follows by reverse unit propagation from `F` and the clauses
before it, and in the end so does the empty clause. -/
inductive Refutation : Formula → List (List Nat) → Prop
  | done {F : Formula} : RUP F [] → Refutation F []
  | learn {F : Formula} {c : List Nat} {cs : List (List Nat)} : RUP F c →
      Refutation (fun d => F d ∨ d = c) cs → Refutation F (c :: cs)

end Verif.Spec
