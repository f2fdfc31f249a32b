import Verif.Model.Reduce

/-!
# Specification: which learned clauses may be thrown away
-/

namespace Verif.Spec.Retention

open Verif.Model.Reduce

/-- The fields of a clause fit in the bits they have. -/
def Typed (c : Clause) : Prop := c.used < 32 ∧ c.glue < 524288 ∧ c.size < 4294967296

instance (c : Clause) : Decidable (Typed c) := by unfold Typed; infer_instance

/-- A clause which may be thrown away with the given limits: learned, not thrown away yet, not the reason of an
assignment, not of the first tier and used since, and not of the second tier and used recently. -/
def Candidate (tier1 tier2 : Nat) (c : Clause) : Prop :=
  c.redundant = true ∧ c.garbage = false ∧ c.reason = false ∧
    (c.glue ≤ tier1 → c.used = 0) ∧ (c.glue ≤ max tier1 tier2 → c.used < 30)

instance (tier1 tier2 : Nat) (c : Clause) : Decidable (Candidate tier1 tier2 c) := by
  unfold Candidate; infer_instance

/-- `c` is better than `d`: smaller glue, or the same glue and fewer literals. -/
def Better (c d : Clause) : Prop := c.glue < d.glue ∨ (c.glue = d.glue ∧ c.size < d.size)

/-- The clause at position `k` was kept before and is garbage now. -/
def Discarded (cs cs' : List Clause) (k : Nat) : Prop :=
  (∃ c, cs[k]? = some c ∧ c.garbage = false) ∧ ∃ c', cs'[k]? = some c' ∧ c'.garbage = true

instance (cs cs' : List Clause) (k : Nat) : Decidable (Discarded cs cs' k) := by
  unfold Discarded
  cases h : cs[k]? with
  | none => exact isFalse (by simp)
  | some c =>
    cases h' : cs'[k]? with
    | none => exact isFalse (by simp)
    | some c' => exact decidable_of_iff (c.garbage = false ∧ c'.garbage = true) (by simp)

/-- Memory for sorting as large as asked for, and clauses with sizes of 32 bits. -/
def Possible : Event → Prop
  | .learn _ size => size < 4294967296
  | .reduce _ _ _ tmp _ => ∀ n, (tmp n).length = n
  | _ => True

/-- The clause at position `k` was just learned, or is kept and was just used. -/
def Fresh (cs : List Clause) (k : Nat) : Event → Prop
  | .learn _ _ => k = cs.length
  | .use ref _ => ref = k ∧ ∃ c, cs[k]? = some c ∧ c.redundant = true ∧ c.garbage = false
  | _ => False

/-- Number of reductions. -/
def reductions : List Event → Nat
  | [] => 0
  | .reduce .. :: es => reductions es + 1
  | _ :: es => reductions es

/-- Every reduction happens with limits satisfying a condition. -/
def LimitsAre (P : Nat → Nat → Prop) (es : List Event) : Prop :=
  ∀ tier1 tier2 target tmp junk, Event.reduce tier1 tier2 target tmp junk ∈ es → P tier1 tier2

end Verif.Spec.Retention
