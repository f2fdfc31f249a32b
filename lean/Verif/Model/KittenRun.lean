import Verif.Model.Kitten

/-!
# Histories of calls of kitten

What a caller of `kitten.h` has said so far, and the histories of calls for which the properties of
kitten are proved.
-/

namespace Verif.Kitten

/-- Clauses with identifiers and assumptions as given by the caller (external literals). -/
structure Problem where
  clauses : List (Nat × List Nat)
  assumptions : List Nat

/-- The first call after an answer drops the assumptions (kitten.c:1682-1692, 1785, 1798, 1826). -/
def Problem.ready (p : Problem) (status : Nat) : Problem :=
  if status ≠ 0 then { p with assumptions := [] } else p

/-- The problem has a model. -/
def Problem.Consistent (p : Problem) : Prop :=
  ∃ σ : Spec.Assignment, (∀ c ∈ p.clauses, Spec.SatClause σ c.2) ∧ ∀ a ∈ p.assumptions, Spec.litTrue σ a

/-- The first two literals of a clause are both fixed to false (`kitten_fixed`). -/
def Kitten.blocked (k : Kitten) : List Nat → Bool
  | a :: b :: _ => if k.fixed a < 0 ∧ k.fixed b < 0 then true else false
  | _ => false

/-- The clauses of the problem in the computed core. -/
def Kitten.inCore (k : Kitten) (c : Nat × List Nat) : Bool :=
  k.klauses.any fun kl => !kl.learned && kl.core && kl.id == c.1 &&
    kl.lits.isPerm (c.2.map fun e => 2 * (k.imports (e / 2) - 1) + e % 2)

/-- Histories of calls: the flag says that there was no search yet.

Excluded are
* clauses of size at least two whose first two literals are both fixed to false when they are
  added;
* tracking of antecedents after a search;
* shrinking to the core if an empty clause was added.
For these kitten does not behave as described (see the theorems with suffix `_wrong`). -/
inductive Run : Kitten → Problem → Bool → Prop
  | init : Run Kitten.init ⟨[], []⟩ true
  | clear {k p f} : Run k p f → Run k.clear ⟨[], []⟩ true
  | track {k p k'} : Run k p true → k.track = some k' → Run k' p true
  | clause {k p f id elits except k'} : Run k p f → k.clause id elits except = some k' →
      k.blocked (elits.filter fun e => some e ≠ except) = false →
      Run k' { p.ready k.status with
        clauses := p.clauses ++ [(id, elits.filter fun e => some e ≠ except)] } f
  | assume {k p f} (e : Nat) : Run k p f →
      Run (k.assume e) { p.ready k.status with assumptions := (p.ready k.status).assumptions ++ [e] } f
  | solve {k p f choice rounds res k'} : Run k p f → k.solve choice rounds = .done res k' →
      Run k' (if res = 0 then { p with assumptions := [] } else p.ready k.status) false
  | core {k p f k'} : Run k p f → k.computeCore = some k' → Run k' p f
  | shrink {k p f k'} : Run k p f → k.shrink = some k' → (∀ c ∈ p.clauses, c.2 ≠ []) →
      Run k' { p with clauses := p.clauses.filter k.inCore } f
  | shuffle {k p f pick pickUnit k'} : Run k p f → k.shuffle pick pickUnit = some k' → Run k' p f
  | flip {k p f e k' res} : Run k p f → k.flip e = some (k', res) → Run k' p f

end Verif.Kitten
