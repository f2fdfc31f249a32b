/-!
# Clause storage

Specification of the clause storage as a list of clauses with their references, used for
property C34.
-/

namespace Verif.Spec

/-- A stored clause. -/
structure Entry where
  lits : List Nat
  redundant : Bool
  garbage : Bool
deriving DecidableEq, Repr

/-- What garbage collection does to a literal: it is removed (root level falsified), satisfies its
clause (root level satisfied) or is kept, possibly renamed. -/
inductive Fate
  | drop
  | satisfied
  | keep (lit : Nat)

/-- The literal if it is kept. -/
def Fate.kept : Fate → Option Nat
  | .keep l => some l
  | _ => none

/-- Is it satisfied? -/
def Fate.isSatisfied : Fate → Bool
  | .satisfied => true
  | _ => false

/-- Clauses which stay in the storage during garbage collection, with their new literals: garbage
and satisfied clauses are dropped and clauses of which two literals are left are moved to the
watch lists. -/
def Entry.collect (fate : Nat → Fate) (e : Entry) : Option Entry :=
  if e.garbage then none
  else if e.lits.any fun l => (fate l).isSatisfied then none
  else if (e.lits.filterMap fun l => (fate l).kept).length = 2 then none
  else some { e with lits := e.lits.filterMap fun l => (fate l).kept }

/-- The clause with two literals it becomes during garbage collection, if any. -/
def Entry.binary (fate : Nat → Fate) (e : Entry) : Option (Nat × Nat) :=
  if e.garbage then none
  else if e.lits.any fun l => (fate l).isSatisfied then none
  else match e.lits.filterMap fun l => (fate l).kept with
    | [a, b] => some (a, b)
    | _ => none

/-- Operations on the storage. -/
inductive StoreOp
  /-- add a clause -/
  | add (redundant : Bool) (lits : List Nat)
  /-- replace the literals of the clause with this reference by at most as many literals -/
  | rewrite (ref : Nat) (lits : List Nat)
  /-- mark the clause with this reference as garbage -/
  | garbage (ref : Nat)
  /-- garbage collection from the clause with this reference on; moves redundant clauses to the
  end -/
  | collect (start : Nat) (fate : Nat → Fate)
  /-- removing garbage clauses -/
  | denseCollect

/-- Literals that can be stored: 32 bit numbers different from `2^32 - 1`. -/
def Storable (lits : List Nat) : Prop := ∀ l ∈ lits, l < 2 ^ 32 - 1

/-- Split a list of clauses at a reference; the end of the storage has the reference `stop`. -/
def SplitAt (start stop : Nat) (l a b : List (Nat × Entry)) : Prop :=
  l = a ++ b ∧ (b.head?.map Prod.fst).getD stop = start

/-- Operations allowed on the storage with clauses `l`.  A binary clause is no stored clause. -/
def StoreOp.Legal (stop : Nat) (l : List (Nat × Entry)) : StoreOp → Prop
  | .add _ lits => 3 ≤ lits.length ∧ lits.length < 2 ^ 30 ∧ Storable lits
  | .rewrite r lits => Storable lits ∧ 3 ≤ lits.length ∧ ∃ e, (r, e) ∈ l ∧ lits.length ≤ e.lits.length
  | .garbage r => ∃ e, (r, e) ∈ l
  | .collect start fate => ∃ a b, SplitAt start stop l a b ∧ ∀ x ∈ b, x.2.garbage = false →
      (∀ y ∈ x.2.lits, (fate y).isSatisfied = false) →
      2 ≤ (x.2.lits.filterMap fun y => (fate y).kept).length ∧
      Storable (x.2.lits.filterMap fun y => (fate y).kept)
  | .denseCollect => True

/-- The clauses after an operation; garbage collection changes references, the other operations
do not. -/
def StoreOp.Result (stop : Nat) (l l' : List (Nat × Entry)) : StoreOp → Prop
  | .add redundant lits => ∃ r, l' = l ++ [(r, ⟨lits, redundant, false⟩)]
  | .rewrite r lits => l' = l.map fun x => if x.1 = r then (x.1, { x.2 with lits := lits }) else x
  | .garbage r => l' = l.map fun x => if x.1 = r then (x.1, { x.2 with garbage := true }) else x
  | .collect start fate => ∃ a b c, SplitAt start stop l a b ∧ l' = a ++ c ∧ c.map Prod.snd =
      (b.filterMap fun x => x.2.collect fate).filter (fun e => !e.redundant) ++
      (b.filterMap fun x => x.2.collect fate).filter (fun e => e.redundant)
  | .denseCollect => l'.map Prod.snd = (l.map Prod.snd).filter fun e => !e.garbage

end Verif.Spec
