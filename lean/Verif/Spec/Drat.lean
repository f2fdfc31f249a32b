import Verif.Spec.Cnf

/-!
# Clausal proofs (DRAT) over internal literals

A checker keeps a list of clauses.  An addition must be RUP or RAT with respect to
the clauses currently held.  A deletion removes one clause with the same literals.
-/

namespace Verif.Spec

/-- A proof line. -/
inductive Line
  | add (c : List Nat)
  | delete (c : List Nat)
  deriving DecidableEq, Repr

/-- Decidable version of `SameLits`. -/
def sameLits (c d : List Nat) : Bool := c.all (fun l => d.contains l) && d.all (fun l => c.contains l)

/-- Deletion of one copy of a clause. -/
def deleteClause (db : List (List Nat)) (c : List Nat) : List (List Nat) :=
  db.eraseP (sameLits c)

/-- The formula consisting of the clauses in a list. -/
def ofList (db : List (List Nat)) : Formula := fun c => c ∈ db

/-- `Replay orig lines db`: a checker starting with the clauses `orig` accepts all
lines and holds the clauses `db` afterwards. -/
inductive Replay (orig : List (List Nat)) : List Line → List (List Nat) → Prop
  | nil : Replay orig [] orig
  | add {lines db c} : Replay orig lines db → RUP (ofList db) c ∨ RAT (ofList db) c →
      Replay orig (lines ++ [.add c]) (c :: db)
  | delete {lines db c} : Replay orig lines db →
      Replay orig (lines ++ [.delete c]) (deleteClause db c)

end Verif.Spec
