import Verif.Spec.Drat
import Verif.Spec.ProofFormat

/-!
# What a user of the library sees

Variables are positive integers, literals non zero integers, a formula is the list
of clauses obtained by cutting the sequence of added integers at zeros.  Nothing here
mentions the solver.
-/

namespace Verif.Spec

/-- The external literal `e` is true under the assignment `σ` of the variables. -/
def ElitTrue (σ : Nat → Bool) (e : Int) : Prop :=
  σ e.natAbs = decide (0 < e)

/-- One of the literals is true. -/
def ESat (σ : Nat → Bool) (c : List Int) : Prop := ∃ e ∈ c, ElitTrue σ e

/-- The clauses have a common model. -/
def ESatisfiable (cs : List (List Int)) : Prop := ∃ σ : Nat → Bool, ∀ c ∈ cs, ESat σ c

/-- Cutting a sequence of integers at zeros: complete clauses and the rest. -/
def scan (es : List Int) : List (List Int) × List Int :=
  es.foldl (fun p e => if e = 0 then (p.1 ++ [p.2], []) else (p.1, p.2 ++ [e])) ([], [])

/-- The clauses that are complete. -/
def clausesOf (es : List Int) : List (List Int) := (scan es).1

/-- The literals after the last zero. -/
def pendingOf (es : List Int) : List Int := (scan es).2

/-- Usual coding of non zero integers: twice the variable plus the sign. -/
def code (e : Int) : Nat := 2 * e.natAbs + (if e < 0 then 1 else 0)

/-- `RupReplay orig lines db`: a checker starting with the clauses `orig` accepts all
lines, every added clause has the RUP property, every deleted clause is present, and
`db` are the clauses held at the end. -/
inductive RupReplay (orig : List (List Nat)) : List Line → List (List Nat) → Prop
  | nil : RupReplay orig [] orig
  | add {lines db c} : RupReplay orig lines db → RUP (ofList db) c →
      RupReplay orig (lines ++ [.add c]) (c :: db)
  | delete {lines db c} : RupReplay orig lines db → (∃ d ∈ db, SameLits c d) →
      RupReplay orig (lines ++ [.delete c]) (deleteClause db c)

/-- A line of a proof file with coded literals. -/
def ProofLine.coded : ProofLine → Line
  | .add c => .add (c.map code)
  | .delete c => .delete (c.map code)

/-- The proof is accepted for the given clauses and `db` is held at the end. -/
def Accepted (cs : List (List Int)) (proof : List ProofLine) (db : List (List Nat)) : Prop :=
  RupReplay (cs.map fun c => c.map code) (proof.map ProofLine.coded) db

end Verif.Spec
