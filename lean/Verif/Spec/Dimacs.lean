/-!
# The DIMACS format as accepted by the three parsing modes

Files are lists of bytes (natural numbers below 256).
-/

namespace Verif.Spec.Dimacs

/-- The largest legal variable. -/
def maxVar : Nat := 2 ^ 30 - 1

/-- Parsing modes. -/
inductive Mode
  | relaxed
  | normal
  | pedantic
  deriving DecidableEq

/-- A decimal digit. -/
def IsDigit (x : Nat) : Prop := 48 ≤ x ∧ x ≤ 57

/-- The number denoted by a sequence of digits. -/
def value (ds : List Nat) : Nat := ds.foldl (fun n d => 10 * n + (d - 48)) 0

/-- A nonempty sequence of digits. -/
def Digits (ds : List Nat) : Prop := ds ≠ [] ∧ ∀ d ∈ ds, IsDigit d

/-- `w` is a decimal representation of the integer `l`, which is at most the largest
variable; a negative number has no leading zero. -/
def Numeral (w : List Nat) (l : Int) : Prop :=
  (Digits w ∧ l = value w ∧ value w ≤ maxVar) ∨
  ∃ d ds, w = 45 :: d :: ds ∧ Digits (d :: ds) ∧ d ≠ 48 ∧ l = - (value (d :: ds) : Int) ∧
    value (d :: ds) ≤ maxVar

/-- A line end: new-line, or carriage-return and new-line. -/
def LineEnd (w : List Nat) : Prop := w = [10] ∨ w = [13, 10]

/-- A comment with its line end. -/
def CommentLine (w : List Nat) : Prop := ∃ t, 10 ∉ t ∧ w = 99 :: t ++ [10]

/-- A comment at the end of the file. -/
def OpenComment (w : List Nat) : Prop := ∃ t, 10 ∉ t ∧ w = 99 :: t

/-- What separates two numerals. -/
def Separator (w : List Nat) : Prop := w = [32] ∨ w = [9] ∨ LineEnd w ∨ CommentLine w

/-- Lines before the header: empty lines (not in pedantic mode) and comments, in which
carriage-return occurs at most before the new-line. -/
inductive Prolog (m : Mode) : List Nat → Prop
  | nil : Prolog m []
  | blank {e w} : m ≠ .pedantic → LineEnd e → Prolog m w → Prolog m (e ++ w)
  | comment {t e w} : 10 ∉ t → 13 ∉ t → LineEnd e → Prolog m w →
      Prolog m (99 :: t ++ e ++ w)

/-- Additional white space in the header, not in pedantic mode. -/
def Space (m : Mode) (w : List Nat) : Prop := w = [] ∨ (m ≠ .pedantic ∧ ∀ x ∈ w, x = 32 ∨ x = 9)

/-- `p cnf <variables> <clauses>`. -/
def Header (m : Mode) (w : List Nat) (variables clauses : Nat) : Prop :=
  ∃ s₁ s₂ d₁ s₃ d₂ s₄ e, Space m s₁ ∧ Space m s₂ ∧ Space m s₃ ∧ Space m s₄ ∧ LineEnd e ∧
    Digits d₁ ∧ value d₁ = variables ∧ variables ≤ maxVar ∧
    Digits d₂ ∧ value d₂ = clauses ∧ clauses < 2 ^ 64 ∧
    w = [112, 32] ++ s₁ ++ [99, 110, 102, 32] ++ s₂ ++ d₁ ++ [32] ++ s₃ ++ d₂ ++ s₄ ++ e

/-- The integers after the header.  In pedantic mode the last one must be followed by a
separator and the last comment by a new-line. -/
inductive Body (m : Mode) : List Nat → List Int → Prop
  | nil : Body m [] []
  | blank {x w ls} : x = 32 ∨ x = 9 → Body m w ls → Body m (x :: w) ls
  | lineEnd {e w ls} : LineEnd e → Body m w ls → Body m (e ++ w) ls
  | comment {c w ls} : CommentLine c → Body m w ls → Body m (c ++ w) ls
  | lastComment {c} : m ≠ .pedantic → OpenComment c → Body m c []
  | lit {n l s w ls} : Numeral n l → Separator s → Body m w ls → Body m (n ++ s ++ w) (l :: ls)
  | lastLit {n l} : m ≠ .pedantic → Numeral n l → Body m n [l]
  | lastLitComment {n l c} : m ≠ .pedantic → Numeral n l → OpenComment c → Body m (n ++ c) [l]

/-- Every clause is terminated. -/
def Terminated (ls : List Int) : Prop := ls = [] ∨ ls.getLast? = some 0

/-- What the header says about the body, unless in relaxed mode. -/
def Agrees (m : Mode) (variables clauses : Nat) (ls : List Int) : Prop :=
  m = .relaxed ∨ ((∀ l ∈ ls, l.natAbs ≤ variables) ∧ ls.count 0 = clauses)

/-- `w` is a legal DIMACS file with these header counts and integers. -/
def Legal (m : Mode) (w : List Nat) (variables clauses : Nat) (ls : List Int) : Prop :=
  ∃ a h b, w = a ++ h ++ b ∧ Prolog m a ∧ Header m h variables clauses ∧ Body m b ls ∧
    Terminated ls ∧ Agrees m variables clauses ls

/-- Number of the line (counting from one) of the last character of `w`; a new-line belongs
to the line it ends. -/
def lineOfLast (w : List Nat) : Nat := 1 + (w.dropLast).count 10

end Verif.Spec.Dimacs
