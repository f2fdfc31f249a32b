/-
Specification of the two DRAT proof file formats, written from the point of
view of a proof checker that reads the file.  Nothing here refers to the
solver.  See the DRAT-trim README: a text line is the literals of a clause in
decimal followed by 0, deletions are prefixed by the letter d; the binary format has a prefix byte
`a` (0x61) or `d` (0x64), each literal `l` is mapped to `2*|l| + (l < 0)` and
written as a little endian base 128 number whose bytes, except the last one, have
bit 7 set, and a zero byte ends the clause.
-/

namespace Verif.Spec

/-- One line of a clausal proof. -/
inductive ProofLine where
  | add (lits : List Int)
  | delete (lits : List Int)
  deriving Repr, DecidableEq

namespace ProofFormat

/-- Read one base-128 number.  `none` if the input ends in the middle. -/
def readNum : List Nat → Option (Nat × List Nat)
  | [] => none
  | b :: rest =>
    if b < 128 then some (b, rest)
    else (readNum rest).map fun (n, r) => (b - 128 + 128 * n, r)

/-- The literal denoted by a positive number in the binary format. -/
def numToLit (n : Nat) : Int :=
  if n % 2 = 0 then ((n / 2 : Nat) : Int) else - ((n / 2 : Nat) : Int)

theorem readNum_length {bs : List Nat} {n : Nat} {r : List Nat}
    (h : readNum bs = some (n, r)) : r.length < bs.length := by
  induction bs generalizing n r with
  | nil => simp [readNum] at h
  | cons b rest ih =>
    simp only [readNum] at h
    split at h
    · simp at h; simp [h.2]
    · cases hr : readNum rest with
      | none => simp [hr] at h
      | some p =>
        obtain ⟨m, r'⟩ := p
        simp [hr] at h
        have := ih hr
        simp [← h.2]; omega

/-- Read literals up to the terminating zero. -/
def readLits (bs : List Nat) : Option (List Int × List Nat) :=
  match h : readNum bs with
  | none => none
  | some (0, rest) => some ([], rest)
  | some (n, rest) =>
    have := readNum_length h
    (readLits rest).map fun (ls, r) => (numToLit n :: ls, r)
termination_by bs.length

theorem readLits_length {bs : List Nat} {ls : List Int} {r : List Nat}
    (h : readLits bs = some (ls, r)) : r.length < bs.length := by
  induction hn : bs.length using Nat.strongRecOn generalizing bs ls r with
  | ind n ih =>
    unfold readLits at h
    split at h
    · simp at h
    · next rest hr => simp at h; have := readNum_length hr; simp_all
    · next m rest hm hr =>
      have hl := readNum_length hr
      cases hq : readLits rest with
      | none => simp [hq] at h
      | some p =>
        obtain ⟨ls', r'⟩ := p
        simp [hq] at h
        have := ih rest.length (by omega) hq rfl
        rw [← h.2]; omega

/-- Read a whole binary proof. -/
def readBinary (bs : List Nat) : Option (List ProofLine) :=
  match bs with
  | [] => some []
  | b :: rest =>
    if b = 0x61 ∨ b = 0x64 then
      match h : readLits rest with
      | none => none
      | some (ls, r) =>
        have := readLits_length h
        (readBinary r).map fun p =>
          (if b = 0x61 then ProofLine.add ls else ProofLine.delete ls) :: p
    else none
termination_by bs.length
decreasing_by simp; omega

/-- Value of a non empty string of decimal digits (ASCII bytes). -/
def readNat (acc : Nat) : List Nat → Option Nat
  | [] => some acc
  | b :: rest => if 48 ≤ b ∧ b ≤ 57 then readNat (10 * acc + (b - 48)) rest else none

/-- Value of an optionally negated decimal number. -/
def readInt : List Nat → Option Int
  | [] => none
  | 45 :: b :: rest => (readNat 0 (b :: rest)).map fun (n : Nat) => - (n : Int)
  | bs => (readNat 0 bs).map fun (n : Nat) => (n : Int)

/-- All words of a line up to the terminating `0`, which has to be the last. -/
def readWords : List (List Nat) → Option (List Int)
  | [] => none
  | [w] => if w = [48] then some [] else none
  | w :: ws => match readInt w, readWords ws with
    | some l, some ls => some (l :: ls)
    | _, _ => none

/-- One text line without its newline. -/
def readTextLine (line : List Nat) : Option ProofLine :=
  match line.splitOn 32 with
  | [100] :: ws => (readWords ws).map .delete
  | ws => (readWords ws).map .add

/-- A whole text proof: every line is terminated by a newline. -/
def readText (bs : List Nat) : Option (List ProofLine) :=
  match (bs.splitOn 10).reverse with
  | [] :: revLines => revLines.reverse.mapM readTextLine
  | _ => none

end ProofFormat
end Verif.Spec
