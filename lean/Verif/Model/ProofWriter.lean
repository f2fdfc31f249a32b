/-
Model of /repo/src/proof.c (lines 54-404): the writer of DRAT proofs.

Bytes are `Nat`s; C's conversion to `unsigned char` is `% 256`.
Simplifications: statistics counters, logging, and the debugging tables
(`units`, `imported`, `empty`) are left out; `kissat_write` always writes all
bytes (otherwise `flush_buffer` calls `kissat_fatal` and the process exits,
proof.c:70-71); `fflush` is invisible.
-/
namespace Verif.Model

/-- proof.c:23-41 `struct proof` with the file content and the option
`flushproof`.  `chars` are the bytes `buffer.chars[0..buffer.pos)`,
`capacity` is `size_buffer` (2^20, proof.c:14). `exported` is
`solver->export`, the external variable of an internal variable index. -/
structure Proof where
  binary : Bool
  flushproof : Bool
  capacity : Nat
  chars : List Nat
  file : List Nat
  line : List Int
  exported : Nat → Int

namespace Proof

/-- proof.c:54-63 `kissat_init_proof` (all fields zero), file opened empty. -/
def init (binary flushproof : Bool) (exported : Nat → Int) : Proof :=
  { binary, flushproof, capacity := 2 ^ 20, chars := [], file := [], line := [], exported }

/-- proof.c:65-73 `flush_buffer`. -/
def flushBuffer (p : Proof) : Proof :=
  if p.chars.length = 0 then p else { p with file := p.file ++ p.chars, chars := [] }

/-- proof.c:75-90 `kissat_release_proof`: the bytes in the file at the end. -/
def release (p : Proof) : List Nat := p.flushBuffer.file

/-- proof.c:130-135 `write_char`. -/
def writeChar (p : Proof) (ch : Nat) : Proof :=
  let p := if p.chars.length = p.capacity then p.flushBuffer else p
  { p with chars := p.chars ++ [ch % 256] }

/-- inline.h:197-207 `kissat_export_literal`. -/
def exportLiteral (exported : Nat → Int) (ilit : Nat) : Int :=
  let elit := exported (ilit / 2)
  if elit = 0 then 0 else if ilit % 2 = 1 then - elit else elit

/-- proof.c:137-147 `import_internal_proof_literal`. -/
def importInternal (p : Proof) (ilit : Nat) : Proof :=
  { p with line := p.line ++ [exportLiteral p.exported ilit] }

/-- proof.c:149-157 `import_external_proof_literal`. -/
def importExternal (p : Proof) (elit : Int) : Proof :=
  { p with line := p.line ++ [elit] }

/-- proof.c:193-198: the `while` loop writing one number in the binary format. -/
def writeNum (p : Proof) (x : Nat) : Proof :=
  if _h : x / 128 ≠ 0 then                       -- x & ~0x7f
    writeNum (p.writeChar (x % 128 + 128)) (x / 128)   -- (x & 0x7f) | 0x80, x >>= 7
  else p.writeChar x
termination_by x
decreasing_by omega

/-- proof.c:188-201 `print_binary_proof_line`; `x` is a 32 bit unsigned. -/
def printBinaryLine (p : Proof) : Proof :=
  (p.line.foldl (fun p elit =>
    p.writeNum ((2 * elit.natAbs + (if elit < 0 then 1 else 0)) % 2 ^ 32)) p).writeChar 0

/-- proof.c:219-220: the digits of `tmp`, most significant first, prepended to `acc`
(the local character buffer is filled from its end). -/
def digits (tmp : Nat) (acc : List Nat) : List Nat :=
  if _h : tmp = 0 then acc else digits (tmp / 10) ((48 + tmp % 10) :: acc)
termination_by tmp
decreasing_by omega

/-- proof.c:208-224: one literal in text format. -/
def writeTextLit (p : Proof) (elit : Int) : Proof :=
  let p := if elit < 0 then p.writeChar 45 else p
  ((digits elit.natAbs []).foldl writeChar p).writeChar 32

/-- proof.c:203-227 `print_non_binary_proof_line`. -/
def printNonBinaryLine (p : Proof) : Proof :=
  ((p.line.foldl writeTextLit p).writeChar 48).writeChar 10

/-- proof.c:229-246 `print_proof_line`. -/
def printLine (p : Proof) : Proof :=
  let p := if p.binary then p.printBinaryLine else p.printNonBinaryLine
  let p := { p with line := [] }
  if p.flushproof then p.flushBuffer else p

/-- proof.c:287-301 `print_added_proof_line`. -/
def printAddedLine (p : Proof) : Proof :=
  (if p.binary then p.writeChar 0x61 else p).printLine

/-- proof.c:303-315 `print_delete_proof_line`. -/
def printDeleteLine (p : Proof) : Proof :=
  let p := p.writeChar 100
  (if p.binary then p else p.writeChar 32).printLine

/-- The requests other parts of the solver send to the proof writer. -/
inductive Op where
  | addInternal (lits : List Nat)     -- clause, literals or unit
  | addEmpty
  | deleteInternal (lits : List Nat)
  | deleteExternal (lits : List Int)
  /-- shrink a clause; `falsified l` says that `values[l] < 0` on level 0 -/
  | shrink (lits : List Nat) (remove keep : Nat) (falsified : Nat → Bool)

/-- proof.c:317-404: `kissat_add_binary_to_proof` (317-322),
`kissat_add_clause_to_proof` (324-329), `kissat_add_lits_to_proof` (338-344) and
`kissat_add_unit_to_proof` (346-352) are all `addInternal`,
`kissat_add_empty_to_proof` (331-336) is `addEmpty`,
`kissat_shrink_clause_in_proof` (354-372) is `shrink`,
`kissat_delete_binary_from_proof`, `kissat_delete_clause_from_proof`,
`kissat_delete_internal_from_proof` (374-387, 398-404) are `deleteInternal` and
`kissat_delete_external_from_proof` (389-396) is `deleteExternal`. -/
def step (p : Proof) : Op → Proof
  | .addInternal lits => (lits.foldl importInternal p).printAddedLine
  | .addEmpty => p.printAddedLine
  | .deleteInternal lits => (lits.foldl importInternal p).printDeleteLine
  | .deleteExternal lits => (lits.foldl importExternal p).printDeleteLine
  | .shrink lits remove keep falsified =>
    let kept := lits.filter fun l => l ≠ remove && (l = keep || !falsified l)
    let p := (kept.foldl importInternal p).printAddedLine
    (lits.foldl importInternal p).printDeleteLine

/-- A whole run: from opening to releasing the proof. -/
def run (binary flushproof : Bool) (exported : Nat → Int) (ops : List Op) : List Nat :=
  (ops.foldl step (init binary flushproof exported)).release

end Proof
end Verif.Model
