import Verif.Model.Printf

/-!
# Printing the model: `witness.c`
-/

namespace Verif.Model.Witness

/-- What was printed to `stdout` and the buffer. -/
structure Out where
  text : List Nat
  buffer : List Nat

/-- `flush_buffer` (witness.c:8-14). -/
def Out.flush (o : Out) : Out := ⟨o.text ++ 118 :: o.buffer ++ [10], []⟩

/-- `print_int` (witness.c:16-25).  `none` if the local array `tmp` of 16 characters, among them the
final zero, is too small. -/
def Out.print (o : Out) (i : Int) : Option Out :=
  let tmp := 32 :: printInt i
  if tmp.length + 1 > 16 then none
  else
    let o := if o.buffer.length + tmp.length > 77 then o.flush else o
    some { o with buffer := o.buffer ++ tmp }

/-- The loop of `kissat_print_witness` (witness.c:30-36): `n` variables from `eidx` on.  `value` is
`kissat_value`. -/
def printLoop (value : Nat → Int) (partially : Bool) : Nat → Nat → Out → Option Out
  | 0, _, o => some o
  | n + 1, eidx, o =>
    let tmp := value eidx
    let tmp := if tmp = 0 ∧ ¬ partially then (eidx : Int) else tmp
    match (if tmp ≠ 0 then o.print tmp else some o) with
    | none => none
    | some o => printLoop value partially n (eidx + 1) o

/-- `kissat_print_witness` (witness.c:27-41). -/
def printWitness (value : Nat → Int) (maxVar : Nat) (partially : Bool) : Option (List Nat) :=
  match printLoop value partially maxVar 1 ⟨[], []⟩ with
  | none => none
  | some o => (o.print 0).map fun o => o.flush.text

end Verif.Model.Witness
