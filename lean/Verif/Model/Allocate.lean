import Verif.Spec.Ledger

/-!
# Allocation: `allocate.c`

The functions of the C library get their answers from outside (`answer`): the address of a new
block, or `none` if there is no memory.  Numbers of type `size_t` and counters have 64 bits.
Logging and the contents of blocks are left out; the counters exist with `METRICS` only.
-/

namespace Verif.Model.Allocate

open Verif.Spec.Ledger (Blocks without Request)

/-- Memory and the two counters of `struct statistics`. -/
structure State where
  /-- live blocks of the C library -/
  heap : Blocks
  /-- `allocated_current` -/
  current : Nat
  /-- `allocated_max` -/
  max : Nat
  deriving DecidableEq

/-- A new solver. -/
def State.init : State := ⟨[], 0, 0⟩

/-- Results: a pointer (zero for `NULL`), or `kissat_fatal` was called, or the C library was called
in a way which is undefined. -/
inductive Result where
  | ok (p : Nat) (s : State)
  | fatal
  | undefined
  deriving DecidableEq

/-- `inc_bytes` (allocate.c:15-32). -/
def State.inc (s : State) (bytes : Nat) : State :=
  let current := (s.current + bytes) % 2 ^ 64
  { s with current := current, max := if current ≥ s.max then current else s.max }

/-- `dec_bytes` (allocate.c:34-45). -/
def State.dec (s : State) (bytes : Nat) : State :=
  { s with current := (s.current + 2 ^ 64 - bytes) % 2 ^ 64 }

/-- `malloc` and `calloc` of the C library. -/
def State.libAlloc (s : State) (q bytes : Nat) : State := { s with heap := (q, bytes) :: s.heap }

/-- Is there a block at the address? -/
def State.live (s : State) (p : Nat) : Bool := s.heap.any fun x => x.1 = p

/-- `kissat_malloc` (allocate.c:47-57). -/
def malloc (s : State) (answer : Option Nat) (bytes : Nat) : Result :=
  if bytes = 0 then .ok 0 s
  else
    match answer with
    | none => .fatal
    | some q => .ok q ((s.libAlloc q bytes).inc bytes)

/-- `kissat_free` (allocate.c:59-66). -/
def free (s : State) (p bytes : Nat) : Result :=
  if p ≠ 0 then
    let s := s.dec bytes
    if s.live p then .ok 0 { s with heap := without s.heap p } else .undefined
  else .ok 0 s

/-- `kissat_nalloc` (allocate.c:68-83). -/
def nalloc (s : State) (answer : Option Nat) (n size : Nat) : Result :=
  if n = 0 ∨ size = 0 then .ok 0 s
  else if (2 ^ 64 - 1) / size < n then .fatal
  else
    let bytes := (n * size) % 2 ^ 64
    match answer with
    | none => .fatal
    | some q => .ok q ((s.libAlloc q bytes).inc bytes)

/-- `kissat_calloc` (allocate.c:85-100).  The C library multiplies `n` and `size` itself: it
gives a block of this size or none. -/
def calloc (s : State) (answer : Option Nat) (n size : Nat) : Result :=
  if n = 0 ∨ size = 0 then .ok 0 s
  else if (2 ^ 64 - 1) / size < n then .fatal
  else
    match answer with
    | none => .fatal
    | some q => .ok q ((s.libAlloc q (n * size)).inc ((n * size) % 2 ^ 64))

/-- `kissat_dealloc` (allocate.c:102-109). -/
def dealloc (s : State) (p n size : Nat) : Result :=
  if n = 0 ∨ size = 0 then .ok 0 s
  else if (2 ^ 64 - 1) / size < n then .fatal
  else free s p ((n * size) % 2 ^ 64)

/-- `kissat_realloc` (allocate.c:111-127). -/
def realloc (s : State) (answer : Option Nat) (p old new : Nat) : Result :=
  if old = new then .ok p s
  else if new = 0 then free s p old
  else
    let s := s.dec old
    if p ≠ 0 ∧ s.live p = false then .undefined
    else
      match answer with
      | none => .fatal
      | some q => .ok q (({ s with heap := without s.heap p }.libAlloc q new).inc new)

/-- `kissat_nrealloc` (allocate.c:129-142). -/
def nrealloc (s : State) (answer : Option Nat) (p o n size : Nat) : Result :=
  if size = 0 then .ok 0 s
  else
    let max := (2 ^ 64 - 1) / size
    if max < o ∨ max < n then .fatal
    else realloc s answer p ((o * size) % 2 ^ 64) ((n * size) % 2 ^ 64)

/-- A call; the arguments are of type `size_t`. -/
inductive Call where
  | malloc (bytes : Nat)
  | free (p bytes : Nat)
  | nalloc (n size : Nat)
  | calloc (n size : Nat)
  | dealloc (p n size : Nat)
  | realloc (p old new : Nat)
  | nrealloc (p o n size : Nat)

/-- The function called (allocate.h:8-16). -/
def Call.run (s : State) (answer : Option Nat) : Call → Result
  | .malloc bytes => Allocate.malloc s answer bytes
  | .free p bytes => Allocate.free s p bytes
  | .nalloc n size => Allocate.nalloc s answer n size
  | .calloc n size => Allocate.calloc s answer n size
  | .dealloc p n size => Allocate.dealloc s p n size
  | .realloc p old new => Allocate.realloc s answer p old new
  | .nrealloc p o n size => Allocate.nrealloc s answer p o n size

/-- The check in `kissat_release` (internal.c:149-154): the number of bytes reported as leaking, if
any. -/
def leaked (s : State) : Option Nat := if s.current ≠ 0 then some s.current else none

/-- What the caller of a function asks for (allocate.h:8-16). -/
def request : Call → Request
  | .malloc bytes => .allocate bytes 1
  | .free p bytes => .release p bytes 1
  | .nalloc n size => .allocate n size
  | .calloc n size => .allocate n size
  | .dealloc p n size => .release p n size
  | .realloc p old new => .resize p old new 1
  | .nrealloc p o n size => .resize p o n size

/-- Arguments of type `size_t` (allocate.h:8-16). -/
def Typed : Call → Prop
  | .malloc bytes => bytes < 2 ^ 64
  | .free _ bytes => bytes < 2 ^ 64
  | .nalloc n size => n < 2 ^ 64 ∧ size < 2 ^ 64
  | .calloc n size => n < 2 ^ 64 ∧ size < 2 ^ 64
  | .dealloc _ n size => n < 2 ^ 64 ∧ size < 2 ^ 64
  | .realloc _ old new => old < 2 ^ 64 ∧ new < 2 ^ 64
  | .nrealloc _ o n size => o < 2 ^ 64 ∧ n < 2 ^ 64 ∧ size < 2 ^ 64

end Verif.Model.Allocate
