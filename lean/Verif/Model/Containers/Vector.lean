import Verif.Spec.Lists
import Verif.Model.Bits
import Verif.Model.Containers.Radix
import Verif.Model.Containers.Stack

/-!
# Watch list vectors: `vector.h`, `vector.c`, `inlinevector.h`

The version without `COMPACT`, thus vectors hold pointers.  Addresses are numbers counted in
units of elements (four bytes); zero is the null pointer.  The contents of the stack are a
function of the offset from `begin`.  All vectors are the watch lists `0, …, n - 1` of the
literals.  Accesses outside of the stack and counter underflow are the result `undefined`,
exhaustion of the maximal stack size is `fatal` (`kissat_fatal`).
-/

namespace Verif.Model.Containers

open Verif.Spec Verif.Model.Bits

/-- `INVALID_VECTOR_ELEMENT` (vector.h:17). -/
def invalidElement : Nat := 2 ^ 32 - 1

/-- `MAX_VECTORS` (vector.h:12-15). -/
def maxVectors : Nat := 2 ^ 48

/-- `solver->vectors` and `solver->watches` (vector.h:24-37). -/
structure Vectors where
  /-- `stack.begin` -/
  base : Nat
  /-- `stack.end - stack.begin` -/
  size : Nat
  /-- `stack.allocated - stack.begin` -/
  capacity : Nat
  mem : Nat → Nat
  usable : Nat
  first : Nat → Nat
  last : Nat → Nat

/-- Result of an operation. -/
inductive VOut (α : Type)
  | ok (x : α)
  | fatal
  | undefined

/-- What memory allocation returns during an operation: the address of the block and the
contents of new memory. -/
structure Block where
  address : Nat
  fill : Nat → Nat

/-- All zero (internal.c `kissat_init`). -/
def Vectors.init (mem : Nat → Nat) : Vectors := ⟨0, 0, 0, mem, 0, fun _ => 0, fun _ => 0⟩

/-- Replace one value of a function. -/
def put {α : Type} (f : Nat → α) (i : Nat) (x : α) : Nat → α := fun j => if j = i then x else f j

/-- `FIX_POINTER` (vector.c:26-34). -/
def fixPointer (old new p : Nat) : Nat := if p = 0 then 0 else p + new - old

/-- `kissat_realloc` of the stack to the given capacity, then
`fix_vector_pointers_after_moving_stack` (vector.c:14-39). -/
def Vectors.moveTo (s : Vectors) (b : Block) (capacity : Nat) : Vectors :=
  { s with
    base := b.address
    capacity := capacity
    mem := fun i => if i < s.capacity then s.mem i else b.fill i
    first := fun v => fixPointer s.base b.address (s.first v)
    last := fun v => fixPointer s.base b.address (s.last v) }

/-- The loop enlarging the stack (vector.c:63-76), with `kissat_stack_enlarge`: twice the old
capacity, initially two elements of four bytes.  Gives the new capacity; at most `fuel`
iterations. -/
def growCapacity (size need : Nat) : Nat → Nat → VOut Nat
  | 0, _ => .undefined
  | fuel + 1, capacity =>
    if capacity = maxVectors then .fatal
    else
      let capacity := if capacity ≠ 0 then 2 * capacity else 2
      if need > capacity - size then growCapacity size need fuel capacity else .ok capacity

/-- First part of `kissat_enlarge_vector` (vector.c:52-99): make room for `need` elements. -/
def Vectors.reserve (s : Vectors) (b : Block) (need : Nat) : VOut Vectors :=
  if need > s.capacity - s.size then
    match growCapacity s.size need 64 s.capacity with
    | .ok capacity => .ok (s.moveTo b capacity)
    | .fatal => .fatal
    | .undefined => .undefined
  else .ok s

/-- `kissat_enlarge_vector` (vector.c:43-136).  The returned pointer is `last v`. -/
def Vectors.enlarge (s : Vectors) (b : Block) (v : Nat) : VOut Vectors :=
  let oldSize := s.last v - s.first v
  let newSize := if oldSize ≠ 0 then 2 * oldSize else 1
  match s.reserve b newSize with
  | .fatal => .fatal
  | .undefined => .undefined
  | .ok s =>
    let source := s.first v - s.base
    if (oldSize = 0 ∨ source + oldSize ≤ s.size) ∧ s.size + newSize ≤ s.capacity then
      let mem1 := fun i => if s.size ≤ i ∧ i < s.size + oldSize then s.mem (source + (i - s.size)) else s.mem i
      let mem2 := fun i => if oldSize ≠ 0 ∧ source ≤ i ∧ i < source + oldSize then invalidElement else mem1 i
      let mem3 := fun i => if s.size + oldSize ≤ i ∧ i < s.size + newSize then invalidElement else mem2 i
      .ok { s with
        mem := mem3
        usable := s.usable + oldSize + (newSize - oldSize)
        first := put s.first v (s.base + s.size)
        last := put s.last v (s.base + s.size + oldSize)
        size := s.size + newSize }
    else .undefined

/-- Store at the end of a vector and `kissat_dec_usable` (inlinevector.h:141-142, 163-164,
171-172; 120-123), then the final increment of `end` (inlinevector.h:176). -/
def Vectors.storeUsable (s : Vectors) (v e : Nat) : VOut Vectors :=
  let i := s.last v - s.base
  if i < s.size ∧ s.usable ≠ 0 then
    .ok { s with mem := put s.mem i e, usable := s.usable - 1, last := put s.last v (s.last v + 1) }
  else .undefined

/-- `PUSH_STACK (*stack, 0)` for an empty stack (inlinevector.h:136-137).  No pointers are
fixed. -/
def Vectors.pushZero (s : Vectors) (b : Block) : VOut Vectors :=
  let s :=
    if s.size = s.capacity then
      { s with
        base := b.address
        capacity := if s.capacity ≠ 0 then 2 * s.capacity else 2
        mem := fun i => if i < s.capacity then s.mem i else b.fill i }
    else s
  if s.size < s.capacity then .ok { s with mem := put s.mem s.size 0, size := s.size + 1 } else .undefined

/-- `kissat_push_vectors` (inlinevector.h:125-181).  `b0` is the block allocated for the first
element of the stack, `b` the one allocated when enlarging the vector. -/
def Vectors.push (s : Vectors) (b0 b : Block) (v e : Nat) : VOut Vectors :=
  if s.first v = 0 then
    match (if s.size = 0 then s.pushZero b0 else .ok s) with
    | .fatal => .fatal
    | .undefined => .undefined
    | .ok s =>
      if s.size = s.capacity then
        match s.enlarge b v with
        | .fatal => .fatal
        | .undefined => .undefined
        | .ok s => s.storeUsable v e
      else if s.size < s.capacity then
        .ok { s with
          mem := put s.mem s.size e
          first := put s.first v (s.base + s.size)
          last := put s.last v (s.base + s.size + 1)
          size := s.size + 1 }
      else .undefined
  else if s.last v = s.base + s.size then
    if s.size = s.capacity then
      match s.enlarge b v with
      | .fatal => .fatal
      | .undefined => .undefined
      | .ok s => s.storeUsable v e
    else if s.size < s.capacity then
      .ok { s with mem := put s.mem s.size e, last := put s.last v (s.last v + 1), size := s.size + 1 }
    else .undefined
  else if s.last v - s.base < s.size then
    if s.mem (s.last v - s.base) ≠ invalidElement then
      match s.enlarge b v with
      | .fatal => .fatal
      | .undefined => .undefined
      | .ok s => s.storeUsable v e
    else s.storeUsable v e
  else .undefined

/-- `kissat_resize_vector` (vector.c:259-280), also `kissat_release_vector`. -/
def Vectors.resize (s : Vectors) (v k : Nat) : VOut Vectors :=
  let oldSize := s.last v - s.first v
  if k = oldSize then .ok s
  else
    let start := s.first v - s.base + k
    if k ≤ oldSize ∧ start + (oldSize - k) ≤ s.size then
      .ok { s with
        last := put s.last v (s.first v + k)
        usable := s.usable + (oldSize - k)
        mem := fun i => if start ≤ i ∧ i < start + (oldSize - k) then invalidElement else s.mem i }
    else .undefined

/-- First loop of `kissat_remove_from_vector` (vector.c:241-242): offset of the element, with
`n` elements left before the end. -/
def findOffset (mem : Nat → Nat) (e : Nat) : Nat → Nat → Option Nat
  | 0, _ => none
  | n + 1, p => if mem p ≠ e then findOffset mem e n (p + 1) else some p

/-- Second loop of `kissat_remove_from_vector` (vector.c:243-244), `n` elements left. -/
def shiftDown (mem : Nat → Nat) : Nat → Nat → Nat → Nat
  | 0, _ => mem
  | n + 1, p => shiftDown (put mem (p - 1) (mem p)) n (p + 1)

/-- `kissat_remove_from_vector` (vector.c:236-257). -/
def Vectors.remove (s : Vectors) (v e : Nat) : VOut Vectors :=
  let start := s.first v - s.base
  let count := s.last v - s.first v
  if start + count ≤ s.size then
    match findOffset s.mem e count start with
    | none => .undefined
    | some p =>
      .ok { s with
        mem := put (shiftDown s.mem (start + count - (p + 1)) (p + 1)) (start + count - 1) invalidElement
        last := put s.last v (s.last v - 1)
        usable := s.usable + 1 }
  else .undefined

/-- The loop of `kissat_defrag_vectors` moving the vectors (vector.c:186-209).  Gives the stack
contents, the pointers and the final value of `p`. -/
def defragLoop (base size : Nat) : List Nat → (Nat → Nat) → (Nat → Nat) → (Nat → Nat) → Nat →
    Option ((Nat → Nat) × (Nat → Nat) × (Nat → Nat) × Nat)
  | [], mem, first, last, p => some (mem, first, last, p)
  | j :: js, mem, first, last, p =>
    let n := last j - first j
    if n = 0 then defragLoop base size js mem (put first j 0) (put last j 0) p
    else
      let q := first j
      if p - base + n ≤ size ∧ q - base + n ≤ size then
        defragLoop base size js
          (fun i => if p - base ≤ i ∧ i < p - base + n then mem (q - base + (i - (p - base))) else mem i)
          (put first j p) (put last j (p + n)) (p + n)
      else none

/-- New capacity of `SHRINK_STACK` (stack.c:33-42) for elements of four bytes. -/
def shrunkenCapacity (size : Nat) : Nat :=
  alignBytes 3 ((if size ≠ 0 then 1 <<< log2Ceiling size else 0) * 4) / 4

/-- `SHRINK_STACK` (vector.c:223) followed by fixing the pointers (vector.c:224-230). -/
def Vectors.shrink (s : Vectors) (b : Block) : Vectors :=
  if s.size = s.capacity then s
  else if shrunkenCapacity s.size = s.capacity then s
  else s.moveTo b (shrunkenCapacity s.size)

/-- `kissat_defrag_vectors` (vector.c:159-234) for the `n` watch lists.  The rank is the address
in bytes.  The temporary memory of the radix sort is taken to be zero; by C31 its contents do
not matter. -/
def Vectors.defrag (s : Vectors) (b : Block) (n : Nat) : VOut Vectors :=
  if s.size < 2 then .ok s
  else
    let first := fun v => if v < n ∧ s.last v = s.first v then 0 else s.first v
    let last := fun v => if v < n ∧ s.last v = s.first v then 0 else s.last v
    let unsorted := (List.range n).filter fun v => s.last v ≠ s.first v
    match Radix.radixSort (fun v => 4 * first v) 8 (List.replicate unsorted.length 0) (fun _ => 0) unsorted with
    | none => .undefined
    | some sorted =>
      match defragLoop s.base s.size sorted s.mem first last (s.base + 1) with
      | none => .undefined
      | some (mem, first, last, p) =>
        let s := { s with mem := mem, first := first, last := last, size := p - s.base }
        .ok { s.shrink b with usable := 0 }

/-- The contents of a vector, as read from `begin` to `end`. -/
def Vectors.contents (s : Vectors) (v : Nat) : List Nat :=
  (List.range (s.last v - s.first v)).map fun i => s.mem (s.first v - s.base + i)

/-- One operation with the blocks it may allocate. -/
def Vectors.step (n : Nat) (o : Block × Block × ListsOp) (s : Vectors) : VOut Vectors :=
  match o.2.2 with
  | .push v e => s.push o.1 o.2.1 v e
  | .resize v k => s.resize v k
  | .remove v e => s.remove v e
  | .defrag => s.defrag o.2.1 n

/-- Several operations. -/
def Vectors.run (n : Nat) : List (Block × Block × ListsOp) → Vectors → VOut Vectors
  | [], s => .ok s
  | o :: os, s =>
    match s.step n o with
    | .ok s => s.run n os
    | .fatal => .fatal
    | .undefined => .undefined

end Verif.Model.Containers
