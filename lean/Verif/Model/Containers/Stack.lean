import Verif.Spec.Sequence
import Verif.Model.Bits

/-!
# Dynamic arrays: `stack.h`, `stack.c`, `fifo.h`

Memory between `begin` (for queues `start`) and `allocated` is a list; `end` (and `begin` of a
queue) are positions in it.  Pointers are always recomputed from `begin` after `realloc`, thus
the address of the block plays no role.  New memory holds arbitrary values, given by `fill`.
Memory accesses outside of the block are the result `none`.  Simplification: capacities are not
bounded by the address space.
-/

namespace Verif.Model.Containers

open Verif.Spec Verif.Model.Bits

variable {α : Type} [DecidableEq α]

/-- `STACK (TYPE)` (stack.h:6-11). -/
structure Stack (α : Type) where
  /-- memory from `begin` to `allocated` -/
  mem : List α
  /-- `end - begin` -/
  size : Nat

/-- `INIT_STACK` (stack.h:18-21). -/
def Stack.init : Stack α := ⟨[], 0⟩

/-- `realloc` to a new number of elements. -/
def realloc (fill : Nat → α) (mem : List α) (n : Nat) : List α :=
  mem.take n ++ (List.range' mem.length (n - mem.length)).map fill

/-- `while (!kissat_aligned_word (bytes)) bytes <<= 1` (stack.c:16-17, 41-42), words have eight
bytes.  Three iterations are enough. -/
def alignBytes : Nat → Nat → Nat
  | 0, b => b
  | n + 1, b => if b % 8 = 0 then b else alignBytes n (2 * b)

/-- `kissat_stack_enlarge` (stack.c:7-22); `bytes` is the size of an element. -/
def Stack.enlarge (fill : Nat → α) (bytes : Nat) (s : Stack α) : Stack α :=
  let old := s.mem.length * bytes
  let new := if old ≠ 0 then 2 * old else alignBytes 3 bytes
  { s with mem := realloc fill s.mem (new / bytes) }

/-- `kissat_shrink_stack` (stack.c:24-51). -/
def Stack.shrinkMem (fill : Nat → α) (bytes : Nat) (s : Stack α) : Stack α :=
  let capacity := if s.size ≠ 0 then 1 <<< log2Ceiling s.size else 0
  let new := alignBytes 3 (capacity * bytes)
  if new = s.mem.length * bytes then s else { s with mem := realloc fill s.mem (new / bytes) }

/-- `SHRINK_STACK` (stack.h:41-45). -/
def Stack.shrink (fill : Nat → α) (bytes : Nat) (s : Stack α) : Stack α :=
  if s.size = s.mem.length then s else s.shrinkMem fill bytes

/-- `PUSH_STACK` (stack.h:47-52). -/
def Stack.push (fill : Nat → α) (bytes : Nat) (s : Stack α) (e : α) : Option (Stack α) :=
  let s := if s.size = s.mem.length then s.enlarge fill bytes else s
  if s.size < s.mem.length then some ⟨s.mem.set s.size e, s.size + 1⟩ else none

/-- `POP_STACK` (stack.h:33). -/
def Stack.pop (s : Stack α) : Option (Stack α × α) :=
  if s.size = 0 then none else s.mem[s.size - 1]?.map fun e => (⟨s.mem, s.size - 1⟩, e)

/-- `TOP_STACK` (stack.h:23). -/
def Stack.top (s : Stack α) : Option α := if s.size = 0 then none else s.mem[s.size - 1]?

/-- `PEEK_STACK` (stack.h:25-26).  The assertion is checked. -/
def Stack.peek (s : Stack α) (i : Nat) : Option α := if i < s.size then s.mem[i]? else none

/-- `POKE_STACK` (stack.h:28-31).  The assertion is checked. -/
def Stack.poke (s : Stack α) (i : Nat) (e : α) : Option (Stack α) :=
  if i < s.size then some ⟨s.mem.set i e, s.size⟩ else none

/-- `CLEAR_STACK` (stack.h:58-61). -/
def Stack.clear (s : Stack α) : Stack α := ⟨s.mem, 0⟩

/-- `RESIZE_STACK` (stack.h:63-68) and `SET_END_OF_STACK` (stack.h:70-77).  The assertion is
checked. -/
def Stack.resize (s : Stack α) (n : Nat) : Option (Stack α) := if n ≤ s.size then some ⟨s.mem, n⟩ else none

/-- First loop of `REMOVE_STACK` (stack.h:90-93): position of the element, from `p` on, with
`n` positions left before the end. -/
def Stack.findElement (mem : List α) (e : α) : Nat → Nat → Option Nat
  | 0, _ => none
  | n + 1, p =>
    match mem[p]? with
    | none => none
    | some x => if x ≠ e then findElement mem e n (p + 1) else some p

/-- Second loop of `REMOVE_STACK` (stack.h:95-98), with `n` positions left before the end. -/
def Stack.moveDown (mem : List α) : Nat → Nat → Option (List α)
  | 0, _ => some mem
  | n + 1, p =>
    match mem[p]? with
    | none => none
    | some x => moveDown (mem.set (p - 1) x) n (p + 1)

/-- `REMOVE_STACK` (stack.h:85-100). -/
def Stack.remove (s : Stack α) (e : α) : Option (Stack α) :=
  match Stack.findElement s.mem e s.size 0 with
  | none => none
  | some p => (Stack.moveDown s.mem (s.size - (p + 1)) (p + 1)).map fun mem => ⟨mem, s.size - 1⟩

/-- The loop of `REVERSE_STACK` (stack.h:107-111), at most `n` iterations. -/
def Stack.reverseLoop : Nat → List α → Nat → Nat → Option (List α)
  | 0, mem, head, tail => if head < tail then none else some mem
  | n + 1, mem, head, tail =>
    if head < tail then
      match mem[head]?, mem[tail]? with
      | some x, some y => reverseLoop n ((mem.set head y).set tail x) (head + 1) (tail - 1)
      | _, _ => none
    else some mem

/-- `REVERSE_STACK` (stack.h:102-112). -/
def Stack.reverse (s : Stack α) : Option (Stack α) :=
  if s.size < 2 then some s
  else (Stack.reverseLoop s.size s.mem 0 (s.size - 1)).map fun mem => ⟨mem, s.size⟩

/-- The elements of a stack, as visited by `all_stack` (stack.h:114-117). -/
def Stack.elements (s : Stack α) : List α := s.mem.take s.size

/-- One operation on a stack of elements of the given size.  `fill` are the contents of memory
allocated by this operation. -/
def Stack.step (bytes : Nat) (o : (Nat → α) × StackOp α) (s : Stack α) : Option (Stack α × Option α) :=
  match o.2 with
  | .push e => (s.push o.1 bytes e).map fun s => (s, none)
  | .pop => s.pop.map fun (s, e) => (s, some e)
  | .top => s.top.map fun e => (s, some e)
  | .peek i => (s.peek i).map fun e => (s, some e)
  | .poke i e => (s.poke i e).map fun s => (s, none)
  | .clear => some (s.clear, none)
  | .resize n => (s.resize n).map fun s => (s, none)
  | .remove e => (s.remove e).map fun s => (s, none)
  | .reverse => s.reverse.map fun s => (s, none)
  | .shrink => some (s.shrink o.1 bytes, none)

/-- `FIFO (TYPE)` (fifo.h:8-15). -/
structure Fifo (α : Type) where
  /-- memory from `start` to `allocated` -/
  mem : List α
  /-- `begin - start` -/
  first : Nat
  /-- `end - start` -/
  last : Nat
  /-- `limit - start` -/
  limit : Nat

/-- `INIT_FIFO` (fifo.h:23). -/
def Fifo.init : Fifo α := ⟨[], 0, 0, 0⟩

/-- `ENLARGE_FIFO` (fifo.h:32-47). -/
def Fifo.enlarge (fill : Nat → α) (f : Fifo α) : Fifo α :=
  let new := if f.mem.length ≠ 0 then 2 * f.mem.length else 2
  { f with mem := realloc fill f.mem new, limit := new / 2 }

/-- `memmove` of `n` elements from position `src` to position `dst`. -/
def memmove (mem : List α) (dst src n : Nat) : Option (List α) :=
  if src + n ≤ mem.length ∧ dst + n ≤ mem.length then
    some (mem.take dst ++ (mem.drop src).take n ++ mem.drop (dst + n))
  else none

/-- `MOVE_FIFO` (fifo.h:49-56). -/
def Fifo.move (f : Fifo α) : Option (Fifo α) :=
  (memmove f.mem 0 f.first (f.last - f.first)).map fun mem => ⟨mem, 0, f.last - f.first, f.limit⟩

/-- `ENQUEUE_FIFO` (fifo.h:58-63). -/
def Fifo.enqueue (fill : Nat → α) (f : Fifo α) (e : α) : Option (Fifo α) :=
  let f := if f.last = f.mem.length then f.enlarge fill else f
  if f.last < f.mem.length then some { f with mem := f.mem.set f.last e, last := f.last + 1 } else none

/-- `DEQUEUE_FIFO` (fifo.h:65-71).  The assertion is checked. -/
def Fifo.dequeue (f : Fifo α) : Option (Fifo α × α) :=
  if f.first = f.last then none
  else
    match f.mem[f.first]? with
    | none => none
    | some e =>
      let f := { f with first := f.first + 1 }
      if f.first = f.limit then f.move.map fun f => (f, e) else some (f, e)

/-- `POP_FIFO` (fifo.h:73).  The assertion is checked. -/
def Fifo.pop (f : Fifo α) : Option (Fifo α × α) :=
  if f.first = f.last then none else f.mem[f.last - 1]?.map fun e => ({ f with last := f.last - 1 }, e)

/-- `CLEAR_FIFO` (fifo.h:83-86). -/
def Fifo.clear (f : Fifo α) : Fifo α := { f with first := 0, last := 0 }

/-- The elements of a queue, as visited by `all_fifo` (fifo.h:95). -/
def Fifo.elements (f : Fifo α) : List α := (f.mem.drop f.first).take (f.last - f.first)

/-- One operation on a queue. -/
def Fifo.step (o : (Nat → α) × FifoOp α) (f : Fifo α) : Option (Fifo α × Option α) :=
  match o.2 with
  | .enqueue e => (f.enqueue o.1 e).map fun f => (f, none)
  | .dequeue => f.dequeue.map fun (f, e) => (f, some e)
  | .pop => f.pop.map fun (f, e) => (f, some e)
  | .clear => some (f.clear, none)

end Verif.Model.Containers
