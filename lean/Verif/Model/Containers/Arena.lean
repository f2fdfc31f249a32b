import Verif.Spec.ClauseStore
import Verif.Model.Containers.Stack

/-!
# The clause arena

`arena.c`, `clause.h`, the writing of clauses in `clause.c` and the functions which traverse,
shrink, move and collect clauses in the arena.

Memory is a function from addresses in words of four bytes to cells.  A cell contains the first
word of a clause (its flags, clause.h:19-30) or a number, so that using literals as flags or
vice versa is undefined here.  Of the flags `garbage`, `redundant` and `shrunken` are modelled,
the remaining flags, the glue and the usage counter are the number `rest`.  `W` is the number of
words of a ward (arena.h:8-12): 4, or 2 with `COMPACT`.  References count wards.  Accesses
outside of the used part of the arena give `none`.
-/

namespace Verif.Model.Containers.Arena

open Verif.Spec Verif.Model.Bits

/-- The first word of a clause (clause.h:19-30). -/
structure Header where
  garbage : Bool
  redundant : Bool
  shrunken : Bool
  rest : Nat

/-- A word in memory. -/
inductive Cell
  | flags (h : Header)
  | num (n : Nat)

/-- `INVALID_LIT` (literal.h:17). -/
def invalidLit : Nat := 2 ^ 32 - 1

/-- `MAX_ARENA` (arena.h:14-18) on a machine with 64 bits. -/
def maxArena : Nat := 2 ^ 31

/-- The arena (arena.h:22): memory, `end - begin` and `allocated - begin` in wards. -/
structure Arena where
  mem : Nat → Cell
  size : Nat
  capacity : Nat

/-- `INIT_STACK (solver->arena)` (internal.c). -/
def Arena.init (mem : Nat → Cell) : Arena := ⟨mem, 0, 0⟩

/-- A result or giving up with a fatal error. -/
inductive AOut (α : Type)
  | ok (x : α)
  | fatal
  | undefined

/-- `AOut` of an optional result. -/
def AOut.ofOption {α : Type} : Option α → AOut α
  | some x => .ok x
  | none => .undefined

variable (W : Nat)

/-- `kissat_align_ward` (arena.h:40-46) of a number of words, in wards. -/
def wards (words : Nat) : Nat := (words + (W - 1)) / W

/-- `kissat_bytes_of_clause` (clause.h:50-53) in wards: `sizeof (clause)` is six words, three of
them literals. -/
def wardsOfClause (size : Nat) : Nat := wards W (6 + (size - 3))

/-- Read a word. -/
def Arena.read (a : Arena) (p : Nat) : Option Cell := if p < W * a.size then some (a.mem p) else none

/-- Read a number. -/
def Arena.num (a : Arena) (p : Nat) : Option Nat :=
  match a.read W p with
  | some (.num n) => some n
  | _ => none

/-- Read flags. -/
def Arena.flags (a : Arena) (p : Nat) : Option Header :=
  match a.read W p with
  | some (.flags h) => some h
  | _ => none

/-- Write a word. -/
def Arena.write (a : Arena) (p : Nat) (c : Cell) : Option Arena :=
  if p < W * a.size then some { a with mem := fun i => if i = p then c else a.mem i } else none

/-- Write several numbers (`memcpy` to literals). -/
def Arena.writeAll (a : Arena) : Nat → List Nat → Option Arena
  | _, [] => some a
  | p, x :: xs =>
    match a.write W p (.num x) with
    | none => none
    | some a => a.writeAll (p + 1) xs

/-- Read `n` numbers. -/
def Arena.readAll (a : Arena) : Nat → Nat → Option (List Nat)
  | _, 0 => some []
  | p, n + 1 =>
    match a.num W p with
    | none => none
    | some x => (a.readAll (p + 1) n).map (x :: ·)

/-- The loop enlarging the arena (arena.c:37-53), with `kissat_stack_enlarge` (stack.c:7-22): twice
the old capacity, initially one ward. -/
def growCapacity (size need : Nat) : Nat → Nat → AOut Nat
  | 0, _ => .undefined
  | fuel + 1, capacity =>
    if capacity = maxArena then .fatal
    else
      let capacity := if capacity ≠ 0 then 2 * capacity else 1
      if need > capacity - size then growCapacity size need fuel capacity else .ok capacity

/-- `kissat_allocate_clause` (arena.c:25-64).  The contents of the memory after the used part are
arbitrary. -/
def Arena.allocate (a : Arena) (fill : Nat → Cell) (size : Nat) : AOut (Arena × Nat) :=
  let needed := wardsOfClause W size
  let mem := fun i => if i < W * a.size then a.mem i else fill i
  if needed > a.capacity - a.size then
    match growCapacity a.size needed 64 a.capacity with
    | .ok capacity => .ok (⟨mem, a.size + needed, capacity⟩, a.size)
    | .fatal => .fatal
    | .undefined => .undefined
  else .ok (⟨mem, a.size + needed, a.capacity⟩, a.size)

/-- `init_clause` (clause.c:29-50) and the `memcpy` of `new_large_clause` (clause.c:83-88).
`rest` stands for the glue. -/
def Arena.initClause (a : Arena) (p : Nat) (redundant : Bool) (rest : Nat) (lits : List Nat) : Option Arena :=
  match a.write W p (.flags ⟨false, redundant, false, rest⟩) with
  | none => none
  | some a =>
    match a.write W (p + 1) (.num 2) with
    | none => none
    | some a =>
      match a.write W (p + 2) (.num lits.length) with
      | none => none
      | some a => a.writeAll W (p + 3) lits

/-- `new_large_clause` (clause.c:79-110) as far as it concerns the arena. -/
def Arena.newClause (a : Arena) (fill : Nat → Cell) (redundant : Bool) (rest : Nat) (lits : List Nat) :
    AOut (Arena × Nat) :=
  match a.allocate W fill lits.length with
  | .fatal => .fatal
  | .undefined => .undefined
  | .ok (a, r) =>
    match a.initClause W (W * r) redundant rest lits with
    | none => .undefined
    | some a => .ok (a, r)

/-- The clause at an address: its flags and literals (`all_literals_in_clause`,
clause.h:44-48). -/
def Arena.clauseAt (a : Arena) (p : Nat) : Option Entry :=
  match a.flags W p, a.num W (p + 2) with
  | some h, some n => (a.readAll W (p + 3) n).map fun lits => ⟨lits, h.redundant, h.garbage⟩
  | _, _ => none

/-- `kissat_dereference_clause` (inline.h) followed by reading the clause. -/
def Arena.dereference (a : Arena) (r : Nat) : Option Entry := a.clauseAt W (W * r)

/-- The loop `while (*p++ != INVALID_LIT)` of `kissat_actual_bytes_of_clause` (clause.h:57-59);
gives `p` after the loop. -/
def Arena.scan (a : Arena) : Nat → Nat → Option Nat
  | 0, _ => none
  | fuel + 1, p =>
    match a.num W p with
    | none => none
    | some x => if x ≠ invalidLit then a.scan fuel (p + 1) else some (p + 1)

/-- `kissat_actual_bytes_of_clause` (clause.h:55-61) in wards. -/
def Arena.actualWards (a : Arena) (p : Nat) : Option Nat :=
  match a.flags W p, a.num W (p + 2) with
  | some h, some n =>
    if h.shrunken then (a.scan W (W * a.size) (p + 3 + n)).map fun q => wards W (q - p)
    else some (wards W (3 + n))
  | _, _ => none

/-- `kissat_next_clause` (clause.h:63-66). -/
def Arena.next (a : Arena) (p : Nat) : Option Nat := (a.actualWards W p).map fun n => p + W * n

/-- `all_clauses` (internal.h): from the begin to the end of the arena.  Gives the references and
the clauses. -/
def Arena.traverseFrom (a : Arena) : Nat → Nat → Option (List (Nat × Entry))
  | 0, p => if p = W * a.size then some [] else none
  | fuel + 1, p =>
    if p = W * a.size then some []
    else
      match a.clauseAt W p, a.next W p with
      | some e, some q => (a.traverseFrom fuel q).map ((p / W, e) :: ·)
      | _, _ => none

/-- All clauses. -/
def Arena.traverse (a : Arena) : Option (List (Nat × Entry)) := a.traverseFrom W a.size 0

/-- Replacing literals in place by at most as many: forward.c:411-431, strengthen.c:26-47,
substitute.c:508-523, sweep.c:993-1012, vivify.c:98-121 and vivify.c:736-757.  Where literals
are removed one after the other (`lits[new_size++] = lit`) the loop is replaced by writing the
remaining literals. -/
def Arena.rewrite (a : Arena) (r : Nat) (lits : List Nat) : Option Arena :=
  let p := W * r
  match a.flags W p, a.num W (p + 2) with
  | some h, some old =>
    match a.writeAll W (p + 3) lits with
    | none => none
    | some a =>
      if lits.length < old then
        match (if h.shrunken then some a
            else match a.write W p (.flags { h with shrunken := true }) with
              | none => none
              | some a => a.write W (p + 3 + (old - 1)) (.num invalidLit)) with
        | none => none
        | some a =>
          match a.write W (p + 2) (.num lits.length) with
          | none => none
          | some a => a.write W (p + 1) (.num 2)
      else some a
  | _, _ => none

/-- `c->garbage = true` in `kissat_mark_clause_as_garbage` (clause.c:152-163). -/
def Arena.markGarbage (a : Arena) (r : Nat) : Option Arena :=
  match a.flags W (W * r) with
  | none => none
  | some h => a.write W (W * r) (.flags { h with garbage := true })

/-- The loop over the literals in `sparse_sweep_garbage_clauses` (collect.c:353-391): `n`
literals left to read at `src`, next literal written at `dst`.  Gives the kept literals and
whether a satisfied literal was found; after one was found nothing is written. -/
def Arena.sweepLits (a : Arena) (fate : Nat → Fate) : Nat → Nat → Nat → Option (Arena × List Nat × Bool)
  | 0, _, _ => some (a, [], false)
  | n + 1, src, dst =>
    match a.num W src with
    | none => none
    | some l =>
      match fate l with
      | .drop => a.sweepLits fate n (src + 1) dst
      | .satisfied => some (a, [], true)
      | .keep m =>
        match a.write W dst (.num m) with
        | none => none
        | some a => (a.sweepLits fate n (src + 1) (dst + 1)).map fun (a, ls, sat) => (a, m :: ls, sat)

/-- Result of the loop of `sparse_sweep_garbage_clauses`: final `dst`, the new binary clauses,
`first_redundant` and `last_irredundant`. -/
structure Swept where
  arena : Arena
  dst : Nat
  binaries : List (Nat × Nat)
  firstRedundant : Option Nat
  lastIrredundant : Option Nat

/-- The loop of `sparse_sweep_garbage_clauses` (collect.c:317-508).  `kissat_delete_clause` gives
the next clause and otherwise only counts.  `last_irredundant` is only set to clauses kept by
this loop: its values from before and those it gets if the old one is deleted (collect.c:325-330,
411-416, 460-465) are not larger than the first swept clause and are not used otherwise.

With `Fate.keep` the identity this is also the loop of `dense_sweep_garbage_clauses`
(collect.c:674-701), except that the latter keeps the search position. -/
def Arena.sweepLoop (a : Arena) (fate : Nat → Fate) (stop : Nat) : Nat → Nat → Nat → Option Nat → Option Nat →
    Option Swept
  | 0, src, dst, fr, li => if src = stop then some ⟨a, dst, [], fr, li⟩ else none
  | fuel + 1, src, dst, fr, li =>
    if src = stop then some ⟨a, dst, [], fr, li⟩
    else
      match a.flags W src, a.num W (src + 2), a.next W src with
      | some h, some n, some next =>
        if h.garbage then a.sweepLoop fate stop fuel next dst fr li
        else
          match a.write W dst (.flags h) with
          | none => none
          | some a =>
            match a.sweepLits W fate n (src + 3) (dst + 3) with
            | none => none
            | some (a, ls, sat) =>
              if sat then a.sweepLoop fate stop fuel next dst fr li
              else
                match ls with
                | [] => none
                | [_] => none
                | [x, y] =>
                  (a.sweepLoop fate stop fuel next dst fr li).map fun s => { s with binaries := (x, y) :: s.binaries }
                | _ =>
                  match a.write W (dst + 2) (.num ls.length) with
                  | none => none
                  | some a =>
                    match a.write W dst (.flags { h with shrunken := false }) with
                    | none => none
                    | some a =>
                      match a.write W (dst + 1) (.num 2) with
                      | none => none
                      | some a =>
                        match a.next W dst with
                        | none => none
                        | some d =>
                          if h.redundant then
                            a.sweepLoop fate stop fuel next d (match fr with | none => some dst | some f => some f) li
                          else a.sweepLoop fate stop fuel next d fr (some dst)
      | _, _, _ => none

/-- `kissat_shrink_arena` (arena.c:66-90) with `SHRINK_STACK` (stack.h:79-85, stack.c:24-50). -/
def Arena.shrink (a : Arena) : Arena :=
  if a.size > a.capacity / 4 then a
  else if a.size = a.capacity then a
  else { a with capacity := if a.size ≠ 0 then 1 <<< log2Ceiling a.size else 0 }

/-- `memcpy` and `memmove` of `n` words from the memory `from` at `src`. -/
def Arena.copy (a : Arena) (dst : Nat) (from_ : Nat → Cell) (src n : Nat) : Option Arena :=
  if dst + n ≤ W * a.size then
    some { a with mem := fun i => if dst ≤ i ∧ i < dst + n then from_ (src + (i - dst)) else a.mem i }
  else none

/-- First loop of `move_redundant_clauses_to_the_end` (collect.c:236-252): `p` is read, irredundant
clauses are moved to `q`, redundant ones to `r` in the temporary memory. -/
def Arena.moveOut (a : Arena) (stop : Nat) : Nat → Nat → Nat → (Nat → Cell) → Nat →
    Option (Arena × Nat × (Nat → Cell) × Nat)
  | 0, p, q, tmp, r => if p = stop then some (a, q, tmp, r) else none
  | fuel + 1, p, q, tmp, r =>
    if p = stop then some (a, q, tmp, r)
    else
      match a.flags W p, a.num W (p + 2) with
      | some h, some n =>
        let words := W * wardsOfClause W n
        if p + words ≤ W * a.size then
          if h.redundant then
            a.moveOut stop fuel (p + words) q
              (fun i => if r ≤ i ∧ i < r + words then a.mem (p + (i - r)) else tmp i) (r + words)
          else
            match a.copy W q a.mem p words with
            | none => none
            | some a => a.moveOut stop fuel (p + words) (q + words) tmp r
        else none
      | _, _ => none

/-- Second loop of `move_redundant_clauses_to_the_end` (collect.c:255-267).  `limit` is the size of
the temporary memory in words. -/
def Arena.moveBack (a : Arena) (stop limit : Nat) (tmp : Nat → Cell) : Nat → Nat → Nat → Option Arena
  | 0, q, _ => if q = stop then some a else none
  | fuel + 1, q, r =>
    if q = stop then some a
    else
      match tmp (r + 2) with
      | .flags _ => none
      | .num n =>
        let words := W * wardsOfClause W n
        if r + words ≤ limit then
          match a.copy W q tmp r words with
          | none => none
          | some a => a.moveBack stop limit tmp fuel (q + words) (r + words)
        else none

/-- `move_redundant_clauses_to_the_end` (collect.c:213-275) as far as it concerns the arena;
`tmp` are the initial contents of the temporary memory. -/
def Arena.move (a : Arena) (tmp : Nat → Cell) (start : Nat) : Option Arena :=
  match a.moveOut W (W * a.size) a.size (W * start) (W * start) tmp 0 with
  | none => none
  | some (a, q, tmp, _) => a.moveBack W (W * a.size) (W * a.size - W * start) tmp a.size q 0

/-- `sparse_sweep_garbage_clauses` (collect.c:277-575) followed by
`move_redundant_clauses_to_the_end` if there is a redundant clause before an irredundant one
(collect.c:549-563, 630-632) as far as they concern the arena.  Also gives the new binary
clauses. -/
def Arena.collect (a : Arena) (tmp : Nat → Cell) (fate : Nat → Fate) (start : Nat) :
    Option (Arena × List (Nat × Nat)) :=
  match a.sweepLoop W fate (W * a.size) a.size (W * start) (W * start) none none with
  | none => none
  | some s =>
    let a := { s.arena with size := s.dst / W }.shrink
    match s.firstRedundant, s.lastIrredundant with
    | some f, some l =>
      if f < l then (a.move W tmp (f / W)).map fun a => (a, s.binaries) else some (a, s.binaries)
    | _, _ => some (a, s.binaries)

/-- `dense_sweep_garbage_clauses` (collect.c:657-732) as far as it concerns the arena. -/
def Arena.denseCollect (a : Arena) : Option Arena :=
  (a.sweepLoop W .keep (W * a.size) a.size 0 0 none none).map fun s => { s.arena with size := s.dst / W }.shrink

/-- One operation.  `fill` are the contents of newly allocated memory. -/
def Arena.step (a : Arena) (fill : Nat → Cell) (rest : Nat) : StoreOp → AOut Arena
  | .add redundant lits =>
    match a.newClause W fill redundant rest lits with
    | .ok (a, _) => .ok a
    | .fatal => .fatal
    | .undefined => .undefined
  | .rewrite r lits => AOut.ofOption (a.rewrite W r lits)
  | .garbage r => AOut.ofOption (a.markGarbage W r)
  | .collect start fate => AOut.ofOption ((a.collect W fill fate start).map Prod.fst)
  | .denseCollect => AOut.ofOption (a.denseCollect W)

end Verif.Model.Containers.Arena
