/-!
# Radix sort: `rank.h`

`RADIX_SORT` (rank.h:22-131).  Ranks are natural numbers below `2 ^ (8 * bytes)`, where
`bytes` is `sizeof (RTYPE)`.  An access outside of the two arrays is the result `none`.  The
counter array is indexed by eight bit numbers only, thus never accessed outside.  Its initial
contents and those of the temporary array are arbitrary.
-/

namespace Verif.Model.Radix

variable {α : Type}

/-- The local variables of `RADIX_SORT` (rank.h:36-51). -/
structure Radix (α : Type) where
  /-- `A_RADIX`, the array to be sorted. -/
  a : List α
  /-- `B_RADIX`, the temporary array. -/
  b : List α
  /-- `C_RADIX == B_RADIX`. -/
  inB : Bool
  lower : Nat
  upper : Nat
  bounded : Bool
  mlower : Nat
  mupper : Nat
  count : Nat → Nat

/-- `C_RADIX`. -/
def Radix.cur (r : Radix α) : List α := if r.inB then r.b else r.a

/-- `M_RADIX` (rank.h:73-74, 114-115): the byte of the rank at bit position `i`. -/
def digit (rank : α → Nat) (i : Nat) (x : α) : Nat := (rank x >>> i) &&& 255

/-- The variables changed by the counting loop. -/
structure Scan where
  lower : Nat
  upper : Nat
  sorted : Bool
  last : Nat
  count : Nat → Nat

/-- `memset` of the counters (rank.h:59-60). -/
def clear (count : Nat → Nat) (lo hi : Nat) : Nat → Nat :=
  fun j => if lo ≤ j ∧ j ≤ hi then 0 else count j

/-- The body of the counting loop (rank.h:67-80). -/
def Scan.step (rank : α → Nat) (i : Nat) (bounded : Bool) (t : Scan) (x : α) : Scan :=
  let r := rank x
  let t := if bounded then t else { t with lower := t.lower &&& r, upper := t.upper ||| r }
  let m := digit rank i x
  let t := if t.sorted && decide (t.last > m) then { t with sorted := false } else { t with last := m }
  { t with count := fun j => if j = m then t.count j + 1 else t.count j }

/-- The counting loop (rank.h:67-80). -/
def Scan.run (rank : α → Nat) (i : Nat) (bounded : Bool) (t : Scan) (l : List α) : Scan :=
  l.foldl (Scan.step rank i bounded) t

/-- The body of the loop over the counters (rank.h:95-100): position and counters. -/
def sumStep (s : Nat × (Nat → Nat)) (j : Nat) : Nat × (Nat → Nat) :=
  (s.1 + s.2 j, fun k => if k = j then s.1 else s.2 k)

/-- Counters become positions (rank.h:94-100). -/
def sums (count : Nat → Nat) (lo hi : Nat) : Nat → Nat :=
  ((List.range' lo (hi + 1 - lo)).foldl sumStep (0, count)).2

/-- The placing loop (rank.h:112-118). -/
def place (rank : α → Nat) (i : Nat) : List α → (Nat → Nat) → List α → Option ((Nat → Nat) × List α)
  | [], count, d => some (count, d)
  | x :: xs, count, d =>
    let m := digit rank i x
    let pos := count m
    if pos < d.length then
      place rank i xs (fun j => if j = m then pos + 1 else count j) (d.set pos x)
    else none

/-- The body of the loop over the bytes (rank.h:53-121) at bit position `i`. -/
def Radix.pass (rank : α → Nat) (r : Radix α) (i : Nat) : Option (Radix α) :=
  let shift := 255 <<< i
  if r.bounded && (r.lower &&& shift == r.upper &&& shift) then some r
  else
    let t := Scan.run rank i r.bounded ⟨r.lower, r.upper, true, 0, clear r.count r.mlower r.mupper⟩ r.cur
    let ml := (t.lower >>> i) &&& 255
    let mu := (t.upper >>> i) &&& 255
    let r' : Radix α :=
      { r with lower := t.lower, upper := t.upper, bounded := true, mlower := ml, mupper := mu, count := t.count }
    if !r.bounded && (t.lower &&& shift == t.upper &&& shift) then some r'
    else if t.sorted then some r'
    else
      match place rank i r.cur (sums t.count ml mu) (if r.inB then r.a else r.b) with
      | none => none
      | some (count, d) =>
        if r.inB then some { r' with count := count, a := d, inB := false }
        else some { r' with count := count, b := d, inB := true }

/-- The loop over the bytes (rank.h:53-121), at the bit positions `8 * i` for the given `i`. -/
def Radix.passes (rank : α → Nat) : List Nat → Radix α → Option (Radix α)
  | [], r => some r
  | i :: is, r =>
    match r.pass rank (8 * i) with
    | none => none
    | some r => r.passes rank is

/-- `RADIX_SORT` (rank.h:22-131).  `tmp` is the temporary array as allocated, `junk` the
uninitialised counter array.  The result is the array `V_RADIX` after the final `memcpy`. -/
def radixSort (rank : α → Nat) (bytes : Nat) (tmp : List α) (junk : Nat → Nat) (l : List α) : Option (List α) :=
  if l.length ≤ 1 then some l
  else
    match Radix.passes rank (List.range bytes)
        ⟨l, tmp, false, 2 ^ (8 * bytes) - 1, 0, false, 0, 255, junk⟩ with
    | none => none
    | some r => some r.cur

end Verif.Model.Radix
