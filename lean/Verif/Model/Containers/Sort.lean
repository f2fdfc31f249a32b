/-!
# Comparison sort: `sort.h`

Arrays are lists; an access outside of the array (or an index decremented below zero) is the
result `none`.  Loops without a structurally decreasing variable get a number of allowed
iterations and give `none` when they exceed it, thus `some` includes termination.
-/

namespace Verif.Model.Sort

variable {α : Type}

/-- `SWAP` (utilities.h) of two array elements. -/
def swap (a : List α) (i j : Nat) : Option (List α) :=
  match a[i]?, a[j]? with
  | some x, some y => some ((a.set i y).set j x)
  | _, _ => none

/-- `GREATER_SWAP` (sort.h:6-10) of two array elements. -/
def greaterSwap (less : α → α → Bool) (a : List α) (i j : Nat) : Option (List α) :=
  match a[i]?, a[j]? with
  | some x, some y => if less y x then swap a i j else some a
  | _, _ => none

/-- `while (LESS (A[++I], PIVOT))` (sort.h:24-25). -/
def up (less : α → α → Bool) (pivot : α) (a : List α) : Nat → Nat → Option Nat
  | 0, _ => none
  | fuel + 1, i =>
    match a[i + 1]? with
    | none => none
    | some x => if less x pivot then up less pivot a fuel (i + 1) else some (i + 1)

/-- `while (LESS (PIVOT, A[--J])) if (J == L) break` (sort.h:26-28). -/
def down (less : α → α → Bool) (pivot : α) (a : List α) (l : Nat) : Nat → Option Nat
  | 0 => none
  | j + 1 =>
    match a[j]? with
    | none => none
    | some x => if less pivot x then if j = l then some j else down less pivot a l j else some j

/-- The loop of `PARTITION` (sort.h:23-34). -/
def partitionLoop (less : α → α → Bool) (pivot : α) (l : Nat) : Nat → List α → Nat → Nat → Option (List α × Nat)
  | 0, _, _, _ => none
  | fuel + 1, a, i, j =>
    match up less pivot a a.length i with
    | none => none
    | some i =>
      match down less pivot a l j with
      | none => none
      | some j =>
        if j ≤ i then some (a, i)
        else
          match swap a i j with
          | none => none
          | some a => partitionLoop less pivot l fuel a i j

/-- `PARTITION` (sort.h:14-37): the new array and `I_QUICK_SORT`. -/
def partition (less : α → α → Bool) (a : List α) (l r : Nat) : Option (List α × Nat) :=
  match a[r]? with
  | none => none
  | some pivot =>
    match partitionLoop less pivot l a.length a (l - 1) r with
    | none => none
    | some (a, i) =>
      match swap a i r with
      | none => none
      | some a => some (a, i)

/-- Choice of the pivot in `QUICK_SORT` (sort.h:53-59). -/
def median (less : α → α → Bool) (a : List α) (l r : Nat) : Option (List α) :=
  match swap a (l + (r - l) / 2) (r - 1) with
  | none => none
  | some a =>
    match greaterSwap less a l (r - 1) with
    | none => none
    | some a =>
      match greaterSwap less a l r with
      | none => none
      | some a => greaterSwap less a (r - 1) r

/-- The loop of `QUICK_SORT` (sort.h:52-91).  The top of the stack `SORTER` is the head of the
list. -/
def quickLoop (less : α → α → Bool) : Nat → List α → Nat → Nat → List Nat → Option (List α)
  | 0, _, _, _, _ => none
  | fuel + 1, a, l, r, sorter =>
    match median less a l r with
    | none => none
    | some a =>
      match partition less a (l + 1) (r - 1) with
      | none => none
      | some (a, i) =>
        let (l, r, ll, rr) := if i - l < r - i then (l, i - 1, i + 1, r) else (i + 1, r, l, i - 1)
        if r - l > 10 then quickLoop less fuel a l r (rr :: ll :: sorter)
        else if rr - ll > 10 then quickLoop less fuel a ll rr sorter
        else
          match sorter with
          | r :: l :: sorter => quickLoop less fuel a l r sorter
          | _ => some a

/-- `QUICK_SORT` (sort.h:39-92). -/
def quickSort (less : α → α → Bool) (a : List α) : Option (List α) :=
  if a.length - 1 - 0 ≤ 10 then some a else quickLoop less a.length a 0 (a.length - 1) []

/-- The first loop of `INSERTION_SORT` (sort.h:99-102). -/
def bubble (less : α → α → Bool) : Nat → List α → Option (List α)
  | 0, a => some a
  | i + 1, a =>
    match greaterSwap less a i (i + 1) with
    | none => none
    | some a => bubble less i a

/-- The loop moving larger elements to the right and the final store (sort.h:110-115). -/
def shift (less : α → α → Bool) (pivot : α) : Nat → List α → Option (List α)
  | 0, _ => none
  | j + 1, a =>
    match a[j]? with
    | none => none
    | some y => if less pivot y then shift less pivot j (a.set (j + 1) y) else some (a.set (j + 1) pivot)

/-- The second loop of `INSERTION_SORT` (sort.h:104-116) over the given indices. -/
def insertAll (less : α → α → Bool) : List Nat → List α → Option (List α)
  | [], a => some a
  | i :: is, a =>
    match a[i]? with
    | none => none
    | some pivot =>
      match shift less pivot i a with
      | none => none
      | some a => insertAll less is a

/-- `INSERTION_SORT` (sort.h:94-117). -/
def insertionSort (less : α → α → Bool) (a : List α) : Option (List α) :=
  match bubble less (a.length - 1) a with
  | none => none
  | some a => insertAll less (List.range' 2 (a.length - 1 + 1 - 2)) a

/-- `SORT` (sort.h:132-143). -/
def sort (less : α → α → Bool) (a : List α) : Option (List α) :=
  if a.length = 0 then some a
  else
    match quickSort less a with
    | none => none
    | some a => insertionSort less a

/-- `SORT_STACK` (sort.h:145-152). -/
def sortStack (less : α → α → Bool) (a : List α) : Option (List α) :=
  if a.length ≤ 1 then some a else sort less a

end Verif.Model.Sort
