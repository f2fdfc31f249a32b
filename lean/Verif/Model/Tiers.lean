import Verif.Model.Printf

/-!
# Glue limits of learned clauses and the table of their usage: `tiers.c`
-/

namespace Verif.Model.Tiers

open Verif.Model

/-- The loop adding all counters (tiers.c:10-12 and tiers.c:79-81). -/
def total : List Nat → Nat → Nat
  | [], acc => acc
  | u :: us, acc => total us ((acc + u) % 2 ^ 64)

/-- The loops over glues up to `MAX_GLUE_USED` (tiers.c:19-26 and tiers.c:28-35): the glue found and the sum.  The
list has the counters from `glue` on. -/
def scan (limit : Nat) : List Nat → Nat → Nat → Option Nat × Nat
  | [], _, acc => (none, acc)
  | u :: us, glue, acc =>
    let acc := (acc + u) % 2 ^ 64
    if acc ≥ limit then (some glue, acc) else scan limit us (glue + 1) acc

/-- `compute_tier_limits` (tiers.c:6-49).  The products with the floating point numbers `TIER1RELATIVE` and
`TIER2RELATIVE` are arbitrary functions `lim1` and `lim2`; `none` is -1. -/
def limits (opt1 opt2 : Nat) (lim1 lim2 : Nat → Nat) (used : List Nat) : Nat × Nat :=
  let t := total used 0
  let r : Option Nat × Option Nat :=
    if t ≠ 0 then
      let s := scan (lim1 t) used 0 0
      if s.2 < lim2 t then
        let start := match s.1 with
          | some tier1 => tier1 + 1
          | none => 0
        (s.1, (scan (lim2 t) (used.drop start) start s.2).1)
      else (s.1, none)
    else (none, none)
  match r with
  | (none, _) => (opt1, max opt2 opt1)
  | (some tier1, none) => (tier1, tier1)
  | (some tier1, some tier2) => (tier1, tier2)

/-- The arrays `tier1` and `tier2` of `struct kissat` (internal.h:184) with elements for focused and stable mode, and
the counters of `struct statistics` (statistics.h:323-325). -/
structure State where
  tier1 : Bool → Nat
  tier2 : Bool → Nat
  used : Bool → List Nat

/-- Initialization (search.c:27-44). -/
def State.init (opt1 opt2 : Nat) (s : State) : State :=
  { s with
    tier1 := fun stable => if s.tier1 stable = 0 then opt1 else s.tier1 stable
    tier2 := fun stable => if s.tier1 stable = 0 then (if opt2 ≤ opt1 then opt1 else opt2) else s.tier2 stable }

/-- `kissat_compute_and_set_tier_limits` (tiers.c:51-62). -/
def State.set (opt1 opt2 : Nat) (lim1 lim2 : Nat → Nat) (stable : Bool) (s : State) : State :=
  let l := limits opt1 opt2 lim1 lim2 (s.used stable)
  { s with
    tier1 := fun b => if b = stable then l.1 else s.tier1 b
    tier2 := fun b => if b = stable then l.2 else s.tier2 b }

/-- The last part of `mark_clause_as_used` (deduce.c:21-22) for a clause with the glue. -/
def State.count (stable : Bool) (glue : Nat) (s : State) : State :=
  { s with used := fun b => if b = stable then (s.used b).modify (min glue 127) fun u => (u + 1) % 2 ^ 64 else s.used b }

/-- The limits used by `reduce.c` (reduce.c:52-53) and `promote.c` (promote.c:11-12), with the macros `TIER1` and
`TIER2` (internal.h:254-255). -/
def State.effective (s : State) : Nat × Nat := (s.tier1 false, max (s.tier2 true) (s.tier1 false))

/-! ## The table of usage -/

/-- The loop of `decimal_digits` (tiers.c:66-71).  After 64 rounds the variable `limit` is zero for ever. -/
def digitsLoop (i : Nat) : Nat → Nat → Nat → Option Nat
  | 0, _, _ => none
  | fuel + 1, limit, res => if i < limit then some res else digitsLoop i fuel (limit * 10 % 2 ^ 64) (res + 1)

/-- `decimal_digits` (tiers.c:63-72). -/
def digits (i : Nat) : Option Nat := digitsLoop i 64 10 1

/-- The first loop of `kissat_print_tier_usage_statistics` (tiers.c:95-116): widths of two columns. -/
def widths (tier1 tier2 pre suf : Nat) : List Nat → Nat → Nat → Nat → Nat → Option (Nat × Nat)
  | [], _, _, gd, cd => some (gd, cd)
  | u :: us, glue, mid, gd, cd =>
    if glue < tier1 then widths tier1 tier2 pre suf us (glue + 1) mid gd cd
    else
      let r : Option (Nat × Nat × Nat) :=
        if glue ≤ pre ∨ suf ≤ glue then
          (digits glue).bind fun g => (digits u).map fun c => (g, c, mid)
        else
          let mid := (mid + u) % 2 ^ 64
          if glue + 1 = suf then
            (digits (pre + 1)).bind fun g => (digits glue).bind fun g' => (digits mid).map fun c => (g + g' + 1, c, mid)
          else some (0, 0, mid)
      r.bind fun (g, c, mid) =>
        let gd := if g > gd then g else gd
        let cd := if c > cd then c else cd
        if glue = tier2 then some (gd, cd) else widths tier1 tier2 pre suf us (glue + 1) mid gd cd

/-- What is printed.  The percentages are functions of the numbers in a line. -/
inductive Tok where
  /-- `c`, the mode and `glue` -/
  | head
  /-- the rest of a line: text, number, its width, accumulated number, and the marks `tier1` and `tier2` -/
  | line (label : List Nat) (used width accumulated : Nat) (tier1 tier2 : Bool)
  deriving DecidableEq

/-- Spaces after the first column (tiers.c:133-134 and tiers.c:149-150). -/
def pad (gd : Nat) (label : List Nat) : List Nat := label ++ List.replicate (gd - label.length) 32

/-- The second loop of `kissat_print_tier_usage_statistics` (tiers.c:121-160). -/
def lines (tier1 tier2 pre suf gd cd : Nat) : List Nat → Nat → Nat → Nat → List Tok
  | [], _, _, _ => []
  | u :: us, glue, mid, acc =>
    let acc := (acc + u) % 2 ^ 64
    if glue < tier1 then lines tier1 tier2 pre suf gd cd us (glue + 1) mid acc
    else
      let head := if glue ≤ pre ∨ suf ≤ glue + 1 then [Tok.head] else []
      let r : List Tok × Nat :=
        if glue ≤ pre ∨ suf ≤ glue then
          ([.line (pad gd (printNat glue)) u cd acc (glue == tier1) (glue == tier2)], mid)
        else
          let mid := (mid + u) % 2 ^ 64
          if glue + 1 = suf then
            ([.line (pad gd (printNat (pre + 1) ++ 45 :: printNat (suf - 1))) mid cd acc false false], mid)
          else ([], mid)
      head ++ r.1 ++
        if glue = tier2 then [] else lines tier1 tier2 pre suf gd cd us (glue + 1) r.2 acc

/-- `kissat_print_tier_usage_statistics` (tiers.c:74-161) for limits and counters. -/
def table (tier1 tier2 : Nat) (used : List Nat) : Option (List Tok) :=
  let span := tier2 - tier1 + 1
  let (pre, suf) := if span > 5 then (tier1 + 5 / 2 - 1, tier2 - 5 / 2 + 1) else (2 ^ 32 - 1, 0)
  (widths tier1 tier2 pre suf used 0 0 1 1).map fun (gd, cd) => lines tier1 tier2 pre suf gd cd used 0 0 0

end Verif.Model.Tiers
