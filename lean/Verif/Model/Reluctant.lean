/-
Model of /repo/src/reluctant.c and /repo/src/reluctant.h.  All numbers are `uint64_t`, modelled as
`Nat` with arithmetic modulo `2^64`.
-/
namespace Verif.Model

/-- reluctant.h:9-16 `struct reluctant`. -/
structure Reluctant where
  limited : Bool
  trigger : Bool
  period : Nat
  wait : Nat
  u : Nat
  v : Nat
  limit : Nat
  deriving DecidableEq, Repr

namespace Reluctant

/-- reluctant.c:4-14 `kissat_enable_reluctant`. -/
def enable (period limit : Nat) : Reluctant :=
  let period := if limit ≠ 0 ∧ period > limit then limit else period
  { limited := limit > 0, trigger := false, period, wait := period, u := 1, v := 1, limit }

/-- reluctant.c:16-18 `kissat_disable_reluctant`. -/
def disable (r : Reluctant) : Reluctant := { r with period := 0 }

/-- reluctant.c:30-36: the next pair of Knuth's formulation of the Luby sequence. -/
def nextUV (u v : Nat) : Nat × Nat :=
  if u &&& ((2 ^ 64 - u) % 2 ^ 64) = v then ((u + 1) % 2 ^ 64, 1)   -- (u & -u) == v
  else (u, v * 2 % 2 ^ 64)

/-- reluctant.c:20-49 `kissat_tick_reluctant`. -/
def tick (r : Reluctant) : Reluctant :=
  if r.period = 0 then r
  else if r.trigger then r
  else
    let w := (r.wait + 2 ^ 64 - 1) % 2 ^ 64        -- --reluctant->wait
    if w ≠ 0 then { r with wait := w }
    else
      let (u, v) := nextUV r.u r.v
      let wait := v * r.period % 2 ^ 64
      if r.limited ∧ wait > r.limit then
        { r with trigger := true, wait := r.period, u := 1, v := 1 }
      else { r with trigger := true, wait, u, v }

/-- reluctant.h:22-27 `kissat_reluctant_triggered`. -/
def triggered (r : Reluctant) : Bool × Reluctant :=
  if !r.trigger then (false, r) else (true, { r with trigger := false })

end Reluctant
end Verif.Model
