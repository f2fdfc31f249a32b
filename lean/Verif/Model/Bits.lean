/-
Model of /repo/src/random.h and of the bit functions in /repo/src/utilities.h.  `uint64_t` and
`word` are 64 bits, `unsigned` is 32 bits; all are modelled as `Nat` with explicit wrap-around.
-/
namespace Verif.Model.Bits

/-- random.h:10-14 `kissat_next_random64`: the new generator state (which is also the result). -/
def nextRandom64 (rng : Nat) : Nat :=
  (rng * 6364136223846793005 % 2 ^ 64 + 1442695040888963407) % 2 ^ 64

/-- random.h:16-18 `kissat_next_random32`: result and new state. -/
def nextRandom32 (rng : Nat) : Nat × Nat :=
  let s := nextRandom64 rng
  (s >>> 32, s)

/-- Rounding of a non-negative integer to an IEEE 754 double (53 bits, nearest, ties to even).
Not a function of the code base: it is what the C expression `delta * fraction` does. -/
def roundDouble (x : Nat) : Nat :=
  if x < 2 ^ 53 then x
  else
    let e := x.log2 - 52
    let q := x / 2 ^ e
    let r := x % 2 ^ e
    if 2 * r > 2 ^ e ∨ (2 * r = 2 ^ e ∧ q % 2 = 1) then (q + 1) * 2 ^ e else q * 2 ^ e

/-- random.h:20-34 `kissat_pick_random`: result and new state.  `fraction = tmp / 2^32` is exact;
`delta * fraction` is `delta * tmp` rounded to 53 bits and scaled by `2^-32` (scaling by a power of two is
exact), the conversion to `unsigned` truncates. -/
def pickRandom (rng l r : Nat) : Nat × Nat :=
  if l = r then (l, rng)
  else
    let delta := (r + 2 ^ 32 - l) % 2 ^ 32
    let (tmp, s) := nextRandom32 rng
    let scaled := roundDouble (delta * tmp) / 2 ^ 32
    ((l + scaled) % 2 ^ 32, s)

/-- random.h:36-38 `kissat_pick_bool`. -/
def pickBool (rng : Nat) : Bool × Nat :=
  let (x, s) := pickRandom rng 0 2
  (x ≠ 0, s)

/-- utilities.h:21-34 `kissat_cache_lines` (for elements of size 4). -/
def cacheLines (n : Nat) : Nat :=
  if n = 0 then 0
  else
    let shift := 7 - 2
    let mask := (1 <<< shift) - 1
    ((n + mask) % 2 ^ 64) >>> shift

/-- utilities.h:44-46 `kissat_aligned_word`. -/
def alignedWord (w : Nat) : Bool := w &&& 7 = 0

/-- utilities.h:52-57 `kissat_align_word`. -/
def alignWord (w : Nat) : Nat := if w &&& 7 ≠ 0 then (1 + (w ||| 7)) % 2 ^ 64 else w

/-- utilities.h:59-64 `kissat_align_w2rd`. -/
def alignW2rd (w : Nat) : Nat := if w &&& 15 ≠ 0 then (1 + (w ||| 15)) % 2 ^ 64 else w

/-- utilities.h:68-70 `kissat_is_power_of_two`. -/
def isPowerOfTwo (w : Nat) : Bool := w ≠ 0 && (w &&& ((w + 2 ^ 64 - 1) % 2 ^ 64)) = 0

/-- utilities.h:72-74 `kissat_is_zero_or_power_of_two`. -/
def isZeroOrPowerOfTwo (w : Nat) : Bool := (w &&& ((w + 2 ^ 64 - 1) % 2 ^ 64)) = 0

/-- Compiler builtin `__builtin_clz...` on a `bits` wide number: counts leading zeroes from the top
bit downwards. -/
def clz (x : Nat) : Nat → Nat
  | 0 => 0
  | bits + 1 => if x.testBit bits then 0 else 1 + clz x bits

/-- utilities.h:76-78 `kissat_leading_zeroes_of_unsigned`. -/
def leadingZeroesOfUnsigned (x : Nat) : Nat := if x ≠ 0 then clz x 32 else 32

/-- utilities.h:80-88, 101-109 `kissat_leading_zeroes_of_word`, `..._of_uint64`. -/
def leadingZeroes64 (x : Nat) : Nat := if x = 0 then 64 else clz x 64

/-- utilities.h:90-92, 111-114 `kissat_log2_floor_of_word`, `..._of_uint64`. -/
def log2Floor (x : Nat) : Nat := if x ≠ 0 then 64 - 1 - leadingZeroes64 x else 0

/-- utilities.h:94-99, 116-121 `kissat_log2_ceiling_of_word`, `..._of_uint64`. -/
def log2Ceiling (x : Nat) : Nat :=
  if x = 0 then 0
  else
    let tmp := log2Floor x
    tmp + (if x ^^^ (1 <<< tmp) ≠ 0 then 1 else 0)

end Verif.Model.Bits
