import Verif.Model.Printf
import Verif.Model.Bits

/-!
# Texts for numbers in messages: `format.c`

Texts are lists of bytes without the terminating zero.
-/

namespace Verif.Model.Format

open Verif.Model

/-- `struct format` (format.h:14-17): sixteen strings and the position of the next one. -/
structure Buffer where
  pos : Nat
  str : Nat → List Nat

/-- A buffer filled with zeroes (options.c:281, resources.c:97, calloc in internal.c). -/
def Buffer.init : Buffer := ⟨0, fun _ => []⟩

/-- Results are constants of the program or one of the sixteen strings. -/
inductive Pointer where
  | constant (text : List Nat)
  | buffer (i : Nat)

/-- The text a pointer refers to. -/
def Buffer.read (b : Buffer) : Pointer → List Nat
  | .constant t => t
  | .buffer i => b.str i

/-- `kissat_next_format_string` (format.c:10-16).  The assertion is checked. -/
def Buffer.next (b : Buffer) : Option (Buffer × Nat) :=
  if b.pos < 16 then some ({ b with pos := if b.pos + 1 = 16 then 0 else b.pos + 1 }, b.pos) else none

/-- Writing a text with `sprintf` to a string of 128 bytes (format.h:8); `none` if it does not
fit. -/
def Buffer.write (b : Buffer) (i : Nat) (text : List Nat) : Option Buffer :=
  if text.length + 1 ≤ 128 then some { b with str := fun j => if j = i then text else b.str j } else none

/-- `for (l = 0; ((uint64_t) 1 << l) != w; l++)` (format.c:21); at most 64 iterations. -/
def exponentLoop (w : Nat) : Nat → Nat → Nat
  | 0, l => l
  | n + 1, l => if 1 <<< l ≠ w then exponentLoop w n (l + 1) else l

/-- `for (l = 0; !(w % 10); l++) w /= 10` (format.c:26-27); at most 20 iterations. -/
def zeroesLoop : Nat → Nat → Nat → Nat × Nat
  | 0, w, l => (w, l)
  | n + 1, w, l => if w % 10 = 0 then zeroesLoop n (w / 10) (l + 1) else (w, l)

/-- `format_count` (format.c:18-31). -/
def countText (w : Nat) : List Nat :=
  if w ≥ 128 ∧ Bits.isPowerOfTwo w = true then [50, 94] ++ printNat (exponentLoop w 64 0)
  else if w ≥ 1000 ∧ w % 1000 = 0 then
    let r := zeroesLoop 20 w 0
    printNat r.1 ++ 101 :: printNat r.2
  else printNat w

/-- `kissat_format_count` (format.c:33-37). -/
def formatCount (b : Buffer) (w : Nat) : Option (Buffer × Pointer) :=
  b.next.bind fun (b, i) => (b.write i (countText w)).map fun b => (b, .buffer i)

/-- `kissat_format_value` (format.c:39-55).  The argument is an `int`; `ABS` of it is converted to
64 bits. -/
def formatValue (b : Buffer) (boolean : Bool) (value : Int) : Option (Buffer × Pointer) :=
  if boolean && value ≠ 0 then some (b, .constant [116, 114, 117, 101])
  else if boolean && value = 0 then some (b, .constant [102, 97, 108, 115, 101])
  else if value = 2 ^ 31 - 1 then some (b, .constant [73, 78, 84, 95, 77, 65, 88])
  else if value = - 2 ^ 31 then some (b, .constant [73, 78, 84, 95, 77, 73, 78])
  else b.next.bind fun (b, i) =>
    (b.write i (if value < 0 then 45 :: countText value.natAbs else countText value.natAbs)).map
      fun b => (b, .buffer i)

/-- The text written by `kissat_format_bytes` (format.c:57-71), with 64-bit addition. -/
def bytesText (bytes : Nat) : List Nat :=
  let n := printNat bytes ++ [32, 98, 121, 116, 101, 115]
  if bytes < 2 ^ 10 then n
  else if bytes < 2 ^ 20 then n ++ [32, 40] ++ printNat (((bytes + 2 ^ 9) % 2 ^ 64) >>> 10) ++ [32, 75, 66, 41]
  else if bytes < 2 ^ 30 then n ++ [32, 40] ++ printNat (((bytes + 2 ^ 19) % 2 ^ 64) >>> 20) ++ [32, 77, 66, 41]
  else n ++ [32, 40] ++ printNat (((bytes + 2 ^ 29) % 2 ^ 64) >>> 30) ++ [32, 71, 66, 41]

/-- `kissat_format_bytes` (format.c:57-71). -/
def formatBytes (b : Buffer) (bytes : Nat) : Option (Buffer × Pointer) :=
  b.next.bind fun (b, i) => (b.write i (bytesText bytes)).map fun b => (b, .buffer i)

/-- `if (n) { if (tmp != res) *tmp++ = ' '; sprintf (tmp, "%" PRIu64 unit, n); tmp += strlen (tmp); }`
(format.c:84-105). -/
def timePart (text : List Nat) (n unit : Nat) : List Nat :=
  if n ≠ 0 then (if text ≠ [] then text ++ [32] else text) ++ printNat n ++ [unit] else text

/-- The text written by `kissat_format_time` (format.c:76-105) for a rounded number of seconds. -/
def timeText (rounded : Nat) : List Nat :=
  let minutes := rounded / 60
  let rounded := rounded % 60
  let hours := minutes / 60
  let minutes := minutes % 60
  let days := hours / 24
  let hours := hours % 24
  timePart (timePart (timePart (timePart [] days 100) hours 104) minutes 109) rounded 115

/-- `kissat_format_time` (format.c:73-107).  The floating-point argument is given by whether it is zero
and by its rounded value.  If no part is written then the string keeps its old contents. -/
def formatTime (b : Buffer) (isZero : Bool) (rounded : Nat) : Option (Buffer × Pointer) :=
  if isZero then some (b, .constant [48, 115])
  else b.next.bind fun (b, i) =>
    (if rounded = 0 then some b else b.write i (timeText rounded)).map fun b => (b, .buffer i)

/-- The ending chosen in `kissat_format_ordinal` (format.c:122-142). -/
def ordinalSuffix (ordinal : Nat) : List Nat :=
  let mod100 := ordinal % 100
  if 10 ≤ mod100 ∧ mod100 ≤ 19 then [116, 104]
  else
    match mod100 % 10 with
    | 1 => [115, 116]
    | 2 => [110, 100]
    | 3 => [114, 100]
    | _ => [116, 104]

/-- `kissat_format_ordinal` (format.c:122-146). -/
def formatOrdinal (b : Buffer) (ordinal : Nat) : Option (Buffer × Pointer) :=
  b.next.bind fun (b, i) =>
    (b.write i (printNat ordinal ++ ordinalSuffix ordinal)).map fun b => (b, .buffer i)

/-- Calls of the functions above.  `kissat_format_signs` (format.c:109-120) is not used in kissat
and left out. -/
inductive Call where
  | count (w : Nat)
  | value (boolean : Bool) (value : Int)
  | bytes (n : Nat)
  | time (isZero : Bool) (rounded : Nat)
  | ordinal (n : Nat)

/-- The function called (format.h:19-26). -/
def Call.run (b : Buffer) : Call → Option (Buffer × Pointer)
  | .count w => formatCount b w
  | .value boolean v => formatValue b boolean v
  | .bytes n => formatBytes b n
  | .time z r => formatTime b z r
  | .ordinal n => formatOrdinal b n

/-- Arguments have 64 bits, values are of type `int`. -/
def Call.Typed : Call → Prop
  | .count w => w < 2 ^ 64
  | .value _ v => - 2 ^ 31 ≤ v ∧ v < 2 ^ 31
  | .bytes n => n < 2 ^ 64
  | .time _ r => r < 2 ^ 64
  | .ordinal n => n < 2 ^ 64

/-- Several calls; the results are the pointers. -/
def runAll (b : Buffer) : List Call → Option (Buffer × List Pointer)
  | [] => some (b, [])
  | c :: cs =>
    match c.run b with
    | none => none
    | some (b, p) => (runAll b cs).map fun (b, ps) => (b, p :: ps)

/-- The text `name=value` built in `print_option` (application.c:706-715) in a buffer of 96 bytes. -/
def optionLine (name : List Nat) (boolean : Bool) (value : Int) : Option (List Nat) :=
  (formatValue Buffer.init boolean value).bind fun (b, p) =>
    let text := name ++ 61 :: b.read p
    if text.length + 1 ≤ 96 then some text else none

end Verif.Model.Format
