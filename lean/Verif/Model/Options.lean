import Verif.Model.OptionTable
/-
Model of /repo/src/options.c (without the usage and fuzzing printouts) and of
/repo/src/config.c.  The build has options, i.e. `NOPTIONS` is not defined.
-/
namespace Verif.Model.Options

/-- options.h:194-216: is an entry compiled in? -/
def Build.has (b : Build) : Kind → Bool
  | .always => true
  | .debug => b.debug
  | .logging => b.logging && !b.quiet
  | .notQuiet => !b.quiet
  | .embedded => b.embedded

/-- options.c:22-26 `table`. -/
def table (b : Build) : List Opt :=
  ((allOptions b).filter fun e => b.has e.1).map (·.2)

/-- `strcmp` of the C library on unsigned bytes; only the sign matters. -/
def strcmp : CStr → CStr → Int
  | [], [] => 0
  | [], b :: _ => - (b : Int)
  | a :: _, [] => (a : Int)
  | a :: as, b :: bs => if a = b then strcmp as bs else (a : Int) - (b : Int)

/-- Result of `kissat_options_has`; reading outside of the table is a separate outcome. -/
inductive Lookup where
  | outOfBounds
  | notFound
  | found (i : Nat)
  deriving DecidableEq, Repr

/-- options.c:45-63 `kissat_options_has` (the loop with bounds `l` and `r`). -/
def hasLoop (t : List Opt) (name : CStr) (l r : Nat) : Lookup :=
  if l + 1 < r then
    let m := l + (r - l) / 2
    match t[m]? with
    | none => .outOfBounds
    | some o =>
      let tmp := strcmp name o.name
      if tmp < 0 then hasLoop t name l m
      else if 0 < tmp then hasLoop t name m r
      else .found m
  else
    match t[l]? with
    | none => .outOfBounds
    | some o => if strcmp o.name name ≠ 0 then .notFound else .found l
termination_by r - l
decreasing_by all_goals omega

/-- options.c:45-63 `kissat_options_has`. -/
def has (t : List Opt) (name : CStr) : Lookup := hasLoop t name 0 t.length

/-! Option values (options.c:65-157). -/

/-- Outcome of parsing a value; a division by zero is a separate outcome. -/
inductive Parsed where
  | divisionByZero
  | invalid
  | valid (v : Int)
  deriving DecidableEq, Repr

/-- `isdigit` -/
def isDigit (ch : Nat) : Bool := 48 ≤ ch && ch ≤ 57

/-- options.c:83 `max = -(unsigned) INT_MIN`. -/
def maxVal : Nat := 2 ^ 31

/-- `unsigned` multiplication and addition. -/
def umul (a b : Nat) : Nat := a * b % 2 ^ 32
def uadd (a b : Nat) : Nat := (a + b) % 2 ^ 32

/-- options.c:85-95: reads the digits after the first one.  `none` means rejected, otherwise
the value, the character which ended the loop (zero is the end of the string) and the rest. -/
def digitLoop (res : Nat) : CStr → Option (Nat × Nat × CStr)
  | [] => some (res, 0, [])
  | ch :: p =>
    if isDigit ch then
      if maxVal / 10 < res then none
      else
        let res := umul res 10
        let digit := ch - 48
        if maxVal - digit < res then none
        else
          let res := uadd res digit
          if res = 0 then none else digitLoop res p
    else some (res, ch, p)

/-- `while (isdigit (ch = *p++)) ;` gives the character that stops the loop. -/
def skipDigits : CStr → Nat
  | [] => 0
  | ch :: p => if isDigit ch then skipDigits p else ch

/-- options.c:104-108 (with `base` 10) and options.c:140-144: multiply `n` times,
checking for overflow.  The outer `none` is a division by zero. -/
def mulLoop (base : Nat) : Nat → Nat → Option (Option Nat)
  | 0, res => some (some res)
  | n + 1, res =>
    if base = 0 then none
    else if maxVal / base < res then some none
    else mulLoop base n (umul res base)

/-- options.c:151-156: final range check, sign and conversion to `int`. -/
def finish (neg : Bool) (res : Nat) : Parsed :=
  if ¬ neg ∧ res = maxVal then .invalid
  else
    let u : Nat := if neg then (2 ^ 32 - res) % 2 ^ 32 else res % 2 ^ 32
    .valid (if u < 2 ^ 31 then (u : Int) else (u : Int) - 2 ^ 32)

/-- After one of the two multiplication loops: options.c:105-106 and 141-142 reject. -/
def afterLoop (neg : Bool) : Option (Option Nat) → Parsed
  | none => .divisionByZero
  | some none => .invalid
  | some (some res) => finish neg res

/-- options.c:96-115: after an `e`. -/
def parseExponent (neg : Bool) (res : Nat) : CStr → Parsed
  | [] => .invalid
  | ch :: p =>
    if ¬ isDigit ch then .invalid
    else if res ≠ 0 then
      if p ≠ [] then .invalid
      else
        afterLoop neg (mulLoop 10 (ch - 48) res)
    else if skipDigits p ≠ 0 then .invalid
    else finish neg res

/-- options.c:139-148: the power once the exponent is known. -/
def power (neg : Bool) (base exp : Nat) : Parsed :=
  if exp ≠ 0 then afterLoop neg (mulLoop base (exp - 1) base)
  else if base ≠ 0 then finish neg 1
  else .invalid

/-- options.c:116-148: after a `^`. -/
def parsePower (neg : Bool) (base : Nat) : CStr → Parsed
  | [] => .invalid
  | ch :: p =>
    if ¬ isDigit ch then .invalid
    else
      let exp := ch - 48
      if base < 2 then
        if skipDigits p ≠ 0 then .invalid else power neg base exp
      else
        match p with
        | [] => power neg base exp
        | ch :: p =>
          if isDigit ch then
            if p ≠ [] then .invalid
            else
              let exp := uadd (umul exp 10) (ch - 48)
              if exp = 0 then .invalid else power neg base exp
          else .invalid

/-- options.c:81-150: after the optional minus sign. -/
def parseUnsigned (neg : Bool) : CStr → Parsed
  | [] => .invalid
  | ch :: p =>
    if ¬ isDigit ch then .invalid
    else
      match digitLoop (ch - 48) p with
      | none => .invalid
      | some (res, ch, p) =>
        if ch = 101 then parseExponent neg res p
        else if ch = 94 then parsePower neg res p
        else if ch ≠ 0 then .invalid
        else finish neg res

/-- options.c:65-157 `kissat_parse_option_value`. -/
def parseValue (s : CStr) : Parsed :=
  if strcmp s [116, 114, 117, 101] = 0 then .valid 1           -- "true"
  else if strcmp s [102, 97, 108, 115, 101] = 0 then .valid 0  -- "false"
  else
    match s with
    | 45 :: p => parseUnsigned true p                           -- '-'
    | _ => parseUnsigned false s

/-! Reading and setting options. The `struct options` is a list of integers parallel to the
table (options.h:258-263, options.c:242). -/

/-- options.c:259-269 `kissat_init_options`. -/
def initOptions (b : Build) : List Int := (table b).map (·.value)

/-- options.c:231-235 `kissat_options_get` and internal.c:174-183 `kissat_get_option`. -/
def getOption (t : List Opt) (vals : List Int) (name : CStr) : Option Int :=
  match has t name with
  | .outOfBounds => none
  | .notFound => some 0
  | .found i => vals[i]?

/-- options.c:237-250 `kissat_options_set_opt` for table index `i`: old value and new options. -/
def setOpt (o : Opt) (i : Nat) (vals : List Int) (value : Int) : Option (Int × List Int) :=
  match vals[i]? with
  | none => none
  | some res =>
    if value = res then some (res, vals)
    else
      let value := if value < o.low then o.low else value
      let value := if value > o.high then o.high else value
      some (res, vals.set i value)

/-- options.c:252-257 `kissat_options_set` and internal.c:185-198 `kissat_set_option`;
`none` is an access outside of the table or the struct. -/
def setOption (t : List Opt) (vals : List Int) (name : CStr) (value : Int) :
    Option (Int × List Int) :=
  match has t name with
  | .outOfBounds => none
  | .notFound => some (0, vals)
  | .found i =>
    match t[i]? with
    | none => none
    | some o => setOpt o i vals value

/-! Command line arguments. -/

/-- Outcome of parsing an argument. -/
inductive ArgResult where
  | undefined             -- memory error or division by zero
  | rejected
  | accepted (name : CStr) (value : Int)
  deriving DecidableEq, Repr

/-- options.c:304-306: splits at the first `=`. -/
def splitEq : CStr → CStr × Option CStr
  | [] => ([], none)
  | ch :: p => if ch = 61 then ([], some p) else
      let (n, v) := splitEq p
      (ch :: n, v)

/-- options.c:307-322: `--name=val`. -/
def parseAssign (t : List Opt) (name val : CStr) : ArgResult :=
  if name.length ≥ 32 then .rejected
  else
    match has t name with
    | .outOfBounds => .undefined
    | .notFound => .rejected
    | .found i =>
      match parseValue val, t[i]? with
      | .divisionByZero, _ => .undefined
      | _, none => .undefined
      | .invalid, _ => .rejected
      | .valid v, some o => if v < o.low ∨ v > o.high then .rejected else .accepted name v

/-- options.c:325-329 and 336-338: `--no-name`. -/
def parseOff (t : List Opt) (name : CStr) : ArgResult :=
  match has t name with
  | .outOfBounds => .undefined
  | .notFound => .rejected
  | .found i =>
    match t[i]? with
    | none => .undefined
    | some o =>
      if o.low > 0 then .rejected
      else if name.length ≥ 32 then .undefined
      else .accepted name 0

/-- options.c:330-338: `--name`. -/
def parseOn (t : List Opt) (name : CStr) : ArgResult :=
  match has t name with
  | .outOfBounds => .undefined
  | .notFound => .rejected
  | .found i =>
    match t[i]? with
    | none => .undefined
    | some o =>
      if o.high < 1 then .rejected
      else if name.length ≥ 32 then .undefined
      else .accepted name 1

/-- options.c:304-340: after the two dashes. -/
def parseLong (t : List Opt) (rest : CStr) : ArgResult :=
  match splitEq rest with
  | (name, some val) => parseAssign t name val
  | (_, none) =>
    match rest with
    | 110 :: 111 :: 45 :: name => parseOff t name       -- "no-"
    | name => parseOn t name

/-- options.c:300-341 `kissat_options_parse_arg` with a name buffer of 32 bytes. -/
def parseArg (t : List Opt) : CStr → ArgResult
  | 45 :: 45 :: rest => parseLong t rest
  | _ => .rejected

/-- application.c:503-509: a long option on the command line; `none` is undefined behaviour,
`some none` an error message. -/
def applyArg (t : List Opt) (vals : List Int) (arg : CStr) : Option (Option (List Int)) :=
  match parseArg t arg with
  | .undefined => none
  | .rejected => some none
  | .accepted name value => (setOption t vals name value).map fun r => some r.2

/-! Configurations (config.c). -/

/-- The calls of `kissat_set_option` in config.c:39-53 `set_plain_options`. -/
def plainSettings : List (CStr × Int) := [
  ([98,117,109,112,114,101,97,115,111,110,115], 0),                      -- bumpreasons
  ([99,104,114,111,110,111], 0),                                         -- chrono
  ([99,111,109,112,97,99,116], 0),                                       -- compact
  ([101,97,103,101,114,115,117,98,115,117,109,101], 0),                  -- eagersubsume
  ([106,117,109,112,114,101,97,115,111,110,115], 0),                     -- jumpreasons
  ([111,116,102,115], 0),                                                -- otfs
  ([112,114,101,112,114,111,99,101,115,115], 0),                         -- preprocess
  ([114,101,111,114,100,101,114], 0),                                    -- reorder
  ([114,101,112,104,97,115,101], 0),                                     -- rephase
  ([114,101,115,116,97,114,116,114,101,117,115,101,116,114,97,105,108], 0), -- restartreusetrail
  ([115,105,109,112,108,105,102,121], 0),                                -- simplify
  ([115,116,97,98,108,101], 2),                                          -- stable
  ([116,117,109,98,108,101], 0)]                                         -- tumble

/-- The further calls for `basic`, config.c:58-60. -/
def basicSettings : List (CStr × Int) := [
  ([114,101,115,116,97,114,116], 0),                                     -- restart
  ([114,101,100,117,99,101], 0),                                         -- reduce
  ([109,105,110,105,109,105,122,101], 0)]                                -- minimize

/-- config.c:69-73, `sat`. -/
def satSettings : List (CStr × Int) := [
  ([116,97,114,103,101,116], 2),                                         -- target
  ([114,101,115,116,97,114,116,105,110,116], 50)]                        -- restartint

/-- config.c:74-77, `unsat`. -/
def unsatSettings : List (CStr × Int) := [
  ([115,116,97,98,108,101], 0)]                                          -- stable

/-- A sequence of `kissat_set_option` calls whose results are ignored. -/
def setAll (t : List Opt) (vals : List Int) : List (CStr × Int) → Option (List Int)
  | [] => some vals
  | (n, v) :: rest =>
    match setOption t vals n v with
    | none => none
    | some (_, vals) => setAll t vals rest

/-- config.c:55-79 `kissat_set_configuration`. -/
def setConfiguration (t : List Opt) (vals : List Int) (name : CStr) : Option (Int × List Int) :=
  if strcmp name [98,97,115,105,99] = 0 then                       -- basic
    match setAll t vals plainSettings with
    | none => none
    | some vals => (setAll t vals basicSettings).map (1, ·)
  else if strcmp name [100,101,102,97,117,108,116] = 0 then        -- default
    some (1, vals)
  else if strcmp name [112,108,97,105,110] = 0 then                -- plain
    (setAll t vals plainSettings).map (1, ·)
  else if strcmp name [115,97,116] = 0 then                        -- sat
    (setAll t vals satSettings).map (1, ·)
  else if strcmp name [117,110,115,97,116] = 0 then                -- unsat
    (setAll t vals unsatSettings).map (1, ·)
  else some (0, vals)

/-- config.c:10-22 `kissat_has_configuration`. -/
def hasConfiguration (name : CStr) : Int :=
  if strcmp name [98,97,115,105,99] = 0 then 1
  else if strcmp name [100,101,102,97,117,108,116] = 0 then 1
  else if strcmp name [112,108,97,105,110] = 0 then 1
  else if strcmp name [115,97,116] = 0 then 1
  else if strcmp name [117,110,115,97,116] = 0 then 1
  else 0

end Verif.Model.Options
