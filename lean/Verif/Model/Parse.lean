import Verif.Spec.Dimacs

/-!
# The DIMACS parser: `parse.c`

The parser reads one character after the other.  Every call of `NEXT ()` in the code is
one program location `Pc` here, and `step` is the code from there to the following call.
Characters are numbers below 256, `none` is `EOF`.  Parsing of embedded options is part
of the code only if configured with `EMBEDDED` (`configure --embedded`, or debugging or
logging builds) and can be switched off by an option; the argument `embedded` stands for
both.

Simplification: counters (`lineno`, `parsed`) are unbounded; messages on the terminal are
left out.
-/

namespace Verif.Model.Parse

open Verif.Spec.Dimacs (Mode maxVar)

/-- Effects of the parser. -/
inductive Event
  /-- an embedded option (parse.c:184-195) -/
  | option (name : List Nat) (arg : Int)
  /-- `kissat_reserve` (parse.c:310) -/
  | reserve (n : Nat)
  /-- `kissat_add` (parse.c:417) -/
  | add (lit : Int)
  deriving DecidableEq

/-- The calls of `NEXT ()`, by line. -/
inductive Pc
  /-- 80 -/
  | start (first : Bool)
  /-- 93 -/
  | startCr
  /-- 107 -/
  | comment
  /-- 112 -/
  | commentCr
  /-- 124 -/
  | dash
  /-- 130 -/
  | name (name : List Nat)
  /-- 139 -/
  | nameCr
  /-- 151 -/
  | sign (name : List Nat)
  /-- 155 -/
  | minusArg (name : List Nat)
  /-- 163 -/
  | arg (name : List Nat) (sign : Int) (arg : Nat)
  /-- 174 -/
  | argSpace (name : List Nat) (arg : Int)
  /-- 177 -/
  | argCr (name : List Nat) (arg : Int)
  /-- 201 -/
  | rest
  /-- 209 -/
  | restCr
  /-- 220 -/
  | p
  /-- 223 -/
  | pSpace
  /-- 227 -/
  | pSpaces
  /-- 231 -/
  | pc
  /-- 234 -/
  | pcn
  /-- 237 -/
  | pcnf
  /-- 240 -/
  | cnfSpace
  /-- 244 -/
  | cnfSpaces
  /-- 249 -/
  | variables (n : Nat)
  /-- 263 -/
  | variablesCr (n : Nat)
  /-- 271 -/
  | varSpace (n : Nat)
  /-- 275 -/
  | varSpaces (n : Nat)
  /-- 280 -/
  | clauses (n c : Nat)
  /-- 295 -/
  | clauseSpaces (n c : Nat)
  /-- 299 -/
  | clausesCr (n c : Nat)
  /-- 315 -/
  | body
  /-- 324 -/
  | bodyCr
  /-- 331 -/
  | bodyComment
  /-- 347 -/
  | minus
  /-- 364 -/
  | idx (sign : Int) (n : Nat)
  /-- 386 -/
  | idxCr (sign : Int) (n : Nat)
  /-- 392 -/
  | idxComment (sign : Int) (n : Nat)
  deriving DecidableEq

/-- The local variables of `parse_dimacs` (parse.c:73-77, 248, 279, 311-312) and what was
done so far. -/
structure State where
  pc : Pc
  lineno : Nat
  maxVar : Nat
  clauses : Nat
  parsed : Nat
  lit : Int
  events : List Event
  deriving DecidableEq

/-- Result: an error with the reported line number, or success. -/
inductive Result
  | error (message : String) (lineno : Nat) (events : List Event)
  | ok (maxVar : Nat) (lineno : Nat) (events : List Event)
  deriving DecidableEq

/-- One step either returns or waits for the next character. -/
inductive Outcome
  | done (r : Result)
  | more (s : State)
  deriving DecidableEq

/-- `ISDIGIT` (parse.c:61-67). -/
def isDigit : Option Nat → Bool
  | none => false
  | some ch => decide (48 ≤ ch) && decide (ch ≤ 57)

/-- A return statement without `NONL`: `*lineno_ptr` still has the value of parse.c:75. -/
def fail (s : State) (message : String) : Outcome := .done (.error message 1 s.events)

/-- `NONL` (parse.c:48-57). -/
def nonl (s : State) (ch : Option Nat) (message : String) : Outcome :=
  .done (.error message (if ch = some 10 then s.lineno - 1 else s.lineno) s.events)

/-- Continue with the next character. -/
def goto (s : State) (pc : Pc) : Outcome := .more { s with pc := pc }

/-- A space or tabulator. -/
def isSpace (ch : Option Nat) : Bool := ch = some 32 ∨ ch = some 9

/-- After the label `COMPLETE` and the rest of the loop body there (parse.c:203-213). -/
def complete (s : State) (ch : Option Nat) : Outcome :=
  if ch = none then fail s "end-of-file in header comment"
  else if ch = some 13 then goto s .restCr
  else goto s .rest

/-- After the loop over the prolog: the character after the spaces (parse.c:229-230). -/
def expectC (s : State) (ch : Option Nat) : Outcome :=
  if ch ≠ some 99 then nonl s ch "expected 'c' after 'p '" else goto s .pc

/-- The first digit of the number of variables (parse.c:246-248). -/
def firstVariable (s : State) (ch : Option Nat) : Outcome :=
  if isDigit ch then goto s (.variables (ch.getD 0 - 48))
  else nonl s ch "expected digit after 'p cnf '"

/-- The first digit of the number of clauses (parse.c:277-279). -/
def firstClause (s : State) (n : Nat) (ch : Option Nat) : Outcome :=
  if isDigit ch then goto s (.clauses n (ch.getD 0 - 48))
  else fail s "expected number of clauses after maximum variable"

/-- The end of the header (parse.c:303-312). -/
def endHeader (s : State) (n c : Nat) (ch : Option Nat) : Outcome :=
  if ch = none then fail s "unexpected end-of-file after parsing number of clauses"
  else if ch ≠ some 10 then fail s "expected new-line after parsing number of clauses"
  else .more { s with
    pc := .body
    maxVar := n
    clauses := c
    parsed := 0
    lit := 0
    events := s.events ++ [.reserve n] }

/-- After the number of clauses and spaces (parse.c:297-302). -/
def afterClauses (s : State) (n c : Nat) (ch : Option Nat) : Outcome :=
  if ch = some 13 then goto s (.clausesCr n c) else endHeader s n c ch

/-- After the loop over the body (parse.c:419-430). -/
def finish (m : Mode) (s : State) : Outcome :=
  if s.lit ≠ 0 then fail s "trailing zero missing"
  else if m ≠ .relaxed ∧ s.parsed < s.clauses then
    if s.parsed + 1 = s.clauses then fail s "one clause missing (try '--relaxed' parsing)"
    else fail s "more than one clause missing (try '--relaxed' parsing)"
  else .done (.ok s.maxVar s.lineno s.events)

/-- After the separator following a number (parse.c:402-417). -/
def addLit (m : Mode) (s : State) (sign : Int) (n : Nat) (ch : Option Nat) : Outcome :=
  if m ≠ .relaxed ∧ s.maxVar < n then
    nonl s ch "maximum variable index exceeded (try '--relaxed' parsing)"
  else if n ≠ 0 then
    .more { s with pc := .body, lit := sign * n, events := s.events ++ [.add (sign * n)] }
  else if m ≠ .relaxed ∧ s.parsed = s.clauses then
    fail s "too many clauses (try '--relaxed' parsing)"
  else
    .more { s with
      pc := .body
      parsed := s.parsed + 1
      lit := 0
      events := s.events ++ [.add 0] }

/-- An embedded option was read (parse.c:183-196). -/
def setOption (s : State) (name : List Nat) (arg : Int) : Outcome :=
  .more { s with pc := .start false, events := s.events ++ [.option name arg] }

/-- After the digits of the argument of an embedded option and spaces
(parse.c:175-182). -/
def afterArg (s : State) (name : List Nat) (arg : Int) (ch : Option Nat) : Outcome :=
  if ch = some 13 then goto s (.argCr name arg)
  else if ch ≠ some 10 then complete s ch
  else setOption s name arg

/-- The first digit of the argument of an embedded option (parse.c:160-162). -/
def firstArg (s : State) (name : List Nat) (sign : Int) (ch : Option Nat) : Outcome :=
  if isDigit ch then goto s (.arg name sign (ch.getD 0 - 48)) else complete s ch

/-- The code after the call of `NEXT ()` at `s.pc`, which returned `ch`. -/
def after (m : Mode) (embedded : Bool) (s : State) (ch : Option Nat) : Outcome :=
  match s.pc with
  | .start first =>  -- parse.c:81-104, 216-217
    if ch = some 112 then goto s .p
    else if ch = none then
      if first then fail s "empty file" else fail s "end-of-file before header"
    else if ch = some 13 then goto s .startCr
    else if ch = some 10 then
      if m = .pedantic then nonl s ch "unexpected empty line" else goto s (.start false)
    else if ch = some 99 then goto s .comment
    else fail s "expected 'c' or 'p' at start of line"
  | .startCr =>  -- parse.c:94-97
    if ch ≠ some 10 then fail s "expected new-line after carriage-return"
    else if m = .pedantic then nonl s ch "unexpected empty line"
    else goto s (.start false)
  | .comment =>  -- parse.c:108-123, 201
    if ch = some 10 then goto s (.start false)
    else if ch = some 13 then goto s .commentCr
    else if ch = none then fail s "end-of-file in header comment"
    else if isSpace ch then goto s .comment
    else if embedded = true ∧ ch = some 45 then goto s .dash
    else goto s .rest
  | .commentCr =>  -- parse.c:113-115
    if ch ≠ some 10 then fail s "expected new-line after carriage-return"
    else goto s (.start false)
  | .dash =>  -- parse.c:125-129
    if ch ≠ some 45 then complete s ch else goto s (.name [])
  | .name name =>  -- parse.c:130-148
    match ch with
    | some x =>
      if 97 ≤ x ∧ x ≤ 122 then
        if (name ++ [x]).length = 32 then complete s ch else goto s (.name (name ++ [x]))
      else if x = 13 then goto s .nameCr
      else if x = 10 then goto s (.start false)
      else if x ≠ 61 then complete s ch
      else goto s (.sign name)
    | none => complete s ch
  | .nameCr =>  -- parse.c:140-144
    if ch ≠ some 10 then fail s "expected new-line after carriage-return"
    else goto s (.start false)
  | .sign name =>  -- parse.c:153-159
    if ch = some 45 then goto s (.minusArg name) else firstArg s name 1 ch
  | .minusArg name => firstArg s name (-1) ch  -- parse.c:156
  | .arg name sign arg =>  -- parse.c:163-173
    if isDigit ch then
      let digit := ch.getD 0 - 48
      if (2 ^ 31 - 1) / 10 < arg then complete s ch
      else if 2 ^ 31 - 1 - digit < arg * 10 then complete s ch
      else goto s (.arg name sign (arg * 10 + digit))
    else if isSpace ch then goto s (.argSpace name (sign * arg))
    else afterArg s name (sign * arg) ch
  | .argSpace name arg =>  -- parse.c:173
    if isSpace ch then goto s (.argSpace name arg) else afterArg s name arg ch
  | .argCr name arg =>  -- parse.c:178-182
    if ch ≠ some 10 then fail s "expected new-line after carriage-return"
    else setOption s name arg
  | .rest =>  -- parse.c:201-213
    if ch = some 10 then goto s (.start false) else complete s ch
  | .restCr =>  -- parse.c:210-212
    if ch ≠ some 10 then fail s "expected new-line after carriage-return"
    else goto s (.start false)
  | .p =>  -- parse.c:221-222
    if ch ≠ some 32 then nonl s ch "expected space after 'p'" else goto s .pSpace
  | .pSpace =>  -- parse.c:224-228
    if m ≠ .pedantic ∧ isSpace ch then goto s .pSpaces else expectC s ch
  | .pSpaces =>  -- parse.c:226
    if isSpace ch then goto s .pSpaces else expectC s ch
  | .pc => if ch ≠ some 110 then nonl s ch "expected 'n' after 'p c'" else goto s .pcn
  | .pcn => if ch ≠ some 102 then nonl s ch "expected 'n' after 'p cn'" else goto s .pcnf
  | .pcnf => if ch ≠ some 32 then nonl s ch "expected space after 'p cnf'" else goto s .cnfSpace
  | .cnfSpace =>  -- parse.c:241-245
    if m ≠ .pedantic ∧ isSpace ch then goto s .cnfSpaces else firstVariable s ch
  | .cnfSpaces =>  -- parse.c:243
    if isSpace ch then goto s .cnfSpaces else firstVariable s ch
  | .variables n =>  -- parse.c:249-262, 267-270
    if isDigit ch then
      let digit := ch.getD 0 - 48
      if maxVar / 10 < n then fail s "maximum variable too large"
      else if maxVar - digit < n * 10 then fail s "maximum variable too large"
      else goto s (.variables (n * 10 + digit))
    else if ch = none then fail s "unexpected end-of-file while parsing maximum variable"
    else if ch = some 13 then goto s (.variablesCr n)
    else if ch = some 10 then nonl s ch "unexpected new-line after maximum variable"
    else if ch ≠ some 32 then fail s "expected space after maximum variable"
    else goto s (.varSpace n)
  | .variablesCr _ =>  -- parse.c:264-268
    if ch ≠ some 10 then fail s "expected new-line after carriage-return"
    else nonl s ch "unexpected new-line after maximum variable"
  | .varSpace n =>  -- parse.c:272-276
    if m ≠ .pedantic ∧ isSpace ch then goto s (.varSpaces n) else firstClause s n ch
  | .varSpaces n =>  -- parse.c:274
    if isSpace ch then goto s (.varSpaces n) else firstClause s n ch
  | .clauses n c =>  -- parse.c:280-296
    if isDigit ch then
      let digit := ch.getD 0 - 48
      if (2 ^ 64 - 1) / 10 < c then fail s "number of clauses too large"
      else if 2 ^ 64 - 1 - digit < c * 10 then fail s "number of clauses too large"
      else goto s (.clauses n (c * 10 + digit))
    else if ch = none then fail s "unexpected end-of-file while parsing number of clauses"
    else if m ≠ .pedantic ∧ isSpace ch then goto s (.clauseSpaces n c)
    else afterClauses s n c ch
  | .clauseSpaces n c =>  -- parse.c:294
    if isSpace ch then goto s (.clauseSpaces n c) else afterClauses s n c ch
  | .clausesCr n c =>  -- parse.c:300-302
    if ch ≠ some 10 then fail s "expected new-line after carriage-return"
    else endHeader s n c ch
  | .body =>  -- parse.c:316-363
    if ch = some 32 then goto s .body
    else if ch = some 9 then goto s .body
    else if ch = some 10 then goto s .body
    else if ch = some 13 then goto s .bodyCr
    else if ch = some 99 then goto s .bodyComment
    else if ch = none then finish m s
    else if ch = some 45 then goto s .minus
    else if isDigit ch then goto s (.idx 1 (ch.getD 0 - 48))
    else fail s "expected digit or '-'"
  | .bodyCr =>  -- parse.c:325-327
    if ch ≠ some 10 then fail s "expected new-line after carriage-return" else goto s .body
  | .bodyComment =>  -- parse.c:331-340
    if ch = some 10 then goto s .body
    else if ch = none then
      if m ≠ .pedantic then finish m s
      else fail s "unexpected end-of-file in comment after header"
    else goto s .bodyComment
  | .minus =>  -- parse.c:348-356, 363
    if ch = none then fail s "unexpected end-of-file after '-'"
    else if ch = some 10 then nonl s ch "unexpected new-line after '-'"
    else if ¬ isDigit ch then fail s "expected digit after '-'"
    else if ch = some 48 then fail s "expected non-zero digit after '-'"
    else goto s (.idx (-1) (ch.getD 0 - 48))
  | .idx sign n =>  -- parse.c:364-401
    if isDigit ch then
      let digit := ch.getD 0 - 48
      if maxVar / 10 < n then fail s "variable index too large"
      else if maxVar - digit < n * 10 then fail s "variable index too large"
      else goto s (.idx sign (n * 10 + digit))
    else if ch = none then
      if m = .pedantic then
        if n ≠ 0 then fail s "unexpected end-of-file after literal"
        else fail s "unexpected end-of-file after trailing zero"
      else addLit m s sign n ch
    else if ch = some 13 then goto s (.idxCr sign n)
    else if ch = some 99 then goto s (.idxComment sign n)
    else if ch ≠ some 32 ∧ ch ≠ some 9 ∧ ch ≠ some 10 then
      fail s "expected white space after literal"
    else addLit m s sign n ch
  | .idxCr sign n =>  -- parse.c:387-388
    if ch ≠ some 10 then fail s "expected new-line after carriage-return"
    else addLit m s sign n ch
  | .idxComment sign n =>  -- parse.c:392-398
    if ch = some 10 then addLit m s sign n ch
    else if ch = none then
      if m ≠ .pedantic then addLit m s sign n ch
      else fail s "unexpected end-of-file in comment after literal"
    else goto s (.idxComment sign n)

/-- `NEXT ()` counts lines (parse.c:41-42), then the code after it runs. -/
def step (m : Mode) (embedded : Bool) (s : State) (ch : Option Nat) : Outcome :=
  after m embedded { s with lineno := if ch = some 10 then s.lineno + 1 else s.lineno } ch

/-- Consuming characters. -/
def feed (m : Mode) (embedded : Bool) : State → List Nat → Outcome
  | s, [] => .more s
  | s, ch :: w =>
    match step m embedded s (some ch) with
    | .done r => .done r
    | .more s => feed m embedded s w

/-- At the end of the file `NEXT ()` returns `EOF` whenever it is called.  The parser calls
it at most twice (`atEof_ne_none`); `none` would be a third call. -/
def atEof (m : Mode) (embedded : Bool) (s : State) : Option Result :=
  match step m embedded s none with
  | .done r => some r
  | .more s =>
    match step m embedded s none with
    | .done r => some r
    | .more _ => none

/-- The initial state (parse.c:75-77). -/
def State.init : State := ⟨.start true, 1, 0, 0, 0, 0, []⟩

/-- `parse_dimacs` (parse.c:69-431) for a file with the given content. -/
def parse (m : Mode) (embedded : Bool) (w : List Nat) : Option Result :=
  match feed m embedded State.init w with
  | .done r => some r
  | .more s => atEof m embedded s

/-! ## Reading in blocks -/

/-- `struct read_buffer` (parse.c:13-16) and the file.  `chunks k` bounds the number of bytes
the `k`-th call of `fread` delivers, which is at least one if there are bytes left. -/
structure Reader where
  /-- `chars[0 .. end)` -/
  chars : List Nat
  pos : Nat
  /-- the part of the file not read yet -/
  file : List Nat
  /-- `file->bytes` -/
  bytes : Nat
  chunks : Nat → Nat
  calls : Nat

/-- `size_buffer` (parse.c:11). -/
def sizeBuffer : Nat := 2 ^ 20

/-- `fill_buffer` and `kissat_read` (parse.c:20-24, file.h:59-70). -/
def Reader.fill (r : Reader) : Reader :=
  let n := min sizeBuffer (max 1 (r.chunks r.calls))
  { r with
    chars := r.file.take n
    pos := 0
    file := r.file.drop n
    bytes := r.bytes + (r.file.take n).length
    calls := r.calls + 1 }

/-- The character at `pos`, if there is one (parse.c:38-40). -/
def Reader.get (r : Reader) : Option Nat × Reader :=
  match r.chars[r.pos]? with
  | none => (none, r)
  | some ch => (some ch, { r with pos := r.pos + 1 })

/-- `next` (parse.c:35-44) without counting lines. -/
def Reader.next (r : Reader) : Option Nat × Reader :=
  (if r.pos = r.chars.length then r.fill else r).get

/-- The parser on top of the buffered reader, with at most `n` calls of `NEXT ()`. -/
def drive (m : Mode) (embedded : Bool) : Nat → Reader → State → Option (Result × Reader)
  | 0, _, _ => none
  | n + 1, r, s =>
    match r.next with
    | (ch, r) =>
      match step m embedded s ch with
      | .done res => some (res, r)
      | .more s => drive m embedded n r s

/-- A file that was just opened (file.c:256-262). -/
def Reader.init (w : List Nat) (chunks : Nat → Nat) : Reader := ⟨[], 0, w, 0, chunks, 0⟩

/-- `kissat_parse_dimacs` (parse.c:433-445) reading the file in blocks. -/
def parseBlocks (m : Mode) (embedded : Bool) (w : List Nat) (chunks : Nat → Nat) :
    Option (Result × Reader) :=
  drive m embedded (w.length + 2) (Reader.init w chunks) State.init

end Verif.Model.Parse
