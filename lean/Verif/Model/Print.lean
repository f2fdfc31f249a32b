import Verif.Model.Printf

/-!
# Messages and progress reports: `print.c`, `report.c`, `colors.h`

Output is a list of bytes.  The arguments of messages are the texts they are formatted to.  Writing beyond the end of a
buffer is the result `none`.
-/

namespace Verif.Model.Print

open Verif.Model

abbrev Text := List Nat

/-! Codes of `colors.h:10-21`. -/

def bold : Text := [27, 91, 49, 109]
def blue : Text := [27, 91, 51, 52, 109]
def cyan : Text := [27, 91, 51, 54, 109]
def green : Text := [27, 91, 51, 50, 109]
def magenta : Text := [27, 91, 51, 53, 109]
def normal : Text := [27, 91, 48, 109]
def red : Text := [27, 91, 51, 49, 109]
def yellow : Text := [27, 91, 51, 51, 109]
def lightGray : Text := [27, 91, 49, 59, 51, 55, 109]
def darkGray : Text := [27, 91, 48, 59, 51, 55, 109]

/-- What output depends on.  `level` is the result of `verbosity` (print.c:12-26), -1 for the option `quiet`;
`terminal` is `kissat_connected_to_terminal (1)` (colors.h:55-62). -/
structure State where
  level : Int
  terminal : Bool
  stable : Bool
  preprocessing : Bool
  sectioned : Bool
  reports : Nat

/-- The macro `COLOR` (colors.h:40-45). -/
def State.color (s : State) (code : Text) : Text := if s.terminal then code else []

/-- `print_message` (print.c:62-71). -/
def State.printMessage (s : State) (color text : Text) : Text :=
  [99, 32] ++ s.color color ++ text ++ [10] ++ s.color normal

/-- `kissat_warning` (print.c:28-46); the constant is `warning:`. -/
def State.warning (s : State) (text : Text) : Text :=
  if s.level < 0 then []
  else [99, 32] ++ s.color (bold ++ yellow) ++ [119, 97, 114, 110, 105, 110, 103, 58] ++ s.color normal ++ [32] ++
    text ++ [10]

/-- `kissat_signal` (print.c:48-58); `text` is the formatted signal. -/
def State.signal (s : State) (text : Text) : Text :=
  if s.level < 0 then []
  else [99, 32] ++ s.color (bold ++ red) ++ text ++ s.color normal ++ [10]

/-- `kissat_section` (print.c:122-143); the constants are `---- [ ` and ` ] `. -/
def State.section (s : State) (name : Text) : Text × State :=
  if s.level < 0 then ([], s)
  else
    ((if s.sectioned then [99, 10] else []) ++ [99, 32] ++ s.color blue ++ [45, 45, 45, 45, 32, 91, 32] ++
      s.color (bold ++ blue) ++ name ++ s.color (normal ++ blue) ++ [32, 93, 32] ++
      List.replicate (66 - name.length) 45 ++ s.color normal ++ [10, 99, 10],
     { s with sectioned := true })

/-- `kissat_phase` (print.c:145-167). -/
def State.phase (s : State) (name : Text) (count : Nat) (text : Text) : Text :=
  if s.level < 1 then []
  else [99, 32] ++ s.color (if s.stable then cyan else bold ++ cyan) ++ [91] ++ name ++
    (if count ≠ 2 ^ 64 - 1 then 45 :: printNat count else []) ++ [93, 32] ++ text ++ s.color normal ++ [10]

/-- The first use of `REPORTS` in `kissat_report` (report.c:50-61): the values, each after a space. -/
def rowOf : List Text → Text
  | [] => []
  | v :: vs => 32 :: v ++ rowOf vs

/-- The second use (report.c:75-93): three rows with names centred on the values.  The first number is `pad[i - 1]`, the
second is `row`; `last[row]` is the length of the row. -/
def headerOf : List (Text × Text) → Nat → Nat → (Nat → Text) → Nat → Text
  | [], _, _, rows => rows
  | (name, value) :: rest, pos, row, rows =>
    let cur := if rows row ≠ [] then rows row ++ [32] else rows row
    let target := pos + 1 + value.length
    let valLen := target - pos - 1
    let target' := if valLen < name.length then target + (name.length - valLen) / 2 else target
    let cur := cur ++ List.replicate (target' - (cur.length + name.length)) 32 ++ name
    headerOf rest target (if row + 1 = 3 then 0 else row + 1) fun j => if j = row then cur else rows j

/-- Lines of the header (report.c:100-108). -/
def State.headerLine (s : State) (row : Text) : Text :=
  [99, 32, 32] ++ s.color cyan ++ row ++ s.color normal ++ [10]

/-- The code for the type of report (report.c:110-148). -/
def typeColor (type : Nat) : Text :=
  if type ∈ [49, 48, 63, 105, 46] then bold
  else if type = 101 then bold ++ green
  else if type ∈ [50, 115] then green
  else if type ∈ [102, 116, 117, 118, 119, 120] then blue
  else if type ∈ [98, 99, 100, 61] then bold ++ blue
  else if type ∈ [91, 93] then magenta
  else if type ∈ [40, 41] then bold ++ yellow
  else []

/-- `kissat_report` (report.c:38-160).  The columns are pairs of name and formatted value; the buffers have 128 bytes,
one of which is the terminating zero. -/
def State.report (s : State) (verbose : Bool) (type : Nat) (columns : List (Text × Text)) : Option (Text × State) :=
  if s.level < 0 then some ([], s)
  else if verbose ∧ s.level < 2 then some ([], s)
  else
    let line := rowOf (columns.map (·.2))
    if 128 < line.length + 1 then none
    else
      let header : Option Text :=
        if s.reports % 20 = 0 then
          let rows := headerOf columns 0 0 fun _ => []
          if 128 < (rows 0).length + 1 ∨ 128 < (rows 1).length + 1 ∨ 128 < (rows 2).length + 1 then none
          else some ((if s.reports + 1 > 1 then [99, 10] else []) ++ s.headerLine (rows 0) ++ s.headerLine (rows 1) ++
            s.headerLine (rows 2) ++ [99, 10])
        else some []
      header.map fun header =>
        (header ++ [99, 32] ++ s.color (typeColor type) ++ [type] ++ s.color normal ++
          (if s.preprocessing then s.color yellow else if s.stable then s.color magenta else []) ++ line ++
          s.color normal ++ [10],
         { s with reports := s.reports + 1 })

/-- The names in `REPORTS` (report.c:17-36). -/
def names : List Text :=
  [[115, 101, 99, 111, 110, 100, 115], [77, 66], [108, 101, 118, 101, 108],
   [115, 119, 105, 116, 99, 104, 101, 100], [114, 101, 100, 117, 99, 116, 105, 111, 110, 115],
   [114, 101, 115, 116, 97, 114, 116, 115], [114, 97, 116, 101], [99, 111, 110, 102, 108, 105, 99, 116, 115],
   [114, 101, 100, 117, 110, 100, 97, 110, 116], [115, 105, 122, 101, 47, 103, 108, 117, 101],
   [115, 105, 122, 101], [103, 108, 117, 101], [116, 105, 101, 114, 49], [116, 105, 101, 114, 50],
   [116, 114, 97, 105, 108], [98, 105, 110, 97, 114, 121],
   [105, 114, 114, 101, 100, 117, 110, 100, 97, 110, 116], [118, 97, 114, 105, 97, 98, 108, 101, 115],
   [114, 101, 109, 97, 105, 110, 105, 110, 103]]

/-- Calls of these functions; `values` are the formatted values of the 19 columns. -/
inductive Call
  | warning (text : Text)
  | signal (text : Text)
  | message (text : Text)
  | line
  | verbose (text : Text)
  | veryVerbose (text : Text)
  | extremelyVerbose (text : Text)
  | section (name : Text)
  | phase (name : Text) (count : Nat) (text : Text)
  | report (verbose : Bool) (type : Nat) (values : List Text)

/-- Output of a call (print.c:28-167, report.c:38-160). -/
def State.print (s : State) : Call → Option (Text × State)
  | .warning text => some (s.warning text, s)
  | .signal text => some (s.signal text, s)
  | .message text => some (if s.level < 0 then [] else s.printMessage [] text, s)
  | .line => some (if s.level ≥ 0 then [99, 10] else [], s)
  | .verbose text => some (if s.level < 1 then [] else s.printMessage lightGray text, s)
  | .veryVerbose text => some (if s.level < 2 then [] else s.printMessage darkGray text, s)
  | .extremelyVerbose text => some (if s.level < 3 then [] else s.printMessage darkGray text, s)
  | .section name => some (s.section name)
  | .phase name count text => some (s.phase name count text, s)
  | .report verbose type values => s.report verbose type (names.zip values)

/-- Output of a list of calls. -/
def State.prints : State → List Call → Option Text
  | _, [] => some []
  | s, c :: cs => (s.print c).bind fun (out, s) => (s.prints cs).map (out ++ ·)

end Verif.Model.Print
