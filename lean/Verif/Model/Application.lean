/-!
# The program around the library: `run_application` (application.c), `main` (main.c)

What happens in the parts is a parameter: whether options, proof file and input are fine and what
`kissat_solve` returns.  Only standard output and the exit code are modelled, of standard output
only status lines and what follows them.
-/

namespace Verif.Model.Application

/-- The option `-o`. -/
inductive Output
  | none
  | stdout
  | file (writable : Bool)
  deriving DecidableEq

/-- What the parts of the program do. -/
structure Setup where
  /-- `argc == 2` and the argument is one of those which only print information (application.c:773-775). -/
  information : Bool
  /-- `parse_options` succeeds (application.c:778). -/
  optionsOk : Bool
  /-- `write_proof` succeeds (application.c:791). -/
  proofOk : Bool
  /-- `parse_input` succeeds (application.c:794). -/
  inputOk : Bool
  /-- `kissat_solve` returns (application.c:807). -/
  answer : Int
  /-- `application.output_path`. -/
  output : Output
  /-- `application.witness`. -/
  witness : Bool

/-- What is printed on standard output. -/
inductive Item
  | status (text : String)
  | witness
  | dimacs
  deriving DecidableEq, Repr

/-- `run_application` (application.c:770-868): items printed and the value returned.  `ERROR` returns `false`, that is 0. -/
def run (s : Setup) : List Item × Int :=
  if s.information then ([], 0)
  else if !s.optionsOk then ([], 1)
  else if !s.proofOk then ([], 1)
  else if !s.inputOk then ([], 1)
  else
    let res := s.answer
    let items :=
      if s.output = .stdout then []
      else if res = 20 then [.status "s UNSATISFIABLE"]
      else if res = 10 then .status "s SATISFIABLE" :: (if s.witness then [.witness] else [])
      else [.status "s UNKNOWN"]
    match s.output with
    | .none => (items, res)
    | .stdout => (items ++ [.dimacs], res)
    | .file writable => if !writable then (items, 0) else (items, res)

/-- `kissat_application` and `main` (application.c:871-877, main.c:44-59) return the same value; without
`NDEBUG` the program returns what `kissat_dump (0)` returns, which is 0, instead of 0. -/
def main (s : Setup) : List Item × Int := run s

end Verif.Model.Application
