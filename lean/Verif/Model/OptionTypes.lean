/-
Types for the model of /repo/src/options.c and /repo/src/options.h.
C strings are lists of bytes (`Nat`) without the terminating zero.
-/
namespace Verif.Model.Options

/-- C strings without the terminating zero byte. -/
abbrev CStr := List Nat

/-- options.h:194-216: by which macro an option is defined, which says
in which builds it exists. -/
inductive Kind where
  | always | debug | logging | notQuiet | embedded
  deriving DecidableEq, Repr

/-- The compile time switches which influence the option table
(options.h:182-216: `NDEBUG` negated, `LOGGING`, `QUIET`, `EMBEDDED`, `SAT`, `UNSAT`). -/
structure Build where
  debug : Bool
  logging : Bool
  quiet : Bool
  embedded : Bool
  sat : Bool
  unsat : Bool

/-- options.h:227-236 `struct opt` without the description. -/
structure Opt where
  name : CStr
  value : Int
  low : Int
  high : Int
  deriving DecidableEq, Repr

end Verif.Model.Options
