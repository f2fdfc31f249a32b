/-!
# Signal handlers: `handle.c`

Functions are sequences of atomic instructions.  A signal can arrive before each of them: then the handler
runs to completion (with further signals in between) before the interrupted function goes on.  While the handler
of a signal runs the same signal is blocked, as `signal` does on BSD and Linux; if it arrives (or is raised)
it is delivered as soon as the handler returns.  Simplifications: the compiler does not reorder the
accesses to variables that are not `volatile`; other threads do not exist.
-/

namespace Verif.Model.Handle

/-- What happens when a signal is delivered: the default action (which ends the process), nothing, another function, or
`catch_signal`. -/
inductive Action
  | default
  | ignore
  | other (f : Nat)
  | catch
  deriving DecidableEq, Repr

inductive Instr
  /-- `if (caught_signal) return;` (handle.c:34-35) -/
  | check
  /-- `caught_signal = sig;` (handle.c:36) -/
  | setCaught (sig : Nat)
  /-- `handler (sig);` (handle.c:39) -/
  | callback (sig : Nat)
  /-- `if (!handler_set) return;` (handle.c:21-22) with the number of instructions skipped -/
  | test (skip : Nat)
  /-- `signal (SIG, SIG_handler);` (handle.c:24) -/
  | restore (sig : Nat)
  /-- `handler_set = false;` (handle.c:27) -/
  | clearSet
  /-- `handler = 0;` (handle.c:28) -/
  | clearHandler
  /-- `raise (sig);` (handle.c:41) -/
  | raise (sig : Nat)
  /-- `handler = h;` (handle.c:46) -/
  | setHandler
  /-- `handler_set = true;` (handle.c:47) -/
  | setSet
  /-- the call of `signal (SIG, catch_signal)` (handle.c:48) -/
  | install (sig : Nat)
  /-- the assignment `SIG_handler = ..` (handle.c:48) of what `signal` has returned -/
  | store (sig : Nat) (old : Action)
  deriving DecidableEq, Repr

/-- `SIGNALS` (handle.h:18-23): SIGABRT, SIGBUS, SIGINT, SIGSEGV and SIGTERM with their numbers. -/
def signals : List Nat := [6, 7, 2, 11, 15]

/-- `kissat_reset_signal_handler` (handle.c:18-29). -/
def resetCode : List Instr := .test 7 :: signals.map .restore ++ [.clearSet, .clearHandler]

/-- `catch_signal` (handle.c:33-42). -/
def catchCode (sig : Nat) : List Instr := [.check, .setCaught sig, .callback sig] ++ resetCode ++ [.raise sig]

/-- `kissat_init_signal_handler` (handle.c:44-51). -/
def initCode : List Instr := .setHandler :: .setSet :: signals.map .install

/-- What can be observed. -/
inductive Event
  /-- The callback given to `kissat_init_signal_handler` runs. -/
  | callback (sig : Nat)
  /-- A null pointer is called. -/
  | crash
  /-- The action, other than `catch_signal`, for a signal is performed. -/
  | acted (sig : Nat) (a : Action)
  deriving DecidableEq, Repr

/-- A running function: the signal it handles, if any, and the instructions left. -/
structure Frame where
  sig : Option Nat
  code : List Instr
  deriving DecidableEq

structure State where
  /-- `handler` is not null. -/
  handler : Bool
  /-- `caught_signal`. -/
  caught : Nat
  /-- `handler_set`. -/
  set : Bool
  /-- `SIG_handler`. -/
  saved : Nat → Action
  /-- Actions known to the operating system. -/
  action : Nat → Action
  /-- Signals that arrived while blocked. -/
  pending : List Nat
  /-- The functions running, the interrupted ones after those which interrupted them. -/
  frames : List Frame
  log : List Event
  /-- The process has ended. -/
  ended : Bool

def update (f : Nat → Action) (i : Nat) (a : Action) : Nat → Action := fun j => if j = i then a else f j

/-- The signal is blocked. -/
def State.blocked (s : State) (sig : Nat) : Bool := s.frames.any fun f => f.sig = some sig

/-- The operating system delivers a signal. -/
def State.deliver (s : State) (sig : Nat) : State :=
  match s.action sig with
  | .catch => { s with frames := ⟨some sig, catchCode sig⟩ :: s.frames }
  | .default => { s with log := s.log ++ [.acted sig .default], ended := true }
  | a => { s with log := s.log ++ [.acted sig a] }

/-- A signal arrives. -/
def State.arrive (s : State) (sig : Nat) : State :=
  if s.blocked sig then { s with pending := sig :: s.pending } else s.deliver sig

/-- The first instruction of the function running. -/
def State.exec (s : State) (sig : Option Nat) (i : Instr) (code : List Instr) (fs : List Frame) : State :=
  let s := { s with frames := ⟨sig, code⟩ :: fs }
  match i with
  | .check => if s.caught ≠ 0 then { s with frames := ⟨sig, []⟩ :: fs } else s
  | .setCaught sig => { s with caught := sig }
  | .callback sig =>
    if s.handler then { s with log := s.log ++ [.callback sig] }
    else { s with log := s.log ++ [.crash], ended := true }
  | .test skip => if s.set then s else { s with frames := ⟨sig, code.drop skip⟩ :: fs }
  | .restore sig => { s with action := update s.action sig (s.saved sig) }
  | .clearSet => { s with set := false }
  | .clearHandler => { s with handler := false }
  | .raise sig => s.arrive sig
  | .setHandler => { s with handler := true }
  | .setSet => { s with set := true }
  | .install n => { s with action := update s.action n .catch, frames := ⟨sig, .store n (s.action n) :: code⟩ :: fs }
  | .store sig old => { s with saved := update s.saved sig old }

/-- Some signal is waiting which is not blocked. -/
def State.due (s : State) (sig : Nat) : Prop := sig ∈ s.pending ∧ s.blocked sig = false

/-- What can happen next while the process runs. -/
inductive Step : State → State → Prop
  /-- a signal arrives -/
  | arrives {s : State} {sig : Nat} : sig ∈ signals → s.ended = false → Step s (s.arrive sig)
  /-- a waiting signal is delivered; this comes before the next instruction -/
  | waiting {s : State} {sig : Nat} : s.ended = false → s.due sig →
      Step s (State.deliver { s with pending := s.pending.filter (· ≠ sig) } sig)
  | exec {s : State} {sig : Option Nat} {i : Instr} {code : List Instr} {fs : List Frame} : s.ended = false →
      (∀ n, ¬ s.due n) → s.frames = ⟨sig, i :: code⟩ :: fs → Step s (s.exec sig i code fs)
  /-- a function returns -/
  | return {s : State} {f : Frame} {fs : List Frame} : s.ended = false → (∀ n, ¬ s.due n) →
      s.frames = f :: fs → f.code = [] → Step s { s with frames := fs }

/-- Executions. -/
inductive Steps : State → State → Prop
  | refl (s : State) : Steps s s
  | tail {s t u : State} : Steps s t → Step t u → Steps s u

/-- At the start of the program, with the actions inherited from whoever started it (handle.c:7-16: static
variables are zero, for pointers to functions this is the default action): what is left of `main` is to
install and to reset the handlers. -/
def start (inherited : Nat → Action) : State where
  handler := false
  caught := 0
  set := false
  saved _ := .default
  action := inherited
  pending := []
  frames := [⟨none, initCode ++ resetCode⟩]
  log := []
  ended := false

/-- After the handlers are installed. -/
def installed (inherited : Nat → Action) : State where
  handler := true
  caught := 0
  set := true
  saved n := if n ∈ signals then inherited n else .default
  action n := if n ∈ signals then .catch else inherited n
  pending := []
  frames := [⟨none, resetCode⟩]
  log := []
  ended := false

end Verif.Model.Handle

/-! ## The alarm

The only signal is SIGALRM, so its handler is never interrupted and can be modelled as one step. -/

namespace Verif.Model.Handle.Alarm

inductive Event
  | callback
  | crash
  | acted (a : Action)
  deriving DecidableEq, Repr

structure State where
  /-- `caught_alarm`. -/
  caught : Bool
  /-- `alarm_handler_set`. -/
  set : Bool
  /-- `handle_alarm` is not null. -/
  handler : Bool
  /-- `SIGALRM_handler`. -/
  saved : Action
  action : Action
  log : List Event
  ended : Bool
  deriving DecidableEq

/-- `catch_alarm` (handle.c:58-69).  The signal raised is blocked until the function returns; as `caught_alarm` is
set it then does nothing. -/
def State.catchAlarm (s : State) : State :=
  if s.caught then s
  else
    let s := { s with caught := true }
    if s.handler then { s with log := s.log ++ [.callback] }
    else { s with log := s.log ++ [.crash], ended := true }

/-- SIGALRM is delivered. -/
def State.alarm (s : State) : State :=
  if s.ended then s
  else
    match s.action with
    | .catch => s.catchAlarm
    | .default => { s with log := s.log ++ [.acted .default], ended := true }
    | a => { s with log := s.log ++ [.acted a] }

/-- SIGALRM is delivered a number of times. -/
def State.alarms (s : State) : Nat → State
  | 0 => s
  | n + 1 => s.alarm.alarms n

/-- An instruction of `main`, unless the process has ended. -/
def State.do (s : State) (f : State → State) : State := if s.ended then s else f s

/-- `kissat_init_alarm` and `kissat_reset_alarm` (handle.c:71-86) with alarms before, between and after their
instructions; `signal` and the assignment of its result are one step. -/
def run (inherited : Action) (a0 a1 a2 a3 a4 a5 a6 : Nat) : State :=
  let s : State := ⟨false, false, false, .default, inherited, [], false⟩
  let s := (s.alarms a0).do fun s => { s with handler := true }
  let s := (s.alarms a1).do fun s => { s with set := true }
  let s := (s.alarms a2).do fun s => { s with saved := s.action, action := .catch }
  let s := (s.alarms a3).do fun s => { s with set := false }
  let s := (s.alarms a4).do fun s => { s with handler := false }
  let s := (s.alarms a5).do fun s => { s with action := s.saved }
  s.alarms a6

end Verif.Model.Handle.Alarm
