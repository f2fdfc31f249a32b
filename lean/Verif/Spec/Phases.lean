import Verif.Model.Phases

/-!
# Histories of assignments and rephasing

In terms of the states which occur while a list of calls is executed.
-/

namespace Verif.Spec.Phases

open Verif.Model.Phases

/-- Assignments count in stable mode outside of probing. -/
def Counted (s : State) : Prop := s.stable = true ∧ s.probing = false

/-- All assignments which are counted while the calls are executed have the property. -/
def During (P : State → Prop) (s : State) (ops : List Op) : Prop :=
  ∀ a b t, ops = a ++ .update :: b → run s a = some t → Counted t → P t

/-- Number of times phases are reset. -/
def rephasings : List Op → Nat
  | [] => 0
  | .rephase _ :: ops => rephasings ops + 1
  | _ :: ops => rephasings ops

/-- The kinds of rephasing take turns. -/
def kindOf (n : Nat) : Kind :=
  if n % 3 = 0 then .best
  else if n % 3 = 1 then .walking
  else if n % 2 = 0 then .inverted
  else .original

/-- No call resets phases to the best ones, if there were `n` rephasings before. -/
def NoBest (n : Nat) (ops : List Op) : Prop :=
  ∀ a b w, ops = a ++ .rephase w :: b → kindOf (n + rephasings a) ≠ .best

/-- What the kinds of rephasing do with saved phases. -/
def Resets (s : State) (walk : Option (List Int)) (saved : List Int) : Kind → Prop
  | .best => ∀ (v : Nat) (x : Int), s.best[v]? = some x → saved[v]? = if x ≠ 0 then some x else s.saved[v]?
  | .original => ∀ v : Nat, v < s.vars → saved[v]? = some s.initial
  | .inverted => ∀ v : Nat, v < s.vars → saved[v]? = some (-s.initial)
  | .walking => saved = walk.getD s.saved

/-- Calls within range. -/
def Legal (s : State) : Op → Prop
  | .assign lit => lit < 2 * s.vars
  | .unassign lit => lit < 2 * s.vars
  | .rephase walk => ∀ w, walk = some w → w.length = s.vars
  | .walk vs => vs.length = s.vars
  | _ => True

/-- Number of variables with a value. -/
def valued (s : State) : Nat := (List.range s.vars).countP fun v => s.values.getD (2 * v) 0 != 0

/-- Number of variables removed and not come back. -/
def gone : List Op → Int
  | [] => 0
  | .remove :: ops => gone ops + 1
  | .insert :: ops => gone ops - 1
  | _ :: ops => gone ops

/-- Calls as the solver makes them: literals in use without value are assigned, literals with a value unassigned, a variable
without value is removed, a removed one comes back. -/
def Proper (s : State) : Op → Prop
  | .assign lit => lit < 2 * s.vars ∧ s.values.getD (2 * (lit / 2)) 0 = 0 ∧ 0 < s.unassigned
  | .unassign lit => lit < 2 * s.vars ∧ s.values.getD (2 * (lit / 2)) 0 ≠ 0
  | .remove => 0 < s.unassigned
  | .insert => s.unassigned + valued s < s.vars
  | _ => True

/-- All calls of the history are proper. -/
def ProperRun : State → List Op → Prop
  | _, [] => True
  | s, op :: ops => Proper s op ∧ ∀ s', exec s op = some s' → ProperRun s' ops

end Verif.Spec.Phases
